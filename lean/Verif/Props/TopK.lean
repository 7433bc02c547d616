import Mathlib.Algebra.Order.Floor.Ring
import Mathlib.Data.List.Sort
import Mathlib.Data.Rat.Floor
import Mathlib.Tactic.Linarith
import Verif.Lemmas.Reshape
import Verif.Model.Pruning

/-!
# Masks of the largest elements (C144)
-/

set_option linter.unusedVariables false
set_option linter.unusedSectionVars false

namespace Verif.Props.Pruning
open Verif.Shapes (Err size)
open Verif.Conv (indices)
open Verif.Props.Reset (Valid mem_indices)
open Verif.Pruning

/-! ### Specification -/

section
variable {K : Type} [Field K] [LinearOrder K] [IsStrictOrderedRing K]

/-- What `jnp.argsort` promises: an order of the positions in which the elements ascend.  Nothing is said about equal elements. -/
def Sorts (argsort : List K → List Nat) : Prop := ∀ l, (argsort l).Perm (List.range l.length) ∧ (argsort l).Pairwise fun i j => l.getD i 0 ≤ l.getD j 0

/-- What `jax.random.shuffle` promises: some order of the positions. -/
def Shuffles (shuffle : Nat → List Nat) : Prop := ∀ n, (shuffle n).Perm (List.range n)

/-- `k` is an integer nearest to `x`, and the even one if there are two. -/
def Nearest (x : K) (k : Int) : Prop := |x - k| ≤ 1 / 2 ∧ (|x - k| = 1 / 2 → k % 2 = 0)

/-- The number of ones of an array. -/
def ones (m : Leaf K) : Nat := ((indices m.shape).filter fun i => decide (m.val i = 1)).length

end

/-! ### Writing to an array -/

section
variable {β : Type}

theorem indexUpdate_cons (x : List β) (a : Nat) (idx : List Nat) (b : β) (y : List β) : indexUpdate x (a :: idx) (b :: y) = indexUpdate (x.set a b) idx y := rfl

theorem indexUpdate_length : ∀ (idx : List Nat) (x y : List β), (indexUpdate x idx y).length = x.length
  | [], x, y => rfl
  | a :: idx, x, [] => rfl
  | a :: idx, x, b :: y => by rw [indexUpdate_cons, indexUpdate_length, List.length_set]

theorem indexUpdate_other : ∀ (idx : List Nat) (x y : List β) (p : Nat), p ∉ idx → (indexUpdate x idx y)[p]? = x[p]?
  | [], x, y, p, _ => rfl
  | a :: idx, x, [], p, _ => rfl
  | a :: idx, x, b :: y, p, h => by
    rw [indexUpdate_cons, indexUpdate_other idx _ _ p fun hm => h (List.mem_cons_of_mem _ hm), List.getElem?_set_ne fun e => h (List.mem_cons.mpr (.inl e.symm))]

theorem indexUpdate_get : ∀ (idx : List Nat) (x y : List β) (r : Nat) (p : Nat), idx.Nodup → (∀ q ∈ idx, q < x.length) → y.length = idx.length → idx[r]? = some p →
    (indexUpdate x idx y)[p]? = y[r]?
  | [], x, y, r, p, _, _, _, h => by simp at h
  | a :: idx, x, [], r, p, _, _, hl, h => by simp at hl
  | a :: idx, x, b :: y, r, p, hn, hb, hl, h => by
    rw [indexUpdate_cons]
    cases r with
    | zero =>
      cases Option.some.inj h
      rw [indexUpdate_other _ _ _ _ (List.nodup_cons.mp hn).1, List.getElem?_set_self (hb _ List.mem_cons_self)]
      rfl
    | succ r =>
      exact indexUpdate_get idx _ y r p (List.nodup_cons.mp hn).2 (fun q hq => by rw [List.length_set]; exact hb q (List.mem_cons_of_mem _ hq)) (Nat.succ.inj hl) h

theorem map_getD (l : List β) (d : β) : (List.range l.length).map (fun p => l.getD p d) = l := by
  refine List.ext_getElem (by simp) fun k h1 h2 => ?_
  rw [List.getElem_map, List.getElem_range, List.getD_eq_getElem _ _ h2]

/-- Writing along an order of all positions rearranges the elements. -/
theorem indexUpdate_perm {idx : List Nat} {x y : List β} (hp : idx.Perm (List.range x.length)) (hl : y.length = x.length) (d : β) : (indexUpdate x idx y).Perm y := by
  have hn : idx.Nodup := hp.nodup_iff.mpr List.nodup_range
  have hb : ∀ q ∈ idx, q < x.length := fun q hq => List.mem_range.mp (hp.mem_iff.mp hq)
  have hil : idx.length = x.length := by rw [hp.length_eq, List.length_range]
  have e1 : idx.map (fun p => (indexUpdate x idx y).getD p d) = y := by
    refine List.ext_getElem (by rw [List.length_map]; omega) fun k h1 h2 => ?_
    have hk : k < idx.length := by omega
    rw [List.getElem_map, List.getD_eq_getElem?_getD, indexUpdate_get idx x y k _ hn hb (by omega) (List.getElem?_eq_getElem hk), List.getElem?_eq_getElem h2]
    rfl
  have e2 := map_getD (indexUpdate x idx y) d
  rw [indexUpdate_length] at e2
  have := hp.map (fun p => (indexUpdate x idx y).getD p d)
  rw [e1, e2] at this
  exact this.symm

end

/-! ### Rounding -/

section
variable {K : Type} [Field K] [LinearOrder K] [IsStrictOrderedRing K] [FloorRing K]

theorem roundEven_nearest (x : K) : Nearest x (roundEven x) := by
  have h0 := Int.floor_le x
  have h1 := Int.lt_floor_add_one x
  unfold Nearest roundEven
  dsimp only
  split
  · rename_i h
    rw [abs_of_nonneg (by linarith)]
    exact ⟨by linarith, fun e => absurd h (by linarith)⟩
  · rename_i h
    split
    · rename_i h'
      push_cast
      rw [abs_of_nonpos (by linarith)]
      exact ⟨by linarith, fun e => absurd h' (by linarith)⟩
    · rename_i h'
      have he : x - ⌊x⌋ = 1 / 2 := le_antisymm (not_lt.mp h') (not_lt.mp h)
      split
      · rename_i he2
        rw [abs_of_nonneg (by linarith)]
        exact ⟨he.le, fun _ => he2⟩
      · rename_i he2
        push_cast
        rw [abs_of_nonpos (by linarith)]
        exact ⟨by linarith, fun _ => by omega⟩

theorem nearest_unique {x : K} {k l : Int} (hk : Nearest x k) (hl : Nearest x l) : k = l := by
  have key : ∀ {k l : Int}, Nearest x k → Nearest x l → k ≤ l := by
    intro k l hk hl
    by_contra hlt
    have h1 : (l : K) + 1 ≤ k := by exact_mod_cast (not_le.mp hlt)
    have a1 := abs_le.mp hk.1
    have a2 := abs_le.mp hl.1
    have e1 : x - k = -(1 / 2) := by linarith
    have e2 : x - l = 1 / 2 := by linarith
    have hk2 := hk.2 (by rw [e1, abs_neg, abs_of_pos (by norm_num)])
    have hl2 := hl.2 (by rw [e2, abs_of_pos (by norm_num)])
    have : (k : K) = ((l + 1 : Int) : K) := by push_cast; linarith
    have := Int.cast_injective this
    omega
  exact le_antisymm (key hk hl) (key hl hk)

theorem nearest_mono {x y : K} (h : x ≤ y) {k l : Int} (hk : Nearest x k) (hl : Nearest y l) : k ≤ l := by
  by_contra hlt
  have h1 : (l : K) + 1 ≤ k := by exact_mod_cast (not_le.mp hlt)
  have a1 := abs_le.mp hk.1
  have a2 := abs_le.mp hl.1
  have e : x = y := by linarith
  subst e
  exact hlt (nearest_unique hk hl).le

theorem roundEven_eq {x : K} {k : Int} (h : Nearest x k) : roundEven x = k := nearest_unique (roundEven_nearest x) h

theorem nearest_int (n : Int) : Nearest (n : K) n := by
  unfold Nearest
  rw [sub_self, abs_zero]
  exact ⟨by norm_num, fun h => absurd h (by norm_num)⟩

end

/-! ### The order in which positions are kept -/

section
variable {K : Type} [Field K] [LinearOrder K] [IsStrictOrderedRing K] [FloorRing K]

/-- The positions of a flat array in the order of the sorted, shuffled elements. -/
def order (argsort : List K → List Nat) (shuffle : Nat → List Nat) (v : List K) : List Nat :=
  (argsort (gather v (shuffle v.length))).map fun q => (shuffle v.length).getD q 0

theorem order_perm {argsort : List K → List Nat} {shuffle : Nat → List Nat} (ha : Sorts argsort) (hs : Shuffles shuffle) (v : List K) : (order argsort shuffle v).Perm (List.range v.length) := by
  have h1 := (ha (gather v (shuffle v.length))).1
  have hl : (gather v (shuffle v.length)).length = (shuffle v.length).length := by simp [gather]
  rw [hl] at h1
  have := h1.map fun q => (shuffle v.length).getD q 0
  rw [map_getD] at this
  exact this.trans (hs v.length)

theorem order_sorted {argsort : List K → List Nat} {shuffle : Nat → List Nat} (ha : Sorts argsort) (hs : Shuffles shuffle) (v : List K) :
    (order argsort shuffle v).Pairwise fun i j => v.getD i 0 ≤ v.getD j 0 := by
  unfold order
  rw [List.pairwise_map]
  have hl : (gather v (shuffle v.length)).length = (shuffle v.length).length := by simp [gather]
  have hm : ∀ q ∈ argsort (gather v (shuffle v.length)), q < (shuffle v.length).length := fun q hq => by
    have := List.mem_range.mp ((ha _).1.mem_iff.mp hq)
    omega
  refine List.Pairwise.imp_of_mem ?_ (ha (gather v (shuffle v.length))).2
  intro a b h1 h2 h
  have e : ∀ q, q < (shuffle v.length).length → (gather v (shuffle v.length)).getD q 0 = v.getD ((shuffle v.length).getD q 0) 0 := by
    intro q hq
    unfold gather
    rw [List.getD_eq_getElem _ _ (by rw [List.length_map]; exact hq), List.getElem_map, List.getD_eq_getElem _ 0 hq]
  rw [← e a (hm a h1), ← e b (hm b h2)]
  exact h

/-- The flat mask. -/
def flatMask (argsort : List K → List Nat) (shuffle : Nat → List Nat) (v : List K) (density : K) : List K :=
  indexUpdate (List.replicate (topkInternal argsort density (gather v (shuffle v.length))).length 0) (shuffle v.length) (topkInternal argsort density (gather v (shuffle v.length)))

theorem internal_length (argsort : List K → List Nat) (density : K) (v : List K) : (topkInternal argsort density v).length = v.length := by
  simp [topkInternal, indexUpdate_length]

theorem gather_length (v : List K) (idx : List Nat) : (gather v idx).length = idx.length := by simp [gather]

theorem internal_get {argsort : List K → List Nat} (ha : Sorts argsort) (density : K) (v : List K) {r p : Nat} (h : (argsort v)[r]? = some p) :
    (topkInternal argsort density v)[p]? = some (if (v.length : Int) - roundEven (density * v.length) ≤ r then 1 else 0) := by
  obtain ⟨hp, _⟩ := ha v
  have hn : (argsort v).Nodup := hp.nodup_iff.mpr List.nodup_range
  have hb : ∀ q ∈ argsort v, q < v.length := fun q hq => List.mem_range.mp (hp.mem_iff.mp hq)
  have hil : (argsort v).length = v.length := by rw [hp.length_eq, List.length_range]
  have hr : r < v.length := by
    rw [← hil]
    exact (List.getElem?_eq_some_iff.mp h).1
  unfold topkInternal
  dsimp only
  rw [List.getElem?_map, indexUpdate_get _ _ _ r p hn (by simpa using hb) (by simpa using hil.symm) h, List.getElem?_map, List.getElem?_range hr]
  simp

theorem flatMask_length {argsort : List K → List Nat} {shuffle : Nat → List Nat} (hs : Shuffles shuffle) (v : List K) (density : K) :
    (flatMask argsort shuffle v density).length = v.length := by
  unfold flatMask
  rw [indexUpdate_length, List.length_replicate, internal_length, gather_length, (hs _).length_eq, List.length_range]

/-- The element of the mask at the position that comes at rank `r`. -/
theorem flatMask_get {argsort : List K → List Nat} {shuffle : Nat → List Nat} (ha : Sorts argsort) (hs : Shuffles shuffle) (v : List K) (density : K) {r p : Nat}
    (h : (order argsort shuffle v)[r]? = some p) :
    (flatMask argsort shuffle v density)[p]? = some (if (v.length : Int) - roundEven (density * v.length) ≤ r then 1 else 0) := by
  have hn : (shuffle v.length).Nodup := (hs _).nodup_iff.mpr List.nodup_range
  have hb : ∀ q ∈ shuffle v.length, q < v.length := fun q hq => List.mem_range.mp ((hs _).mem_iff.mp hq)
  have hil : (shuffle v.length).length = v.length := by rw [(hs _).length_eq, List.length_range]
  unfold order at h
  rw [List.getElem?_map] at h
  cases hq : (argsort (gather v (shuffle v.length)))[r]? with
  | none => simp [hq] at h
  | some q =>
    rw [hq] at h
    have h' : (shuffle v.length).getD q 0 = p := Option.some.inj h
    have hq' : q < (shuffle v.length).length := by
      have := List.mem_range.mp ((ha _).1.mem_iff.mp (List.mem_of_getElem? hq))
      rwa [gather_length] at this
    have h2 := internal_get ha density _ hq
    rw [gather_length, hil] at h2
    unfold flatMask
    rw [indexUpdate_get _ _ _ q p hn (by simpa [internal_length, gather_length, hil] using hb) (by rw [internal_length, gather_length]) (by rw [← h', List.getElem?_eq_getElem hq', List.getD_eq_getElem _ _ hq'])]
    exact h2

theorem flatMask_count {argsort : List K → List Nat} {shuffle : Nat → List Nat} (ha : Sorts argsort) (hs : Shuffles shuffle) (v : List K) (density : K) :
    (flatMask argsort shuffle v density).countP (fun x => decide (x = 1)) = min (roundEven (density * v.length)).toNat v.length := by
  have hil : (shuffle v.length).length = v.length := by rw [(hs _).length_eq, List.length_range]
  have hlen : (topkInternal argsort density (gather v (shuffle v.length))).length = v.length := by rw [internal_length, gather_length, hil]
  unfold flatMask
  rw [(indexUpdate_perm (d := 0) (by rw [List.length_replicate, hlen]; exact hs _) (by rw [List.length_replicate])).countP_eq]
  have hg : (gather v (shuffle v.length)).length = v.length := by rw [gather_length, hil]
  unfold topkInternal
  dsimp only
  rw [List.countP_map, hg, (indexUpdate_perm (d := false) (by have h1 := (ha (gather v (shuffle v.length))).1; rw [hg] at h1; rw [List.length_replicate]; exact h1) (by simp)).countP_eq, List.countP_map]
  generalize roundEven (density * (v.length : K)) = k
  generalize v.length = n
  have e : (fun i : Nat => ((fun x : K => decide (x = 1)) ∘ fun b : Bool => if b then (1 : K) else 0) (decide ((n : Int) - k ≤ i))) = fun (i : Nat) => decide ((n : Int) - k ≤ i) := by
    funext i
    by_cases h : (n : Int) - k ≤ i <;> simp [h]
  show List.countP (fun i : Nat => ((fun x : K => decide (x = 1)) ∘ fun b : Bool => if b then (1 : K) else 0) (decide ((n : Int) - k ≤ i))) (List.range n) = _
  rw [e]
  have count : ∀ m : Nat, m ≤ n → List.countP (fun i : Nat => decide ((n : Int) - k ≤ i)) (List.range m) = ((m : Int) - max 0 (n - k)).toNat := by
    intro m
    induction m with
    | zero => intro _; simp; omega
    | succ m ih =>
      intro hm
      rw [List.range_succ, List.countP_append, ih (by omega), List.countP_singleton]
      by_cases h : (n : Int) - k ≤ m
      · simp only [h, decide_true, if_true]; omega
      · simp only [h, decide_false]; simp; omega
  rw [count n (le_refl n)]
  omega

/-! ### Positions -/

theorem indices_unravel : ∀ s : List Nat, indices s = (List.range (size s)).map (Nd.unravel s)
  | [] => rfl
  | n :: s => by
    show ((List.range n).flatMap fun i => (indices s).map (i :: ·)) = (List.range (n * size s)).map fun p => p / size s :: Nd.unravel s (p % size s)
    rw [indices_unravel s]
    induction n with
    | zero => simp
    | succ n ih =>
      rw [List.range_succ, List.flatMap_append, ih, Nat.succ_mul, List.range_add, List.map_append, List.map_map]
      congr 1
      rw [List.flatMap_singleton, List.map_map]
      refine List.map_congr_left fun p hp => ?_
      have hp := List.mem_range.mp hp
      have h0 : 0 < size s := by omega
      show n :: _ = (n * size s + p) / size s :: Nd.unravel s ((n * size s + p) % size s)
      rw [Nat.mul_comm n, Nat.mul_add_div h0, Nat.div_eq_of_lt hp, Nat.mul_add_mod, Nat.mod_eq_of_lt hp, Nat.add_zero]

theorem flat_length (x : Leaf K) : (flat x).length = size x.shape := by simp [flat]

theorem flat_get (x : Leaf K) {i : List Nat} (h : Valid x.shape i) : (flat x).getD (Nd.ravel x.shape i) 0 = x.val i := by
  have hl := Nd.ravel_lt h
  unfold flat
  rw [List.getD_eq_getElem _ _ (by simpa using hl), List.getElem_map, List.getElem_range, Nd.unravel_ravel h]

/-- The elements of an array are those at its positions. -/
theorem flat_indices (x : Leaf K) : flat x = (indices x.shape).map x.val := by
  rw [indices_unravel, List.map_map]
  rfl

/-- What the mask is at a position: there is a rank that says so. -/
theorem mask_rank {argsort : List K → List Nat} {shuffle : Nat → List Nat} (ha : Sorts argsort) (hs : Shuffles shuffle) (x : Leaf K) {i : List Nat} (h : Valid x.shape i) :
    ∃ r, (order argsort shuffle (flat x))[r]? = some (Nd.ravel x.shape i) ∧ r < size x.shape ∧
      ∀ density, (topkMask argsort shuffle x density).val i = if (size x.shape : Int) - roundEven (density * size x.shape) ≤ r then 1 else 0 := by
  have hl := Nd.ravel_lt h
  have hm : Nd.ravel x.shape i ∈ order argsort shuffle (flat x) := (order_perm ha hs (flat x)).mem_iff.mpr (List.mem_range.mpr (by rw [flat_length]; exact hl))
  obtain ⟨r, hr⟩ := List.mem_iff_getElem?.mp hm
  refine ⟨r, hr, ?_, fun density => ?_⟩
  · have := (List.getElem?_eq_some_iff.mp hr).1
    rwa [(order_perm ha hs (flat x)).length_eq, List.length_range, flat_length] at this
  · have := flatMask_get ha hs (flat x) density hr
    rw [flat_length] at this
    show (flatMask argsort shuffle (flat x) density).getD (Nd.ravel x.shape i) 0 = _
    rw [List.getD_eq_getElem?_getD, this]
    rfl

theorem unflat_flat (s : List Nat) (l : List K) (h : l.length = size s) : flat (unflat s l) = l := by
  unfold flat unflat
  dsimp only
  refine List.ext_getElem (by simp [h]) fun k h1 h2 => ?_
  rw [List.getElem_map, List.getElem_range]
  have hk : k < size s := by omega
  have : Nd.ravel s (Nd.unravel s k) = k := by
    clear h h1 h2 l
    induction s generalizing k with
    | nil => simp [size] at hk; simp [Nd.ravel, hk]
    | cons n s ih =>
      have h0 : 0 < size s := by
        rcases Nat.eq_zero_or_pos (size s) with e | e
        · rw [Nd.size_cons, e, Nat.mul_zero] at hk; exact absurd hk (Nat.not_lt_zero _)
        · exact e
      show k / size s * size s + Nd.ravel s (Nd.unravel s (k % size s)) = k
      rw [ih _ (Nat.mod_lt _ h0), Nat.mul_comm]
      exact Nat.div_add_mod k (size s)
  rw [this, List.getD_eq_getElem _ _ h2]

/-! ### Theorems -/

/-- C144: the mask has the shape of the array and is 0 or 1 everywhere. -/
theorem topk_binary {argsort : List K → List Nat} {shuffle : Nat → List Nat} (ha : Sorts argsort) (hs : Shuffles shuffle) (x : Leaf K) (density : K) :
    (topkMask argsort shuffle x density).shape = x.shape ∧
      ∀ i, Valid x.shape i → (topkMask argsort shuffle x density).val i = 0 ∨ (topkMask argsort shuffle x density).val i = 1 := by
  refine ⟨rfl, fun i hi => ?_⟩
  obtain ⟨r, _, _, h⟩ := mask_rank ha hs x hi
  rw [h]
  split
  · exact .inr rfl
  · exact .inl rfl

/-- C144: the mask has as many ones as the integer nearest to the fraction of the size, but at least none and at most all. -/
theorem topk_count {argsort : List K → List Nat} {shuffle : Nat → List Nat} (ha : Sorts argsort) (hs : Shuffles shuffle) (x : Leaf K) (density : K) (k : Int)
    (hk : Nearest (density * size x.shape) k) : ones (topkMask argsort shuffle x density) = min k.toNat (size x.shape) := by
  have h1 := flatMask_count ha hs (flat x) density
  rw [flat_length, roundEven_eq hk] at h1
  rw [← h1]
  have h2 : flat (topkMask argsort shuffle x density) = flatMask argsort shuffle (flat x) density := unflat_flat _ _ (by
    have := flatMask_length (argsort := argsort) hs (flat x) density
    rw [flat_length] at this
    exact this)
  rw [← h2, flat_indices, List.countP_map, List.countP_eq_length_filter]
  rfl

/-- C144: nothing kept is smaller than anything dropped. -/
theorem topk_largest {argsort : List K → List Nat} {shuffle : Nat → List Nat} (ha : Sorts argsort) (hs : Shuffles shuffle) (x : Leaf K) (density : K) {i j : List Nat} (hi : Valid x.shape i) (hj : Valid x.shape j)
    (h1 : (topkMask argsort shuffle x density).val i = 1) (h0 : (topkMask argsort shuffle x density).val j = 0) : x.val j ≤ x.val i := by
  obtain ⟨r, hr, _, hr'⟩ := mask_rank ha hs x hi
  obtain ⟨q, hq, _, hq'⟩ := mask_rank ha hs x hj
  rw [hr'] at h1
  rw [hq'] at h0
  have c1 : (size x.shape : Int) - roundEven (density * size x.shape) ≤ r := by
    by_contra hc
    rw [if_neg hc] at h1
    exact zero_ne_one h1
  have c0 : ¬(size x.shape : Int) - roundEven (density * size x.shape) ≤ q := by
    intro hc
    rw [if_pos hc] at h0
    exact one_ne_zero h0
  have hlt : q < r := by omega
  have hp := order_sorted ha hs (flat x)
  obtain ⟨hr1, hr2⟩ := List.getElem?_eq_some_iff.mp hr
  obtain ⟨hq1, hq2⟩ := List.getElem?_eq_some_iff.mp hq
  have := List.pairwise_iff_getElem.mp hp q r hq1 hr1 hlt
  rwa [hr2, hq2, flat_get x hi, flat_get x hj] at this

/-- C144: with a larger fraction everything that was kept is kept. -/
theorem topk_nested {argsort : List K → List Nat} {shuffle : Nat → List Nat} (ha : Sorts argsort) (hs : Shuffles shuffle) (x : Leaf K) {d e : K} (hde : d ≤ e) {i : List Nat} (hi : Valid x.shape i)
    (h : (topkMask argsort shuffle x d).val i = 1) : (topkMask argsort shuffle x e).val i = 1 := by
  obtain ⟨r, _, _, hr⟩ := mask_rank ha hs x hi
  rw [hr] at h ⊢
  have hm : roundEven (d * (size x.shape : K)) ≤ roundEven (e * (size x.shape : K)) :=
    nearest_mono (mul_le_mul_of_nonneg_right hde (Nat.cast_nonneg _)) (roundEven_nearest _) (roundEven_nearest _)
  have c : (size x.shape : Int) - roundEven (d * size x.shape) ≤ r := by
    by_contra hc
    rw [if_neg hc] at h
    exact zero_ne_one h
  rw [if_pos (by omega)]

/-- C144: the fraction 1 keeps everything. -/
theorem topk_all {argsort : List K → List Nat} {shuffle : Nat → List Nat} (ha : Sorts argsort) (hs : Shuffles shuffle) (x : Leaf K) {i : List Nat} (hi : Valid x.shape i) :
    (topkMask argsort shuffle x 1).val i = 1 := by
  obtain ⟨r, _, _, hr⟩ := mask_rank ha hs x hi
  have := roundEven_eq (nearest_int (K := K) (size x.shape))
  rw [Int.cast_natCast] at this
  rw [hr, one_mul, this, if_pos (by omega)]

/-- C144: the fraction 0 keeps nothing. -/
theorem topk_none {argsort : List K → List Nat} {shuffle : Nat → List Nat} (ha : Sorts argsort) (hs : Shuffles shuffle) (x : Leaf K) {i : List Nat} (hi : Valid x.shape i) :
    (topkMask argsort shuffle x 0).val i = 0 := by
  obtain ⟨r, _, hlt, hr⟩ := mask_rank ha hs x hi
  have := roundEven_eq (nearest_int (K := K) 0)
  rw [Int.cast_zero] at this
  rw [hr, zero_mul, this, if_neg (by omega)]

/-- C144: among equal elements the shuffle alone decides, and no position is preferred: renaming the positions of the shuffle renames the positions of the mask. -/
theorem ties_unbiased {argsort : List K → List Nat} {shuffle shuffle' : Nat → List Nat} (hs : Shuffles shuffle) (hs' : Shuffles shuffle') (x : Leaf K) (density : K) (c : K)
    (hc : ∀ i, Valid x.shape i → x.val i = c) (π : Nat → Nat) (hπ : shuffle' (size x.shape) = (shuffle (size x.shape)).map π)
    {i j : List Nat} (hi : Valid x.shape i) (hj : Valid x.shape j) (hij : Nd.ravel x.shape j = π (Nd.ravel x.shape i)) :
    (topkMask argsort shuffle' x density).val j = (topkMask argsort shuffle x density).val i := by
  have hv : flat x = List.replicate (size x.shape) c := by
    rw [flat_indices]
    refine List.eq_replicate_iff.mpr ⟨by rw [← flat_indices, flat_length], fun b hb => ?_⟩
    obtain ⟨i, hi, rfl⟩ := List.mem_map.mp hb
    exact hc i (mem_indices.mp hi)
  have hg : ∀ sh : Nat → List Nat, Shuffles sh → gather (flat x) (sh (flat x).length) = List.replicate (size x.shape) c := by
    intro sh hsh
    rw [flat_length, hv]
    refine List.eq_replicate_iff.mpr ⟨by rw [gather_length, (hsh _).length_eq, List.length_range], fun b hb => ?_⟩
    obtain ⟨p, hp, rfl⟩ := List.mem_map.mp hb
    have := List.mem_range.mp ((hsh _).mem_iff.mp hp)
    rw [List.getD_eq_getElem _ _ (by rw [List.length_replicate]; exact this), List.getElem_replicate]
  have hget : ∀ sh : Nat → List Nat, Shuffles sh → ∀ (q p : Nat), (sh (size x.shape))[q]? = some p →
      (flatMask argsort sh (flat x) density)[p]? = (topkInternal argsort density (List.replicate (size x.shape) c))[q]? := by
    intro sh hsh q p hq
    unfold flatMask
    rw [hg sh hsh, flat_length]
    refine indexUpdate_get _ _ _ q p ((hsh _).nodup_iff.mpr List.nodup_range) ?_ ?_ hq
    · intro q hq
      rw [List.length_replicate, internal_length, List.length_replicate]
      exact List.mem_range.mp ((hsh _).mem_iff.mp hq)
    · rw [internal_length, List.length_replicate, (hsh _).length_eq, List.length_range]
  have hm : Nd.ravel x.shape i ∈ shuffle (size x.shape) := (hs _).mem_iff.mpr (List.mem_range.mpr (Nd.ravel_lt hi))
  obtain ⟨q, hq⟩ := List.mem_iff_getElem?.mp hm
  show (flatMask argsort shuffle' (flat x) density).getD (Nd.ravel x.shape j) 0 = (flatMask argsort shuffle (flat x) density).getD (Nd.ravel x.shape i) 0
  rw [List.getD_eq_getElem?_getD, List.getD_eq_getElem?_getD, hget shuffle hs q _ hq, hget shuffle' hs' q _ (by rw [hπ, List.getElem?_map, hq, hij]; rfl)]

end

/-! ### Examples -/

/-- A stable sort of the positions. -/
def stableArgsort (l : List ℚ) : List Nat := (List.range l.length).insertionSort fun i j => l.getD i 0 ≤ l.getD j 0

theorem stable_sorts : Sorts stableArgsort := by
  intro l
  refine ⟨List.perm_insertionSort _ _, ?_⟩
  have : Std.Total fun i j : Nat => l.getD i 0 ≤ l.getD j 0 := ⟨fun a b => le_total _ _⟩
  have : IsTrans Nat fun i j : Nat => l.getD i 0 ≤ l.getD j 0 := ⟨fun a b c => le_trans⟩
  exact List.pairwise_insertionSort _ _

/-- A shuffle that turns the order around. -/
def backwards (n : Nat) : List Nat := (List.range n).reverse

theorem backwards_shuffles : Shuffles backwards := fun n => List.reverse_perm _

/-- A small weight matrix. -/
def weights : Leaf ℚ := ⟨[2, 3], fun i => if i = [0, 0] then 3 else if i = [0, 1] then 1 else if i = [0, 2] then 4 else if i = [1, 0] then 1 else if i = [1, 1] then 5 else 2⟩

example : (indices [2, 3]).map (topkMask stableArgsort backwards weights (1 / 2)).val = [1, 0, 1, 0, 1, 0] := by decide +kernel

example : ones (topkMask stableArgsort backwards weights (1 / 2)) = 3 :=
  topk_count stable_sorts backwards_shuffles weights (1 / 2) 3 (by unfold Nearest weights; norm_num [size])

-- Five sixths of the elements: of the two equal ones the shuffle picks the second to be kept or the first.
example : (indices [2, 3]).map (topkMask stableArgsort backwards weights (5 / 6)).val = [1, 1, 1, 0, 1, 1] ∧
    (indices [2, 3]).map (topkMask stableArgsort List.range weights (5 / 6)).val = [1, 0, 1, 1, 1, 1] := by decide +kernel

example : weights.val [1, 2] ≤ weights.val [0, 0] :=
  topk_largest stable_sorts backwards_shuffles weights (1 / 2) (.cons (by decide) (.cons (by decide) .nil)) (.cons (by decide) (.cons (by decide) .nil)) (by decide +kernel) (by decide +kernel)

end Verif.Props.Pruning
