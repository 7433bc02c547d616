import Mathlib.Algebra.BigOperators.Group.Finset.Basic
import Verif.Lemmas.Nd

/-!
# Reshaping: splitting one axis in two
-/

set_option linter.unusedVariables false

namespace Verif.Nd
open Verif.Pool (Arr)
open Verif.Shapes (size)
open Verif.Props.Reset (Valid)

variable {K : Type}

theorem size_cons (n : Nat) (s : List Nat) : size (n :: s) = n * size s := rfl

theorem size_append : ∀ s t : List Nat, size (s ++ t) = size s * size t
  | [], t => (Nat.one_mul _).symm
  | n :: s, t => by
    rw [List.cons_append, size_cons, size_cons, size_append s t, Nat.mul_assoc]

theorem valid_append {s t i j : List Nat} (h1 : Valid s i) (h2 : Valid t j) : Valid (s ++ t) (i ++ j) := by
  induction h1 with
  | nil => exact h2
  | cons h _ ih => exact .cons h ih

theorem valid_append_inv : ∀ {s t i : List Nat}, Valid (s ++ t) i → ∃ a b, i = a ++ b ∧ Valid s a ∧ Valid t b
  | [], t, i, h => ⟨[], i, rfl, .nil, h⟩
  | n :: s, t, _, .cons h hs => by
    obtain ⟨a, b, rfl, h1, h2⟩ := valid_append_inv hs
    exact ⟨_ :: a, b, rfl, .cons h h1, h2⟩

theorem ravel_lt : ∀ {s i : List Nat}, Valid s i → ravel s i < size s
  | [], _, .nil => Nat.one_pos
  | n :: s, _, .cons (a := i) (l₁ := is) h hs => by
    have ih := ravel_lt hs
    show i * size s + ravel s is < n * size s
    calc i * size s + ravel s is < i * size s + size s := by omega
      _ = (i + 1) * size s := by rw [Nat.add_mul, Nat.one_mul]
      _ ≤ n * size s := Nat.mul_le_mul_right _ h

theorem unravel_ravel : ∀ {s i : List Nat}, Valid s i → unravel s (ravel s i) = i
  | [], _, .nil => rfl
  | n :: s, _, .cons (a := i) (l₁ := is) h hs => by
    have hl := ravel_lt hs
    have h0 : 0 < size s := by omega
    show (i * size s + ravel s is) / size s :: unravel s ((i * size s + ravel s is) % size s) = _
    have e1 : (i * size s + ravel s is) / size s = i := by
      rw [Nat.add_comm, Nat.add_mul_div_right _ _ h0, Nat.div_eq_of_lt hl, Nat.zero_add]
    have e2 : (i * size s + ravel s is) % size s = ravel s is := by
      rw [Nat.add_comm, Nat.add_mul_mod_self_right, Nat.mod_eq_of_lt hl]
    rw [e1, e2, unravel_ravel hs]

/-- Merging two neighbouring axes does not change the row-major position. -/
theorem ravel_merge : ∀ {pre a : List Nat} (g m q r : Nat) (post b : List Nat), pre.length = a.length →
    ravel (pre ++ (g * m) :: post) (a ++ (q * m + r) :: b) = ravel (pre ++ g :: m :: post) (a ++ q :: r :: b)
  | [], [], g, m, q, r, post, b, _ => by
    show (q * m + r) * size post + ravel post b = q * (m * size post) + (r * size post + ravel post b)
    rw [Nat.add_mul, Nat.mul_assoc, Nat.add_assoc]
  | n :: pre, i :: a, g, m, q, r, post, b, h => by
    show i * size (pre ++ (g * m) :: post) + ravel (pre ++ (g * m) :: post) (a ++ (q * m + r) :: b) = i * size (pre ++ g :: m :: post) + ravel (pre ++ g :: m :: post) (a ++ q :: r :: b)
    rw [ravel_merge g m q r post b (Nat.succ.inj h), size_append, size_append, size_cons, size_cons, size_cons, Nat.mul_assoc]

theorem getD_left (a b : List Nat) (k : Nat) (h : k < a.length) : (a ++ b).getD k 0 = a.getD k 0 := List.getD_append a b 0 k h

theorem getD_right (a b : List Nat) (k : Nat) : (a ++ b).getD (a.length + k) 0 = b.getD k 0 := by
  rw [List.getD_append_right _ _ _ _ (Nat.le_add_right _ _), Nat.add_sub_cancel_left]

/-- Agreement outside some axes, for positions in two parts. -/
theorem agree_append {P : Nat → Prop} {a a' b b' : List Nat} (ha : a'.length = a.length) (hb : b'.length = b.length) :
    (∀ k < (a ++ b).length, P k → (a ++ b).getD k 0 = (a' ++ b').getD k 0) ↔
      (∀ k < a.length, P k → a.getD k 0 = a'.getD k 0) ∧ (∀ k < b.length, P (a.length + k) → b.getD k 0 = b'.getD k 0) := by
  constructor
  · intro h
    refine ⟨fun k hk hp => ?_, fun k hk hp => ?_⟩
    · have := h k (by rw [List.length_append]; omega) hp
      rwa [getD_left _ _ _ hk, getD_left _ _ _ (by rw [ha]; exact hk)] at this
    · have := h (a.length + k) (by rw [List.length_append]; omega) hp
      rwa [getD_right, show a.length + k = a'.length + k by rw [ha], getD_right] at this
  · rintro ⟨h1, h2⟩ k hk hp
    by_cases h : k < a.length
    · rw [getD_left _ _ _ h, getD_left _ _ _ (by rw [ha]; exact h)]
      exact h1 k h hp
    · obtain ⟨l, rfl⟩ : ∃ l, k = a.length + l := ⟨k - a.length, by omega⟩
      rw [getD_right, show a.length + l = a'.length + l by rw [ha], getD_right]
      rw [List.length_append] at hk
      exact h2 l (by omega) hp

theorem agree_cons {P : Nat → Prop} {q q' : Nat} {b b' : List Nat} :
    (∀ k < (q :: b).length, P k → (q :: b).getD k 0 = (q' :: b').getD k 0) ↔ (P 0 → q = q') ∧ (∀ k < b.length, P (1 + k) → b.getD k 0 = b'.getD k 0) := by
  constructor
  · intro h
    refine ⟨fun hp => h 0 (Nat.succ_pos _) hp, fun k hk hp => ?_⟩
    rw [Nat.add_comm] at hp
    exact h (k + 1) (by rw [List.length_cons]; omega) hp
  · rintro ⟨h1, h2⟩ k hk hp
    cases k with
    | zero => exact h1 hp
    | succ k =>
      rw [Nat.add_comm] at hp
      exact h2 k (by rw [List.length_cons] at hk; omega) hp

/-- The positions of one slice that lie in the same block of `m` entries of axis `c` as `i`. -/
def block (ax : List Nat) (c m : Nat) (shape i : List Nat) : Finset (List Nat) := (slice ax shape i).filter fun j => j.getD c 0 / m = i.getD c 0 / m

/-- How the axes `ax` of an array become axes of the array in which axis `c` is split in two. -/
def SplitAxes (c : Nat) (ax ax' : List Nat) : Prop := (∀ k < c, k ∈ ax' ↔ k ∈ ax) ∧ c ∉ ax' ∧ (c + 1 ∈ ax' ↔ c ∈ ax) ∧ ∀ k, c < k → (k + 1 ∈ ax' ↔ k ∈ ax)

/-- Membership in a slice of the split array. -/
theorem mem_split {pre post a a' b b' ax ax' : List Nat} {g m q q' r r' : Nat} (hax : SplitAxes pre.length ax ax') (ha : Valid pre a) (ha' : Valid pre a') (hb : Valid post b) (hb' : Valid post b')
    (hq : q < g) (hq' : q' < g) (hr : r < m) (hr' : r' < m) :
    a' ++ q' :: r' :: b' ∈ slice ax' (pre ++ g :: m :: post) (a ++ q :: r :: b) ↔ a' ++ (q' * m + r') :: b' ∈ block ax pre.length m (pre ++ (g * m) :: post) (a ++ (q * m + r) :: b) := by
  have hm : 0 < m := by omega
  have v1 : Valid (pre ++ g :: m :: post) (a' ++ q' :: r' :: b') := valid_append ha' (.cons hq' (.cons hr' hb'))
  have hlt : ∀ q r : Nat, q < g → r < m → q * m + r < g * m := fun q r hq hr => by
    calc q * m + r < q * m + m := by omega
      _ = (q + 1) * m := by rw [Nat.add_mul, Nat.one_mul]
      _ ≤ g * m := Nat.mul_le_mul_right _ hq
  have v2 : Valid (pre ++ (g * m) :: post) (a' ++ (q' * m + r') :: b') := valid_append ha' (.cons (hlt _ _ hq' hr') hb')
  have la : a.length = pre.length := ha.length
  have la' : a'.length = pre.length := ha'.length
  have lb : b.length = post.length := hb.length
  have lb' : b'.length = post.length := hb'.length
  unfold block
  rw [Finset.mem_filter, mem_slice, mem_slice, ← v1.length, ← v2.length, agree_append (by rw [la, la']) (by rw [List.length_cons, List.length_cons, List.length_cons, List.length_cons, lb, lb']),
    agree_append (by rw [la, la']) (by rw [List.length_cons, List.length_cons, lb, lb']), agree_cons (P := fun k => a'.length + k ∉ ax'),
    agree_cons (P := fun k => a'.length + (1 + k) ∉ ax'), agree_cons (P := fun k => a'.length + k ∉ ax), la']
  have e1 : (a' ++ (q' * m + r') :: b').getD pre.length 0 = q' * m + r' := by
    rw [← la', show a'.length = a'.length + 0 from rfl, getD_right]
    rfl
  have e2 : (a ++ (q * m + r) :: b).getD pre.length 0 = q * m + r := by
    rw [← la, show a.length = a.length + 0 from rfl, getD_right]
    rfl
  have dv : ∀ q r : Nat, r < m → (q * m + r) / m = q := fun q r hr => by
    rw [Nat.add_comm, Nat.add_mul_div_right _ _ hm, Nat.div_eq_of_lt hr, Nat.zero_add]
  rw [e1, e2, dv _ _ hr', dv _ _ hr]
  obtain ⟨x1, x2, x3, x4⟩ := hax
  constructor
  · rintro ⟨_, h1, h2, h3, h4⟩
    have hqq := h2 x2
    refine ⟨⟨v2, fun k hk hp => h1 k hk (by rw [x1 k hk]; exact hp), fun hp => ?_, fun k hk hp => h4 k hk ?_⟩, hqq⟩
    · rw [hqq, h3 (by rw [show pre.length + (1 + 0) = pre.length + 1 from rfl, x3]; exact hp)]
    · rw [show pre.length + (1 + (1 + k)) = (pre.length + (1 + k)) + 1 by omega, x4 _ (by omega)]
      exact hp
  · rintro ⟨⟨_, h1, h2, h3⟩, h4⟩
    refine ⟨v1, fun k hk hp => h1 k hk (by rw [← x1 k hk]; exact hp), fun _ => h4, fun hp => ?_, fun k hk hp => h3 k hk ?_⟩
    · have := h2 (by rw [Nat.add_zero, ← x3]; exact hp)
      rw [h4] at this
      omega
    · rw [← x4 _ (by omega)]
      rw [show pre.length + (1 + (1 + k)) = (pre.length + (1 + k)) + 1 by omega] at hp
      exact hp

/-- Averages over slices of the split array are averages over blocks. -/
theorem avg_split [Field K] {pre post a b ax ax' : List Nat} {g m q r : Nat} (hax : SplitAxes pre.length ax ax') (ha : Valid pre a) (hb : Valid post b) (hq : q < g) (hr : r < m)
    {F G : List Nat → K} (hF : ∀ a' q' r' b', Valid pre a' → Valid post b' → q' < g → r' < m → G (a' ++ q' :: r' :: b') = F (a' ++ (q' * m + r') :: b')) :
    avg (slice ax' (pre ++ g :: m :: post) (a ++ q :: r :: b)) G = avg (block ax pre.length m (pre ++ (g * m) :: post) (a ++ (q * m + r) :: b)) F := by
  have hm : 0 < m := by omega
  let f : List Nat → List Nat := fun i => i.take pre.length ++ (i.getD pre.length 0 * m + i.getD (pre.length + 1) 0) :: i.drop (pre.length + 2)
  have hf : ∀ (a' : List Nat) (q' r' : Nat) (b' : List Nat), Valid pre a' → f (a' ++ q' :: r' :: b') = a' ++ (q' * m + r') :: b' := by
    intro a' q' r' b' h
    have hl : a'.length = pre.length := h.length
    show (a' ++ q' :: r' :: b').take pre.length ++ ((a' ++ q' :: r' :: b').getD pre.length 0 * m + (a' ++ q' :: r' :: b').getD (pre.length + 1) 0) :: (a' ++ q' :: r' :: b').drop (pre.length + 2) = _
    have e1 : (a' ++ q' :: r' :: b').take pre.length = a' := by rw [← hl, List.take_left]
    have e2 : (a' ++ q' :: r' :: b').getD pre.length 0 = q' := by
      rw [← hl, show a'.length = a'.length + 0 from rfl, getD_right]
      rfl
    have e3 : (a' ++ q' :: r' :: b').getD (pre.length + 1) 0 = r' := by
      rw [← hl, getD_right]
      rfl
    have e4 : (a' ++ q' :: r' :: b').drop (pre.length + 2) = b' := by
      rw [← hl, ← List.drop_drop, List.drop_left]
      rfl
    rw [e1, e2, e3, e4]
  have shape1 : ∀ i, Valid (pre ++ g :: m :: post) i → ∃ a' q' r' b', i = a' ++ q' :: r' :: b' ∧ Valid pre a' ∧ Valid post b' ∧ q' < g ∧ r' < m := by
    intro i h
    obtain ⟨a', l, rfl, h1, h2⟩ := valid_append_inv h
    cases h2 with
    | cons h3 h4 =>
      cases h4 with
      | cons h5 h6 => exact ⟨a', _, _, _, rfl, h1, h6, h3, h5⟩
  have shape2 : ∀ i, Valid (pre ++ (g * m) :: post) i → ∃ a' q' r' b', i = a' ++ (q' * m + r') :: b' ∧ Valid pre a' ∧ Valid post b' ∧ q' < g ∧ r' < m := by
    intro i h
    obtain ⟨a', l, rfl, h1, h2⟩ := valid_append_inv h
    cases h2 with
    | @cons c _ b' _ h3 h4 =>
      refine ⟨a', c / m, c % m, b', ?_, h1, h4, (Nat.div_lt_iff_lt_mul hm).mpr h3, Nat.mod_lt _ hm⟩
      rw [Nat.div_add_mod' c m]
  have inj : Set.InjOn f (slice ax' (pre ++ g :: m :: post) (a ++ q :: r :: b) : Finset (List Nat)) := by
    intro i hi j hj h
    obtain ⟨a1, q1, r1, b1, rfl, v1, _, _, w1⟩ := shape1 i (mem_slice.mp hi).1
    obtain ⟨a2, q2, r2, b2, rfl, v2, _, _, w2⟩ := shape1 j (mem_slice.mp hj).1
    rw [hf _ _ _ _ v1, hf _ _ _ _ v2] at h
    have hl : a1.length = a2.length := by rw [v1.length, v2.length]
    obtain ⟨h1, h2⟩ := List.append_inj h hl
    obtain ⟨h3, h4⟩ := List.cons.inj h2
    have h5 : q1 = q2 := by
      have := congrArg (· / m) h3
      rwa [Nat.add_comm, Nat.add_mul_div_right _ _ hm, Nat.div_eq_of_lt w1, Nat.zero_add, Nat.add_comm, Nat.add_mul_div_right _ _ hm, Nat.div_eq_of_lt w2, Nat.zero_add] at this
    subst h5
    have h6 : r1 = r2 := by omega
    rw [h1, h6, h4]
  have img : (slice ax' (pre ++ g :: m :: post) (a ++ q :: r :: b)).image f = block ax pre.length m (pre ++ (g * m) :: post) (a ++ (q * m + r) :: b) := by
    ext j
    rw [Finset.mem_image]
    constructor
    · rintro ⟨i, hi, rfl⟩
      obtain ⟨a1, q1, r1, b1, rfl, v1, v2, v3, v4⟩ := shape1 i (mem_slice.mp hi).1
      rw [hf _ _ _ _ v1]
      exact (mem_split hax ha v1 hb v2 hq v3 hr v4).mp hi
    · intro hj
      obtain ⟨a1, q1, r1, b1, rfl, v1, v2, v3, v4⟩ := shape2 j (mem_slice.mp (Finset.mem_filter.mp hj).1).1
      exact ⟨_, (mem_split hax ha v1 hb v2 hq v3 hr v4).mpr hj, hf _ _ _ _ v1⟩
  unfold avg
  rw [← img, Finset.card_image_of_injOn inj, Finset.sum_image inj]
  congr 1
  refine Finset.sum_congr rfl fun i hi => ?_
  obtain ⟨a1, q1, r1, b1, rfl, v1, v2, v3, v4⟩ := shape1 i (mem_slice.mp hi).1
  rw [hf _ _ _ _ v1, hF _ _ _ _ v1 v2 v3 v4]

theorem variance_split [Field K] {pre post a b ax ax' : List Nat} {g m q r : Nat} (hax : SplitAxes pre.length ax ax') (ha : Valid pre a) (hb : Valid post b) (hq : q < g) (hr : r < m)
    {F G : List Nat → K} (hF : ∀ a' q' r' b', Valid pre a' → Valid post b' → q' < g → r' < m → G (a' ++ q' :: r' :: b') = F (a' ++ (q' * m + r') :: b')) :
    variance (slice ax' (pre ++ g :: m :: post) (a ++ q :: r :: b)) G = variance (block ax pre.length m (pre ++ (g * m) :: post) (a ++ (q * m + r) :: b)) F := by
  unfold variance
  rw [avg_split hax ha hb hq hr hF]
  exact avg_split hax ha hb hq hr fun a' q' r' b' h1 h2 h3 h4 => by rw [hF a' q' r' b' h1 h2 h3 h4]

end Verif.Nd
