import Mathlib.Algebra.BigOperators.Group.Finset.Basic
import Mathlib.Algebra.Field.Basic
import Mathlib.Algebra.CharZero.Defs
import Mathlib.Algebra.Field.Rat
import Mathlib.Data.Rat.Cast.CharZero
import Mathlib.Algebra.BigOperators.Group.List.Basic
import Mathlib.Order.BoundedOrder.Basic
import Mathlib.Order.WithBot
import Mathlib.Order.BoundedOrder.Lattice
import Verif.Model.Pool
import Verif.Props.Conv

/-!
# Pooling (C50, C51, C62)
-/

set_option linter.unusedVariables false

namespace Verif.Props.Pool
open Verif.Shapes (Err)
open Verif.Utils
open Verif.Conv (indices outSize stringPad)
open Verif.Pool

variable {α : Type}

/-! ### C50 -/

/-- The axis that a channel axis names: negative ones count from the end (spec). -/
def axis (ndim : Nat) (c : Int) : Int := if c < 0 then c + ndim else c

/-- C50 For an integer window or stride, every channel axis other than `-ndim` is handled as stated: invalid ones are rejected with a `ValueError`; for valid ones, and for none, the inferred shape has
the rank of the input, is 1 on the batch axis and on the channel axis, and is the given size elsewhere.
Missing: the valid axis `-ndim` is rejected (`pool_first_axis`), and scalars get a shape of rank 1 (`pool_scalar`). -/
theorem infer_int_partial (ndim : Nat) (hn : 1 ≤ ndim) (size : Int) (c : Option Int) (hc : c ≠ some (-(ndim : Int))) :
    ((∀ a, c = some a → -(ndim : Int) ≤ a ∧ a < ndim) → ∃ l, inferShape ndim (.scalar size) c = .ok l ∧ l.length = ndim ∧ l[0]? = some 1 ∧
      ∀ d, 0 < d → d < ndim → l[d]? = some (if (∃ a, c = some a ∧ axis ndim a = d) then 1 else size)) ∧
    (∀ a, c = some a → ¬ (-(ndim : Int) ≤ a ∧ a < ndim) → inferShape ndim (.scalar size) c = .error .value) := by
  constructor
  · intro hv
    have h0 : ¬ (c.getD 0 ≠ 0 ∧ ¬ ((c.getD 0).natAbs < ndim)) := by
      cases c with
      | none => simp
      | some a =>
        have := hv a rfl
        have hne : a ≠ -(ndim : Int) := fun h => hc (h ▸ rfl)
        rw [Option.getD_some]
        omega
    unfold inferShape
    dsimp only
    rw [if_neg h0]
    refine ⟨_, rfl, ?_, rfl, ?_⟩
    · rw [List.length_cons, List.length_map, List.length_range']
      omega
    · intro d hd hdn
      obtain ⟨e, rfl⟩ : ∃ e, d = e + 1 := ⟨d - 1, by omega⟩
      rw [List.getElem?_cons_succ, List.getElem?_map, List.getElem?_range' (by omega)]
      rw [Option.map_some]
      congr 1
      have e1 : 1 + 1 * e = e + 1 := by omega
      rw [e1]
      cases c with
      | none => rw [if_neg (by rintro ⟨h, _⟩; exact h rfl), if_neg (by rintro ⟨a, h, _⟩; cases h)]
      | some a =>
        rw [Option.getD_some]
        by_cases ha : axis ndim a = ((e + 1 : Nat) : Int)
        · rw [if_pos (c := ∃ b, some a = some b ∧ axis ndim b = ((e + 1 : Nat) : Int)) ⟨a, rfl, ha⟩, if_pos]
          refine ⟨(fun h => by cases h), ?_⟩
          unfold axis at ha
          split at ha
          · rw [if_pos (by assumption)]; omega
          · rw [if_neg (by assumption)]; omega
        · rw [if_neg (c := ∃ b, some a = some b ∧ axis ndim b = ((e + 1 : Nat) : Int)) (by rintro ⟨b, h, k⟩; cases h; exact ha k), if_neg]
          rintro ⟨_, h⟩
          apply ha
          unfold axis
          split at h
          · rw [if_pos (by assumption)]; omega
          · rw [if_neg (by assumption)]; omega
  · intro a ha hv
    subst ha
    unfold inferShape
    dsimp only
    rw [Option.getD_some, if_pos]
    omega

example : (1 ≤ 4) ∧ (some (-1) : Option Int) ≠ some (-((4 : Nat) : Int)) ∧ inferShape 4 (.scalar 3) (some (-1)) = .ok [1, 3, 3, 1] ∧ inferShape 4 (.scalar 3) (some 1) = .ok [1, 1, 3, 3] ∧
    inferShape 4 (.scalar 3) (some 4) = .error .value ∧ inferShape 4 (.scalar 3) none = .ok [1, 3, 3, 3] := by decide

/-- C50 is violated for the channel axis `-ndim`: it is a valid axis (the first) but is rejected. -/
theorem pool_first_axis (ndim : Nat) (hn : 1 ≤ ndim) (size : Int) : inferShape ndim (.scalar size) (some (-(ndim : Int))) = .error .value ∧ axis ndim (-(ndim : Int)) = 0 := by
  constructor
  · unfold inferShape
    dsimp only
    rw [Option.getD_some, if_pos]
    omega
  · unfold axis
    rw [if_pos (by omega)]
    omega

example : inferShape 3 (.scalar 2) (some (-3)) = .error .value := by decide

/-- C50 is violated for scalar inputs: the inferred shape has rank 1, although the input has rank 0. -/
theorem pool_scalar : inferShape 0 (.scalar 3) none = .ok [1] ∧ inferShape 0 (.scalar 3) (some 0) = .ok [1] := by decide

/-- C50 A sequence is padded with leading ones to the rank of the input; a longer one is rejected (with an `AssertionError`). -/
theorem infer_seq (ndim : Nat) (l : List Int) (c : Option Int) :
    (l.length ≤ ndim → ∃ ones, inferShape ndim (.seq l) c = .ok (ones ++ l) ∧ (ones ++ l).length = ndim ∧ ∀ a ∈ ones, a = 1) ∧ (ndim < l.length → inferShape ndim (.seq l) c = .error .assertion) := by
  unfold inferShape
  dsimp only
  constructor
  · intro h
    refine ⟨List.replicate (ndim - l.length) 1, ?_, ?_, fun a ha => (List.mem_replicate.mp ha).2⟩
    · by_cases h1 : l.length < ndim
      · rw [if_pos h1]
      · rw [if_neg h1, if_pos (by omega)]
        have : ndim - l.length = 0 := by omega
        rw [this]
        rfl
    · rw [List.length_append, List.length_replicate]
      omega
  · intro h
    rw [if_neg (by omega), if_neg (by omega)]

example : ([2, 2] : List Int).length ≤ 4 ∧ inferShape 4 (.seq [2, 2]) none = .ok [1, 1, 2, 2] ∧ inferShape 1 (.seq [2, 2]) none = .error .assertion := by decide

/-! ### Windows -/

/-- The first padding of a dimension: none for `"VALID"`; for `"SAME"` the smaller half of what the output size `⌈n / s⌉` needs (spec). -/
def before (isSame : Bool) (n : Nat) (k s : Int) : Int :=
  if isSame then (max 0 (((n + s - 1) / s - 1) * s + k - n)) / 2 else 0

/-- Position `p` of the input is in the window of output `t` (spec): in each dimension it is one of the `k` positions from `t * s - before` on. -/
def InWindow (isSame : Bool) : List Nat → List Int → List Int → List Nat → List Nat → Prop
  | n :: ns, k :: ks, s :: ss, t :: ts, p :: ps =>
    ((t : Int) * s - before isSame n k s ≤ p ∧ (p : Int) < (t : Int) * s - before isSame n k s + k) ∧ InWindow isSame ns ks ss ts ps
  | [], [], [], [], [] => True
  | _, _, _, _, _ => False

instance InWindow.dec (b : Bool) : ∀ ns ks ss ts ps, Decidable (InWindow b ns ks ss ts ps)
  | n :: ns, k :: ks, s :: ss, t :: ts, p :: ps => by
    unfold InWindow
    have := InWindow.dec b ns ks ss ts ps
    infer_instance
  | [], [], [], [], [] => isTrue trivial
  | [], _ :: _, _, _, _ => isFalse (by unfold InWindow; exact id)
  | [], [], _ :: _, _, _ => isFalse (by unfold InWindow; exact id)
  | [], [], [], _ :: _, _ => isFalse (by unfold InWindow; exact id)
  | [], [], [], [], _ :: _ => isFalse (by unfold InWindow; exact id)
  | _ :: _, [], _, _, _ => isFalse (by unfold InWindow; exact id)
  | _ :: _, _ :: _, [], _, _ => isFalse (by unfold InWindow; exact id)
  | _ :: _, _ :: _, _ :: _, [], _ => isFalse (by unfold InWindow; exact id)
  | _ :: _, _ :: _, _ :: _, _ :: _, [] => isFalse (by unfold InWindow; exact id)

/-- The real elements in the window of output `t` (spec). -/
def window (isSame : Bool) (shape : List Nat) (ks ss : List Int) (t : List Nat) : List (List Nat) := (indices shape).filter fun p => InWindow isSame shape ks ss t p

/-- `t` is a position of an array of this shape (spec). -/
def Within : List Nat → List Nat → Prop
  | n :: ns, t :: ts => t < n ∧ Within ns ts
  | [], [] => True
  | _, _ => False

theorem ceil_eq (n : Nat) {s : Int} (hs : 1 ≤ s) : -Int.fdiv (-(n : Int)) s = ((n : Int) + s - 1) / s := by
  rw [Int.fdiv_eq_ediv_of_nonneg _ (by omega)]
  have h1 := Int.emod_add_mul_ediv (-(n : Int)) s
  have h2 := Int.emod_nonneg (-(n : Int)) (show s ≠ 0 by omega)
  have h3 := Int.emod_lt_of_pos (-(n : Int)) (show 0 < s by omega)
  generalize -(n : Int) / s = q at *
  generalize -(n : Int) % s = r at *
  have e : (n : Int) + s - 1 = (s - 1 - r) + s * (-q) := by rw [Int.mul_neg]; omega
  rw [e, Int.add_mul_ediv_left _ _ (by omega), Int.ediv_eq_zero_of_lt (by omega) (by omega), Int.zero_add]

theorem stringPad_before (b : Bool) (n : Nat) {k s : Int} (hs : 1 ≤ s) : (stringPad b n k s).1 = before b n k s := by
  unfold stringPad before
  cases b with
  | false => rfl
  | true =>
    rw [if_pos rfl, if_pos rfl]
    dsimp only
    rw [Int.fdiv_eq_ediv_of_nonneg _ (by decide), ceil_eq n hs]

theorem stringPad_sum (n : Nat) {k s : Int} (hs : 1 ≤ s) : (stringPad true n k s).1 + (stringPad true n k s).2 = max 0 (((n + s - 1) / s - 1) * s + k - n) := by
  unfold stringPad
  rw [if_pos rfl]
  dsimp only
  rw [ceil_eq n hs]
  omega

/-- Facts about one dimension of a pooling: every window of the output starts before the end of the input and ends after its start; without padding it lies inside. -/
theorem window_meets (b : Bool) (n : Nat) (k s : Int) (hk : 1 ≤ k) (hs : 1 ≤ s) (t : Nat) (ht : (t : Int) < outSize n k s (stringPad b n k s).1 (stringPad b n k s).2) :
    (t : Int) * s - before b n k s < n ∧ 0 < (t : Int) * s - before b n k s + k ∧ 0 < n ∧ (b = false → 0 ≤ (t : Int) * s - before b n k s ∧ (t : Int) * s - before b n k s + k ≤ n) := by
  unfold outSize at ht
  rw [Int.fdiv_eq_ediv_of_nonneg _ (by omega)] at ht
  have hts : 0 ≤ (t : Int) * s := Int.mul_nonneg (by omega) (by omega)
  cases b with
  | false =>
    have hb : before false n k s = 0 := rfl
    have hp : stringPad false n k s = (0, 0) := rfl
    rw [hp] at ht
    rw [hb]
    dsimp only at ht
    have h1 : (t : Int) ≤ ((n : Int) + 0 + 0 - k) / s := by omega
    have h2 := Int.mul_le_of_le_ediv (by omega) h1
    omega
  | true =>
    have hsum := stringPad_sum n (k := k) hs
    rw [Int.add_assoc, hsum] at ht
    unfold before
    rw [if_pos rfl]
    have hu1 := Int.emod_add_mul_ediv ((n : Int) + s - 1) s
    have hu2 := Int.emod_nonneg ((n : Int) + s - 1) (show s ≠ 0 by omega)
    have hu3 := Int.emod_lt_of_pos ((n : Int) + s - 1) (show 0 < s by omega)
    rw [Int.sub_mul, Int.one_mul, Int.mul_comm (((n : Int) + s - 1) / s) s] at ht ⊢
    generalize s * (((n : Int) + s - 1) / s) = u at *
    generalize ((n : Int) + s - 1) % s = r at *
    have h1 : (t : Int) ≤ ((n : Int) + max 0 (u - s + k - n) - k) / s := by omega
    have h2 := Int.mul_le_of_le_ediv (by omega) h1
    generalize (t : Int) * s = v at *
    refine ⟨by omega, by omega, by omega, fun h => by cases h⟩

theorem place_some (b : Bool) : ∀ (ns : List Nat) (ks ss : List Int) (t j p : List Nat), (∀ s ∈ ss, 1 ≤ s) → j ∈ indices (ks.map Int.toNat) →
    place ns ss (pads b ns ks ss) t j = some p → p ∈ indices ns ∧ InWindow b ns ks ss t p
  | [], [], [], [], [], p, _, _, h => by
    cases h
    exact ⟨List.mem_singleton.mpr rfl, trivial⟩
  | n :: ns, k :: ks, s :: ss, t :: ts, j :: js, p, hs, hj, h => by
    obtain ⟨i, hi, hj⟩ := List.mem_flatMap.mp hj
    obtain ⟨js', hjs, e⟩ := List.mem_map.mp hj
    cases e
    have hi := List.mem_range.mp hi
    have hk : place (n :: ns) (s :: ss) (stringPad b n k s :: pads b ns ks ss) (t :: ts) (j :: js) = some p := h
    unfold place at hk
    dsimp only at hk
    rw [stringPad_before b n (hs s List.mem_cons_self)] at hk
    split at hk
    · rename_i hq
      obtain ⟨p', hp', rfl⟩ := Option.map_eq_some_iff.mp hk
      obtain ⟨h1, h2⟩ := place_some b ns ks ss ts js p' (fun s h => hs s (List.mem_cons_of_mem _ h)) hjs hp'
      refine ⟨List.mem_flatMap.mpr ⟨_, List.mem_range.mpr ?_, List.mem_map.mpr ⟨p', h1, rfl⟩⟩, ⟨?_, h2⟩⟩
      · omega
      · omega
    · cases hk
  | n :: ns, [], [], _, _, p, _, hj, h => by
    cases h
  | n :: ns, [], _ :: _, _, _, p, _, hj, h => by
    cases h
  | n :: ns, k :: ks, [], _, _, p, _, hj, h => by
    cases h
  | n :: ns, k :: ks, s :: ss, [], _, p, _, hj, h => by
    cases h
  | n :: ns, k :: ks, s :: ss, t :: ts, [], p, _, hj, h => by
    cases h
  | [], k :: ks, _, _, [], p, _, hj, h => by
    obtain ⟨i, hi, hj⟩ := List.mem_flatMap.mp hj
    obtain ⟨js', hjs, e⟩ := List.mem_map.mp hj
    cases e
  | [], _, _ :: _, _, _, p, _, hj, h => by
    cases h
  | [], _, [], _ :: _, _, p, _, hj, h => by
    cases h
  | [], _, [], [], _ :: _, p, _, hj, h => by
    cases h

theorem sum_range {M : Type} [AddCommMonoid M] (k : Nat) (f : Nat → M) : ((List.range k).map f).sum = ∑ i ∈ Finset.range k, f i := by
  rw [Finset.sum_eq_multiset_sum, Finset.range_val]
  rfl

/-- One dimension of a sum over a window: over the positions of the window, or over those of the input. -/
theorem sum_dim {M : Type} [AddCommMonoid M] (a : Int) (n k : Nat) (g : Nat → M) :
    ((List.range k).map fun j : Nat => if 0 ≤ a + j ∧ a + j < n then g (a + j).toNat else 0).sum = ((List.range n).map fun p : Nat => if a ≤ p ∧ (p : Int) < a + k then g p else 0).sum := by
  rw [sum_range, sum_range, ← Finset.sum_filter, ← Finset.sum_filter]
  refine Finset.sum_nbij' (fun j => (a + j).toNat) (fun p => (p - a).toNat) ?_ ?_ ?_ ?_ ?_
  · intro j hj
    rw [Finset.mem_filter, Finset.mem_range] at hj ⊢
    omega
  · intro j hj
    rw [Finset.mem_filter, Finset.mem_range] at hj ⊢
    omega
  · intro j hj
    rw [Finset.mem_filter, Finset.mem_range] at hj
    omega
  · intro j hj
    rw [Finset.mem_filter, Finset.mem_range] at hj
    omega
  · intro j hj
    rfl

/-- Sum over a box. -/
def boxSum {M : Type} [AddCommMonoid M] (l : List Nat) (f : List Nat → M) : M := ((indices l).map f).sum

theorem boxSum_cons {M : Type} [AddCommMonoid M] (n : Nat) (l : List Nat) (f : List Nat → M) : boxSum (n :: l) f = ((List.range n).map fun i => boxSum l fun js => f (i :: js)).sum := by
  unfold boxSum
  show (((List.range n).flatMap fun i => (indices l).map (i :: ·)).map f).sum = _
  generalize List.range n = r
  induction r with
  | nil => rfl
  | cons i r ih =>
    rw [List.flatMap_cons, List.map_append, List.sum_append, ih, List.map_cons, List.sum_cons, List.map_map]
    rfl

theorem boxSum_zero {M : Type} [AddCommMonoid M] (l : List Nat) : boxSum l (fun _ => (0 : M)) = 0 := by
  unfold boxSum
  generalize indices l = r
  induction r with
  | nil => rfl
  | cons i r ih => rw [List.map_cons, List.sum_cons, ih, zero_add]

theorem place_cons (n : Nat) (ns : List Nat) (s : Int) (ss : List Int) (p : Int × Int) (ps : List (Int × Int)) (t : Nat) (ts : List Nat) (j : Nat) (js : List Nat) :
    place (n :: ns) (s :: ss) (p :: ps) (t :: ts) (j :: js) =
      if 0 ≤ (t : Int) * s - p.1 + j ∧ (t : Int) * s - p.1 + j < n then (place ns ss ps ts js).map (((t : Int) * s - p.1 + j).toNat :: ·) else none := by
  rfl

/-- The sum that `lax.reduce_window` computes is the sum over the real elements of the window. -/
theorem sum_window {M : Type} [AddCommMonoid M] (b : Bool) : ∀ (ns : List Nat) (ks ss : List Int) (t : List Nat) (f : List Nat → M), (∀ s ∈ ss, 1 ≤ s) → (∀ k ∈ ks, 1 ≤ k) →
    ks.length = ns.length → ss.length = ns.length → t.length = ns.length →
    boxSum (ks.map Int.toNat) (fun j => ((place ns ss (pads b ns ks ss) t j).map f).getD 0) = boxSum ns fun p => if InWindow b ns ks ss t p then f p else 0
  | [], [], [], [], f, _, _, _, _, _ => by
    show (f [] + 0) = (if InWindow b [] [] [] [] [] then f [] else 0) + 0
    rw [if_pos (show InWindow b [] [] [] [] [] from trivial)]
  | n :: ns, k :: ks, s :: ss, t :: ts, f, hs, hk, h1, h2, h3 => by
    rw [List.map_cons, boxSum_cons, boxSum_cons]
    have hs1 := hs s List.mem_cons_self
    have hk1 := hk k List.mem_cons_self
    have ih := fun (g : List Nat → M) => sum_window b ns ks ss ts g (fun s h => hs s (List.mem_cons_of_mem _ h)) (fun s h => hk s (List.mem_cons_of_mem _ h)) (Nat.succ.inj h1) (Nat.succ.inj h2) (Nat.succ.inj h3)
    have key := sum_dim ((t : Int) * s - before b n k s) n k.toNat fun p => boxSum ns fun ps => if InWindow b ns ks ss ts ps then f (p :: ps) else 0
    refine Eq.trans ?_ (key.trans ?_)
    · congr 1
      refine List.map_congr_left fun j _ => ?_
      by_cases hq : 0 ≤ (t : Int) * s - before b n k s + j ∧ (t : Int) * s - before b n k s + j < n
      · rw [if_pos hq, ← ih fun ps => f (((t : Int) * s - before b n k s + j).toNat :: ps)]
        congr 1
        funext js
        show ((place (n :: ns) (s :: ss) (stringPad b n k s :: pads b ns ks ss) (t :: ts) (j :: js)).map f).getD 0 = _
        rw [place_cons, stringPad_before b n hs1, if_pos hq, Option.map_map]
        rfl
      · rw [if_neg hq]
        refine Eq.trans ?_ (boxSum_zero (ks.map Int.toNat))
        congr 1
        funext js
        show ((place (n :: ns) (s :: ss) (stringPad b n k s :: pads b ns ks ss) (t :: ts) (j :: js)).map f).getD 0 = _
        rw [place_cons, stringPad_before b n hs1, if_neg hq]
        rfl
    · congr 1
      refine List.map_congr_left fun p _ => ?_
      have hkk : ((k.toNat : Nat) : Int) = k := by omega
      rw [hkk]
      by_cases hq : (t : Int) * s - before b n k s ≤ p ∧ (p : Int) < (t : Int) * s - before b n k s + k
      · rw [if_pos hq]
        congr 1
        funext ps
        by_cases hw : InWindow b ns ks ss ts ps
        · rw [if_pos hw, if_pos (show InWindow b (n :: ns) (k :: ks) (s :: ss) (t :: ts) (p :: ps) from ⟨hq, hw⟩)]
        · rw [if_neg hw, if_neg (show ¬ InWindow b (n :: ns) (k :: ks) (s :: ss) (t :: ts) (p :: ps) from fun h => hw h.2)]
      · rw [if_neg hq]
        refine Eq.trans (boxSum_zero ns).symm ?_
        congr 1
        funext ps
        rw [if_neg (show ¬ InWindow b (n :: ns) (k :: ks) (s :: ss) (t :: ts) (p :: ps) from fun h => hq h.1)]

theorem sum_filter {M : Type} [AddCommMonoid M] (f : List Nat → M) (p : List Nat → Prop) [DecidablePred p] : ∀ l : List (List Nat),
    (l.map fun x => if p x then f x else 0).sum = ((l.filter fun x => decide (p x)).map f).sum
  | [] => rfl
  | x :: l => by
    rw [List.map_cons, List.sum_cons, sum_filter f p l]
    by_cases h : p x
    · rw [if_pos h, List.filter_cons_of_pos (by simpa using h), List.map_cons, List.sum_cons]
    · rw [if_neg h, List.filter_cons_of_neg (by simpa using h), zero_add]

/-- Windows and strides are positive and have the rank of the input. -/
structure Fit (ns : List Nat) (ks ss : List Int) : Prop where
  kernel : ∀ k ∈ ks, 1 ≤ k
  stride : ∀ s ∈ ss, 1 ≤ s
  kernelRank : ks.length = ns.length
  strideRank : ss.length = ns.length

theorem reduce_ok {x : Arr α} {init : α} {op : α → α → α} {ks ss : List Int} {b : Bool} {y : Arr α} (h : reduceWindow x init op ks ss b = .ok y) :
    Fit x.shape ks ss ∧ y = ⟨outShape x.shape ks ss (pads b x.shape ks ss), fun t =>
      (indices (ks.map Int.toNat)).foldr (fun j acc => op (((place x.shape ss (pads b x.shape ks ss) t j).map x.val).getD init) acc) init⟩ := by
  unfold reduceWindow at h
  split at h
  · cases h
  · rename_i hc
    simp only [List.any_eq_true, decide_eq_true_eq, not_or, not_exists, not_and, not_not, ne_eq] at hc
    obtain ⟨h1, h2, h3, h4⟩ := hc
    refine ⟨⟨fun k hk => ?_, fun s hs => ?_, h3, h4⟩, (Except.ok.inj h).symm⟩
    · have := h1 k hk; omega
    · have := h2 s hs; omega

theorem within_length : ∀ {ns t : List Nat}, Within ns t → t.length = ns.length
  | [], [], _ => rfl
  | n :: ns, t :: ts, h => congrArg (· + 1) (within_length h.2)

theorem outShape_length (b : Bool) : ∀ (ns : List Nat) (ks ss : List Int), ks.length = ns.length → ss.length = ns.length → (outShape ns ks ss (pads b ns ks ss)).length = ns.length
  | [], [], [], _, _ => rfl
  | n :: ns, k :: ks, s :: ss, h1, h2 => congrArg (· + 1) (outShape_length b ns ks ss (Nat.succ.inj h1) (Nat.succ.inj h2))

/-- Every output has a real element in its window. -/
theorem window_nonempty (b : Bool) : ∀ (ns : List Nat) (ks ss : List Int) (t : List Nat), (∀ k ∈ ks, 1 ≤ k) → (∀ s ∈ ss, 1 ≤ s) → ks.length = ns.length → ss.length = ns.length →
    Within (outShape ns ks ss (pads b ns ks ss)) t → ∃ p, p ∈ indices ns ∧ InWindow b ns ks ss t p
  | [], [], [], [], _, _, _, _, _ => ⟨[], List.mem_singleton.mpr rfl, trivial⟩
  | n :: ns, k :: ks, s :: ss, [], _, _, _, _, h => h.elim
  | n :: ns, k :: ks, s :: ss, t :: ts, hk, hs, h1, h2, h => by
    obtain ⟨p, hp, hw⟩ := window_nonempty b ns ks ss ts (fun k h => hk k (List.mem_cons_of_mem _ h)) (fun s h => hs s (List.mem_cons_of_mem _ h)) (Nat.succ.inj h1) (Nat.succ.inj h2) h.2
    have ht : t < (outSize n k s (stringPad b n k s).1 (stringPad b n k s).2).toNat := h.1
    obtain ⟨m1, m2, m3, _⟩ := window_meets b n k s (hk k List.mem_cons_self) (hs s List.mem_cons_self) t (by omega)
    have hk1 := hk k List.mem_cons_self
    refine ⟨((t : Int) * s - before b n k s).toNat :: p, List.mem_flatMap.mpr ⟨_, List.mem_range.mpr (by omega), List.mem_map.mpr ⟨p, hp, rfl⟩⟩, ⟨?_, hw⟩⟩
    omega

/-- Without padding every position of a window is a real element. -/
theorem place_valid : ∀ (ns : List Nat) (ks ss : List Int) (t j : List Nat), (∀ k ∈ ks, 1 ≤ k) → (∀ s ∈ ss, 1 ≤ s) → ks.length = ns.length → ss.length = ns.length →
    Within (outShape ns ks ss (pads false ns ks ss)) t → j ∈ indices (ks.map Int.toNat) → ∃ p, place ns ss (pads false ns ks ss) t j = some p
  | [], [], [], [], j, _, _, _, _, _, hj => by
    rw [List.mem_singleton.mp hj]
    exact ⟨[], rfl⟩
  | n :: ns, k :: ks, s :: ss, [], _, _, _, _, _, h, _ => h.elim
  | n :: ns, k :: ks, s :: ss, t :: ts, j, hk, hs, h1, h2, h, hj => by
    obtain ⟨i, hi, hj⟩ := List.mem_flatMap.mp hj
    obtain ⟨js, hjs, rfl⟩ := List.mem_map.mp hj
    have hi := List.mem_range.mp hi
    obtain ⟨p, hp⟩ := place_valid ns ks ss ts js (fun k h => hk k (List.mem_cons_of_mem _ h)) (fun s h => hs s (List.mem_cons_of_mem _ h)) (Nat.succ.inj h1) (Nat.succ.inj h2) h.2 hjs
    have ht : t < (outSize n k s (stringPad false n k s).1 (stringPad false n k s).2).toNat := h.1
    obtain ⟨_, _, _, m4⟩ := window_meets false n k s (hk k List.mem_cons_self) (hs s List.mem_cons_self) t (by omega)
    obtain ⟨m5, m6⟩ := m4 rfl
    refine ⟨((t : Int) * s - before false n k s + i).toNat :: p, ?_⟩
    show place (n :: ns) (s :: ss) (stringPad false n k s :: pads false ns ks ss) (t :: ts) (i :: js) = _
    rw [place_cons, stringPad_before false n (hs s List.mem_cons_self), if_pos (by omega), hp]
    rfl

theorem indices_length : ∀ l : List Nat, (indices l).length = Verif.Shapes.size l
  | [] => rfl
  | n :: l => by
    show ((List.range n).flatMap fun i => (indices l).map (i :: ·)).length = n * Verif.Shapes.size l
    rw [List.length_flatMap]
    simp only [List.length_map, indices_length l]
    rw [List.map_const', List.length_range, List.sum_replicate_nat]

section Mean
variable [Field α]

theorem sum_one (l : List (List Nat)) : (l.map fun _ => (1 : α)).sum = (l.length : α) := by
  induction l with
  | nil => simp
  | cons a l ih => rw [List.map_cons, List.sum_cons, ih, List.length_cons, Nat.cast_succ, add_comm]

theorem foldr_sum (l : List (List Nat)) (f : List Nat → α) : l.foldr (fun j acc => f j + acc) 0 = (l.map f).sum := by
  induction l with
  | nil => rfl
  | cons a l ih => rw [List.foldr_cons, ih, List.map_cons, List.sum_cons]

/-- The arithmetic mean of the elements of `x` at the positions `l` (spec). -/
def mean (x : Arr α) (l : List (List Nat)) : α := (l.map x.val).sum / (l.length : α)

theorem pooled_window {x : Arr α} {ks ss : List Int} {b : Bool} (hf : Fit x.shape ks ss) {t : List Nat} (ht : t.length = x.shape.length) :
    (indices (ks.map Int.toNat)).foldr (fun j acc => ((place x.shape ss (pads b x.shape ks ss) t j).map x.val).getD 0 + acc) 0 = ((window b x.shape ks ss t).map x.val).sum := by
  rw [foldr_sum]
  have := sum_window b x.shape ks ss t x.val hf.stride hf.kernel hf.kernelRank hf.strideRank ht
  unfold boxSum at this
  rw [this, sum_filter]
  rfl

/-- C51 Whenever `avg_pool` does not raise, each output is the mean of the input elements inside its window, not counting padding, and there always is at least one such element.  This
holds for inputs of every rank, windows, strides and both paddings. -/
theorem avg_pool_mean (x : Arr α) (w s : Arg Int) (padding : List Char) (c : Option Int) (y : Arr α) (h : avgPool x w s padding c = .ok y) :
    ∃ ks ss b, inferShape x.shape.length w c = .ok ks ∧ inferShape x.shape.length s c = .ok ss ∧ (b = true ↔ padding = "SAME".toList) ∧ (b = false ↔ padding = "VALID".toList) ∧
      y.shape.length = x.shape.length ∧
      ∀ t, Within y.shape t → window b x.shape ks ss t ≠ [] ∧ y.val t = mean x (window b x.shape ks ss t) := by
  unfold avgPool at h
  obtain ⟨b, hb, h⟩ := Conv.bind_ok h
  obtain ⟨ks, hk, h⟩ := Conv.bind_ok h
  obtain ⟨ss, hs, h⟩ := Conv.bind_ok h
  obtain ⟨pooled, hp, h⟩ := Conv.bind_ok h
  obtain ⟨hf, rfl⟩ := reduce_ok hp
  have hbb : (b = true ↔ padding = "SAME".toList) ∧ (b = false ↔ padding = "VALID".toList) := by
    unfold paddingOf at hb
    split at hb
    · rename_i e
      cases hb
      exact ⟨⟨fun _ => e, fun _ => rfl⟩, ⟨(fun h => by cases h), fun h => by rw [h] at e; exact absurd e (by decide)⟩⟩
    · rename_i e
      split at hb
      · rename_i e'
        cases hb
        exact ⟨⟨(fun h => by cases h), fun h => (e h).elim⟩, ⟨fun _ => e', fun _ => rfl⟩⟩
      · cases hb
  have hne : ∀ t, Within (outShape x.shape ks ss (pads b x.shape ks ss)) t → window b x.shape ks ss t ≠ [] := by
    intro t ht e
    obtain ⟨p, hp, hw⟩ := window_nonempty b x.shape ks ss t hf.kernel hf.stride hf.kernelRank hf.strideRank ht
    have : p ∈ window b x.shape ks ss t := List.mem_filter.mpr ⟨hp, by simpa using hw⟩
    rw [e] at this
    cases this
  have hlen : ∀ t, Within (outShape x.shape ks ss (pads b x.shape ks ss)) t → t.length = x.shape.length := fun t ht => by
    rw [within_length ht, outShape_length b _ _ _ hf.kernelRank hf.strideRank]
  refine ⟨ks, ss, b, hk, hs, hbb.1, hbb.2, ?_, ?_⟩
  · cases b with
    | true =>
      rw [if_pos rfl] at h
      obtain ⟨counts, hc, h⟩ := Conv.bind_ok h
      cases h
      exact outShape_length true _ _ _ hf.kernelRank hf.strideRank
    | false =>
      rw [if_neg (by decide)] at h
      cases h
      exact outShape_length false _ _ _ hf.kernelRank hf.strideRank
  · cases b with
    | true =>
      rw [if_pos rfl] at h
      obtain ⟨counts, hc, h⟩ := Conv.bind_ok h
      obtain ⟨_, rfl⟩ := reduce_ok hc
      cases h
      intro t ht
      have ht' := hlen t ht
      refine ⟨hne t ht, ?_⟩
      show _ / _ = _ / _
      dsimp only
      rw [pooled_window hf ht']
      have := pooled_window (x := (⟨x.shape, fun _ => 1⟩ : Arr α)) (b := true) hf ht'
      dsimp only at this
      rw [this, sum_one]
    | false =>
      rw [if_neg (by decide)] at h
      cases h
      intro t ht
      have ht' := hlen t ht
      refine ⟨hne t ht, ?_⟩
      show _ / _ = _ / _
      dsimp only
      rw [pooled_window hf ht']
      have h1 := sum_window (M := Nat) false x.shape ks ss t (fun _ => 1) hf.stride hf.kernel hf.kernelRank hf.strideRank ht'
      unfold boxSum at h1
      rw [sum_filter] at h1
      have h2 : ((indices (ks.map Int.toNat)).map fun j => ((place x.shape ss (pads false x.shape ks ss) t j).map fun _ => 1).getD 0).sum = (indices (ks.map Int.toNat)).length := by
        rw [List.map_congr_left (g := fun _ => 1)]
        · rw [List.map_const', List.sum_replicate_nat, Nat.mul_one]
        · intro j hj
          obtain ⟨p, hp⟩ := place_valid x.shape ks ss t j hf.kernel hf.stride hf.kernelRank hf.strideRank ht hj
          rw [hp]
          rfl
      have h3 : (window false x.shape ks ss t).length = Verif.Shapes.size (ks.map Int.toNat) := by
        rw [← indices_length, ← h2, h1, List.map_const', List.sum_replicate_nat, Nat.mul_one]
        rfl
      rw [h3]

/-- C51 `avg_pool` of a constant input is that constant everywhere, for both paddings. -/
theorem avg_pool_constant [CharZero α] (x : Arr α) (k : α) (hx : ∀ p ∈ indices x.shape, x.val p = k) (w s : Arg Int) (padding : List Char) (c : Option Int) (y : Arr α)
    (h : avgPool x w s padding c = .ok y) (t : List Nat) (ht : Within y.shape t) : y.val t = k := by
  obtain ⟨ks, ss, b, _, _, _, _, _, hm⟩ := avg_pool_mean x w s padding c y h
  obtain ⟨hne, hv⟩ := hm t ht
  rw [hv]
  unfold mean
  have : (window b x.shape ks ss t).map x.val = (window b x.shape ks ss t).map fun _ => k := List.map_congr_left fun p hp => hx p (List.mem_filter.mp hp).1
  rw [this]
  have hsum : ∀ l : List (List Nat), (l.map fun _ => k).sum = (l.length : α) * k := by
    intro l
    induction l with
    | nil => simp
    | cons a l ih => rw [List.map_cons, List.sum_cons, ih, List.length_cons, Nat.cast_succ, add_mul, one_mul, add_comm]
  rw [hsum, mul_div_right_comm, div_self, one_mul]
  exact Nat.cast_ne_zero.mpr (by rw [Ne, List.length_eq_zero_iff]; exact hne)

end Mean

/-- A 3 by 3 image (one example, one channel) pooled with windows of size 2, stride 2 and `"SAME"` padding: the last column of windows has one or two real elements. -/
def img : Arr ℚ := ⟨[1, 3, 3, 1], fun p => (p.getD 1 0 * 3 + p.getD 2 0 : Nat)⟩

example : (∃ y, avgPool img (.scalar 2) (.scalar 2) "SAME".toList (some (-1)) = .ok y ∧ y.shape = [1, 2, 2, 1] ∧ y.val [0, 0, 0, 0] = 2 ∧ y.val [0, 0, 1, 0] = 7 / 2 ∧ y.val [0, 1, 1, 0] = 8) ∧
    Within [1, 2, 2, 1] [0, 1, 1, 0] ∧ window true [1, 3, 3, 1] [1, 2, 2, 1] [1, 2, 2, 1] [0, 0, 1, 0] = [[0, 0, 2, 0], [0, 1, 2, 0]] := by
  refine ⟨⟨_, rfl, by decide, ?_, ?_, ?_⟩, ⟨by decide, by decide, by decide, by decide, trivial⟩, by decide⟩
  · decide +kernel
  · decide +kernel
  · decide +kernel

theorem reduce_total (x : Arr α) (init : α) (op : α → α → α) {ks ss : List Int} (b : Bool) (hf : Fit x.shape ks ss) : ∃ y, reduceWindow x init op ks ss b = .ok y := by
  unfold reduceWindow
  rw [if_neg]
  · exact ⟨_, rfl⟩
  · simp only [List.any_eq_true, decide_eq_true_eq]
    rintro (⟨k, h, h'⟩ | ⟨k, h, h'⟩ | h | h)
    · have := hf.kernel k h; omega
    · have := hf.stride k h; omega
    · exact h hf.kernelRank
    · exact h hf.strideRank

/-- C51 `avg_pool` does not raise when the padding is `"SAME"` or `"VALID"` and the inferred windows and strides are positive and of the right rank. -/
theorem avg_pool_total [Field α] (x : Arr α) (w s : Arg Int) (b : Bool) (c : Option Int) (ks ss : List Int) (hk : inferShape x.shape.length w c = .ok ks)
    (hs : inferShape x.shape.length s c = .ok ss) (hf : Fit x.shape ks ss) : ∃ y, avgPool x w s (if b then "SAME".toList else "VALID".toList) c = .ok y := by
  obtain ⟨y, hy⟩ := reduce_total x (0 : α) (· + ·) b hf
  obtain ⟨z, hz⟩ := reduce_total (⟨x.shape, fun _ => 1⟩ : Arr α) 0 (· + ·) b hf
  have hb : paddingOf (if b then "SAME".toList else "VALID".toList) = .ok b := by cases b <;> decide
  unfold avgPool
  rw [hb, hk, hs]
  show ∃ y, (reduceWindow x 0 (· + ·) ks ss b >>= _) = _
  rw [hy]
  cases b with
  | true =>
    show ∃ y, (reduceWindow (⟨x.shape, fun _ => 1⟩ : Arr α) 0 (· + ·) ks ss true >>= _) = _
    rw [hz]
    exact ⟨_, rfl⟩
  | false => exact ⟨_, rfl⟩

example : inferShape img.shape.length (.scalar 2) (some (-1)) = .ok [1, 2, 2, 1] ∧ Fit img.shape [1, 2, 2, 1] [1, 2, 2, 1] := by
  refine ⟨by decide, ⟨by decide, by decide, by decide, by decide⟩⟩

/-! ### C62 -/

/-- The window positions that hold a real element are exactly those of `window`. -/
theorem place_iff (b : Bool) : ∀ (ns : List Nat) (ks ss : List Int) (t p : List Nat), (∀ s ∈ ss, 1 ≤ s) → (∀ k ∈ ks, 1 ≤ k) → p ∈ indices ns → InWindow b ns ks ss t p →
    ∃ j ∈ indices (ks.map Int.toNat), place ns ss (pads b ns ks ss) t j = some p
  | [], [], [], [], [], _, _, _, _ => ⟨[], List.mem_singleton.mpr rfl, rfl⟩
  | n :: ns, k :: ks, s :: ss, t :: ts, p :: ps, hs, hk, hp, hw => by
    obtain ⟨i, hi, hj⟩ := List.mem_flatMap.mp hp
    obtain ⟨ps', hps, e⟩ := List.mem_map.mp hj
    cases e
    have hi := List.mem_range.mp hi
    obtain ⟨⟨h1, h2⟩, h3⟩ := hw
    obtain ⟨js, hjs, hpl⟩ := place_iff b ns ks ss ts ps (fun s h => hs s (List.mem_cons_of_mem _ h)) (fun s h => hk s (List.mem_cons_of_mem _ h)) hps h3
    have hk1 := hk k List.mem_cons_self
    refine ⟨((p : Int) - ((t : Int) * s - before b n k s)).toNat :: js, List.mem_flatMap.mpr ⟨_, List.mem_range.mpr (by omega), List.mem_map.mpr ⟨js, hjs, rfl⟩⟩, ?_⟩
    show place (n :: ns) (s :: ss) (stringPad b n k s :: pads b ns ks ss) (t :: ts) _ = _
    rw [place_cons, stringPad_before b n (hs s List.mem_cons_self), if_pos (by omega), hpl]
    show some (_ :: ps) = some (p :: ps)
    congr 2
    omega
  | [], [], [], [], _ :: _, _, _, hp, hw => hw.elim

theorem foldr_max [LinearOrder α] [OrderBot α] (f : List Nat → α) : ∀ l : List (List Nat),
    (∀ j ∈ l, f j ≤ l.foldr (fun j acc => max (f j) acc) ⊥) ∧ (l.foldr (fun j acc => max (f j) acc) ⊥ = ⊥ ∨ ∃ j ∈ l, l.foldr (fun j acc => max (f j) acc) ⊥ = f j)
  | [] => ⟨(fun j h => by cases h), Or.inl rfl⟩
  | i :: l => by
    obtain ⟨h1, h2⟩ := foldr_max f l
    constructor
    · intro j hj
      rcases List.mem_cons.mp hj with rfl | hj
      · exact le_max_left _ _
      · exact le_trans (h1 j hj) (le_max_right _ _)
    · rw [List.foldr_cons]
      rcases max_choice (f i) (l.foldr (fun j acc => max (f j) acc) ⊥) with h | h
      · exact Or.inr ⟨i, List.mem_cons_self, h⟩
      · rw [h]
        exact h2.imp id fun ⟨j, hj, e⟩ => ⟨j, List.mem_cons_of_mem _ hj, e⟩

/-- C62 Whenever `max_pool` does not raise, each output is the largest of the input elements inside its window: it is one of them and none is larger.  Padding never wins. -/
theorem max_pool_largest [LinearOrder α] [OrderBot α] (x : Arr α) (w s : Arg Int) (padding : List Char) (c : Option Int) (y : Arr α) (h : maxPool ⊥ x w s padding c = .ok y) :
    ∃ ks ss b, inferShape x.shape.length w c = .ok ks ∧ inferShape x.shape.length s c = .ok ss ∧ (b = true ↔ padding = "SAME".toList) ∧ (b = false ↔ padding = "VALID".toList) ∧
      y.shape.length = x.shape.length ∧
      ∀ t, Within y.shape t → (∃ p ∈ window b x.shape ks ss t, y.val t = x.val p) ∧ ∀ p ∈ window b x.shape ks ss t, x.val p ≤ y.val t := by
  unfold maxPool at h
  obtain ⟨b, hb, h⟩ := Conv.bind_ok h
  obtain ⟨ks, hk, h⟩ := Conv.bind_ok h
  obtain ⟨ss, hs, h⟩ := Conv.bind_ok h
  obtain ⟨hf, rfl⟩ := reduce_ok h
  have hbb : (b = true ↔ padding = "SAME".toList) ∧ (b = false ↔ padding = "VALID".toList) := by
    unfold paddingOf at hb
    split at hb
    · rename_i e
      cases hb
      exact ⟨⟨fun _ => e, fun _ => rfl⟩, ⟨(fun h => by cases h), fun h => by rw [h] at e; exact absurd e (by decide)⟩⟩
    · rename_i e
      split at hb
      · rename_i e'
        cases hb
        exact ⟨⟨(fun h => by cases h), fun h => (e h).elim⟩, ⟨fun _ => e', fun _ => rfl⟩⟩
      · cases hb
  refine ⟨ks, ss, b, hk, hs, hbb.1, hbb.2, outShape_length b _ _ _ hf.kernelRank hf.strideRank, fun t ht => ?_⟩
  obtain ⟨m1, m2⟩ := foldr_max (fun j => ((place x.shape ss (pads b x.shape ks ss) t j).map x.val).getD ⊥) (indices (ks.map Int.toNat))
  have up : ∀ p ∈ window b x.shape ks ss t, x.val p ≤ (indices (ks.map Int.toNat)).foldr (fun j acc => max (((place x.shape ss (pads b x.shape ks ss) t j).map x.val).getD ⊥) acc) ⊥ := by
    intro p hp
    obtain ⟨hp1, hp2⟩ := List.mem_filter.mp hp
    obtain ⟨j, hj, hpl⟩ := place_iff b x.shape ks ss t p hf.stride hf.kernel hp1 (of_decide_eq_true hp2)
    have := m1 j hj
    rw [hpl] at this
    exact this
  refine ⟨?_, up⟩
  obtain ⟨p, hp, hw⟩ := window_nonempty b x.shape ks ss t hf.kernel hf.stride hf.kernelRank hf.strideRank ht
  have hpw : p ∈ window b x.shape ks ss t := List.mem_filter.mpr ⟨hp, decide_eq_true hw⟩
  have bot : ∀ {z : α}, (indices (ks.map Int.toNat)).foldr (fun j acc => max (((place x.shape ss (pads b x.shape ks ss) t j).map x.val).getD ⊥) acc) ⊥ = z → z = ⊥ → z = x.val p := by
    rintro z hz rfl
    exact (le_bot_iff.mp (hz ▸ up p hpw)).symm
  rcases m2 with m2 | ⟨j, hj, m2⟩
  · exact ⟨p, hpw, by show List.foldr _ _ _ = _; exact bot rfl m2⟩
  · cases hpl : place x.shape ss (pads b x.shape ks ss) t j with
    | none =>
      rw [hpl] at m2
      exact ⟨p, hpw, by show List.foldr _ _ _ = _; exact bot rfl m2⟩
    | some q =>
      rw [hpl] at m2
      obtain ⟨h1, h2⟩ := place_some b x.shape ks ss t j q hf.stride hj hpl
      exact ⟨q, List.mem_filter.mpr ⟨h1, decide_eq_true h2⟩, m2⟩

/-- Negative elements with `"SAME"` padding: the padding does not win. -/
example : (∃ y, maxPool ⊥ (⟨[1, 3, 1], fun p => ((-(p.getD 1 0 : Int) - 1 : Int) : WithBot Int)⟩ : Arr (WithBot Int)) (.scalar 2) (.scalar 2) "SAME".toList (some (-1)) = .ok y ∧ y.shape = [1, 2, 1] ∧
    y.val [0, 0, 0] = ((-1 : Int) : WithBot Int) ∧ y.val [0, 1, 0] = ((-3 : Int) : WithBot Int)) ∧ Within [1, 2, 1] [0, 1, 0] := by
  refine ⟨⟨_, rfl, by decide, by decide +kernel, by decide +kernel⟩, by decide, by decide, by decide, trivial⟩

end Verif.Props.Pool
