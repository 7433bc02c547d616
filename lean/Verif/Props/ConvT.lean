import Mathlib.Algebra.BigOperators.Group.Finset.Basic
import Mathlib.Algebra.BigOperators.Group.Finset.Sigma
import Mathlib.Algebra.BigOperators.Ring.Finset
import Mathlib.Tactic.Ring
import Verif.Model.ConvT
import Verif.Lemmas.Nd
import Verif.Props.Conv

/-!
# A transposed convolution is the transpose of a convolution (C72)
-/

set_option linter.unusedVariables false
set_option linter.unusedSectionVars false

namespace Verif.Props.ConvT
open Verif.Shapes (Err)
open Verif.Utils
open Verif.Conv
open Verif.Props.Conv

variable {α : Type}

/-! ### Specification -/

/-- The inner product of two images over the positions of the box with the given sizes. -/
def inner [CommSemiring α] (sizes : List Int) (channels : Nat) (x y : Image α) : α :=
  ∑ t ∈ (indices (sizes.map Int.toNat)).toFinset, ∑ c ∈ Finset.range channels, x.val (t.map Int.ofNat) c * y.val (t.map Int.ofNat) c

/-- The kernel position opposite to `j`. -/
def opposite (kernel : List Int) (j : List Nat) : List Nat := List.zipWith (fun k i => k.toNat - 1 - i) kernel j

/-! ### Lemmas -/

theorem mem_box : ∀ {ns : List Int} {i : List Nat}, i ∈ indices (ns.map Int.toNat) ↔ List.Forall₂ (fun (n : Int) (a : Nat) => (a : Int) < n) ns i
  | [], i => by
    show i ∈ [[]] ↔ _
    rw [List.mem_singleton]
    constructor
    · rintro rfl
      exact .nil
    · intro h
      cases h
      rfl
  | n :: ns, i => by
    show i ∈ (List.range n.toNat).flatMap (fun a => (indices (ns.map Int.toNat)).map (a :: ·)) ↔ _
    rw [List.mem_flatMap]
    constructor
    · rintro ⟨a, ha, h⟩
      obtain ⟨l, hl, rfl⟩ := List.mem_map.mp h
      have := List.mem_range.mp ha
      exact .cons (by omega) (mem_box.mp hl)
    · intro h
      cases h with
      | @cons _ a _ l h hl => exact ⟨a, List.mem_range.mpr (by omega), List.mem_map.mpr ⟨l, mem_box.mpr hl, rfl⟩⟩

theorem inside_iff : ∀ {ns p : List Int}, inside ns p = true ↔ ∃ i : List Nat, p = i.map Int.ofNat ∧ List.Forall₂ (fun (n : Int) (a : Nat) => (a : Int) < n) ns i
  | [], [] => ⟨fun _ => ⟨[], rfl, .nil⟩, fun _ => rfl⟩
  | [], _ :: _ => by
    refine ⟨(fun h => by cases h), ?_⟩
    rintro ⟨i, h, hi⟩
    cases hi
    cases h
  | _ :: _, [] => by
    refine ⟨(fun h => by cases h), ?_⟩
    rintro ⟨i, h, hi⟩
    cases hi
    cases h
  | n :: ns, a :: p => by
    show (decide (0 ≤ a) && decide (a < n) && inside ns p) = true ↔ _
    rw [Bool.and_eq_true, Bool.and_eq_true, decide_eq_true_eq, decide_eq_true_eq, inside_iff]
    constructor
    · rintro ⟨⟨h1, h2⟩, i, rfl, hi⟩
      refine ⟨a.toNat :: i, ?_, .cons (by omega) hi⟩
      rw [List.map_cons]
      congr 1
      show a = ((a.toNat : Nat) : Int)
      omega
    · rintro ⟨i, h, hi⟩
      cases hi with
      | @cons _ b _ l h1 h2 =>
        obtain ⟨h3, h4⟩ := List.cons.inj h
        have h3 : a = (b : Int) := h3
        exact ⟨⟨by omega, by omega⟩, l, h4, h2⟩

theorem cast_inj : Function.Injective (List.map Int.ofNat) := List.map_injective_iff.mpr fun a b h => Int.ofNat.inj h

/-- Reading an element with padding is a sum over the box. -/
theorem get_sum [CommSemiring α] (x : Image α) (p : List Int) (c : Nat) :
    x.get p c = ∑ i ∈ (indices (x.sizes.map Int.toNat)).toFinset, if p = i.map Int.ofNat then x.val (i.map Int.ofNat) c else 0 := by
  unfold Image.get
  by_cases h : inside x.sizes p = true
  · rw [if_pos h]
    obtain ⟨i, rfl, hi⟩ := inside_iff.mp h
    rw [Finset.sum_eq_single i]
    · rw [if_pos rfl]
    · intro b _ hb
      rw [if_neg fun e => hb (cast_inj e).symm]
    · intro hn
      exact absurd (List.mem_toFinset.mpr (mem_box.mpr hi)) hn
  · rw [if_neg h]
    refine (Finset.sum_eq_zero fun i hi => if_neg fun e => h ?_).symm
    exact inside_iff.mpr ⟨i, e, mem_box.mp (List.mem_toFinset.mp hi)⟩

/-- Positions of the dilated input. -/
def scaled (stride : List Int) (i : List Nat) : List Int := List.zipWith (fun (s : Int) (a : Nat) => (a : Int) * s) stride i

theorem undilate_iff : ∀ {ss p q : List Int}, (∀ s ∈ ss, 1 ≤ s) → ss.length = p.length → (undilate ss p = some q ↔ List.zipWith (fun s a => a * s) ss q = p ∧ q.length = p.length)
  | [], [], q, _, _ => by
    show some [] = some q ↔ [] = [] ∧ q.length = 0
    rw [Option.some.injEq]
    constructor
    · rintro rfl
      exact ⟨rfl, rfl⟩
    · rintro ⟨_, h⟩
      exact (List.eq_nil_of_length_eq_zero h).symm
  | s :: ss, a :: p, q, hs, hl => by
    have ih := fun q => undilate_iff (ss := ss) (p := p) (q := q) (fun s h => hs s (List.mem_cons_of_mem _ h)) (Nat.succ.inj hl)
    have h1 : 1 ≤ s := hs s List.mem_cons_self
    show (if a % s = 0 then (undilate ss p).map (a / s :: ·) else none) = some q ↔ _
    by_cases h : a % s = 0
    · rw [if_pos h, Option.map_eq_some_iff]
      constructor
      · rintro ⟨r, hr, rfl⟩
        obtain ⟨h2, h3⟩ := (ih r).mp hr
        refine ⟨?_, congrArg Nat.succ h3⟩
        show (a / s * s :: List.zipWith _ ss r) = _
        rw [h2, Int.ediv_mul_cancel_of_emod_eq_zero h]
      · rintro ⟨h2, h3⟩
        match q, h3 with
        | b :: r, h3 =>
          have h2 : (b * s :: List.zipWith (fun s a => a * s) ss r) = a :: p := h2
          obtain ⟨h4, h5⟩ := List.cons.inj h2
          refine ⟨r, (ih r).mpr ⟨h5, Nat.succ.inj h3⟩, ?_⟩
          rw [← h4, Int.mul_ediv_cancel _ (by omega)]
    · rw [if_neg h]
      refine ⟨(fun h => by cases h), ?_⟩
      rintro ⟨h2, h3⟩
      match q, h3 with
      | b :: r, h3 =>
        have h2 : (b * s :: List.zipWith (fun s a => a * s) ss r) = a :: p := h2
        obtain ⟨h4, _⟩ := List.cons.inj h2
        exact absurd (by rw [← h4]; exact Int.mul_emod_left b s) h

theorem scaled_eq (ss : List Int) (i : List Nat) : scaled ss i = List.zipWith (fun s a => a * s) ss (i.map Int.ofNat) := by
  unfold scaled
  rw [List.zipWith_map_right]
  rfl

/-- Reading an element of the dilated input is a sum over the box. -/
theorem getDilated_sum [CommSemiring α] (y : Image α) (ss p : List Int) (c : Nat) (hs : ∀ s ∈ ss, 1 ≤ s) (hl : ss.length = p.length) (hy : y.sizes.length = p.length) :
    y.getDilated ss p c = ∑ i ∈ (indices (y.sizes.map Int.toNat)).toFinset, if p = scaled ss i then y.val (i.map Int.ofNat) c else 0 := by
  have hlen : ∀ i ∈ (indices (y.sizes.map Int.toNat)).toFinset, i.length = p.length := fun i hi => by
    rw [← (mem_box.mp (List.mem_toFinset.mp hi)).length_eq, hy]
  unfold Image.getDilated
  rcases h : undilate ss p with _ | q
  · dsimp only
    refine (Finset.sum_eq_zero fun i hi => if_neg fun e => ?_).symm
    have := (undilate_iff (q := i.map Int.ofNat) hs hl).mpr ⟨by rw [← scaled_eq, e], by rw [List.length_map, hlen i hi]⟩
    rw [h] at this
    cases this
  · dsimp only
    rw [get_sum]
    refine Finset.sum_congr rfl fun i hi => ?_
    have e : q = i.map Int.ofNat ↔ p = scaled ss i := by
      have := undilate_iff (q := i.map Int.ofNat) hs hl
      rw [h, Option.some.injEq, ← scaled_eq] at this
      rw [this]
      constructor
      · rintro ⟨h, _⟩
        exact h.symm
      · intro h
        exact ⟨h.symm, by rw [List.length_map, hlen i hi]⟩
    by_cases h1 : q = i.map Int.ofNat
    · rw [if_pos h1, if_pos (e.mp h1)]
    · rw [if_neg h1, if_neg (mt e.mpr h1)]

/-- Tap `j` of the transposed convolution reads input `i` for output `t` exactly when the opposite tap of the convolution reads `t` for output `i`. -/
theorem taps : ∀ (n : Nat) (ks ss : List Int) (ps qs : List (Int × Int)) (t j i : List Nat), ks.length = n → ss.length = n → ps.length = n → qs.length = n → t.length = n → j.length = n → i.length = n →
    List.Forall₂ (fun (k : Int) (a : Nat) => (a : Int) < k) ks j → List.Forall₂ (fun (k : Int) (pq : (Int × Int) × (Int × Int)) => pq.1.1 = k - 1 - pq.2.1) ks (ps.zip qs) →
    (tap (List.replicate n 1) (List.replicate n 1) ps (t.map Int.ofNat) j = scaled ss i ↔ tap ss (List.replicate n 1) qs (i.map Int.ofNat) (opposite ks j) = t.map Int.ofNat)
  | 0, [], [], [], [], [], [], [], _, _, _, _, _, _, _, _, _ => ⟨fun _ => rfl, fun _ => rfl⟩
  | n + 1, k :: ks, s :: ss, p :: ps, q :: qs, t :: ts, j :: js, i :: is, h1, h2, h3, h4, h5, h6, h7, .cons hj hjs, .cons hp hps => by
    have ih := taps n ks ss ps qs ts js is (Nat.succ.inj h1) (Nat.succ.inj h2) (Nat.succ.inj h3) (Nat.succ.inj h4) (Nat.succ.inj h5) (Nat.succ.inj h6) (Nat.succ.inj h7) hjs hps
    show ((Int.ofNat t * 1 + j * 1 - p.1) :: tap (List.replicate n 1) (List.replicate n 1) ps (ts.map Int.ofNat) js = ((i : Int) * s) :: scaled ss is) ↔
      ((Int.ofNat i * s + ((k.toNat - 1 - j : Nat) : Int) * 1 - q.1) :: tap ss (List.replicate n 1) qs (is.map Int.ofNat) (opposite ks js) = Int.ofNat t :: ts.map Int.ofNat)
    rw [List.cons.injEq, List.cons.injEq, ih]
    refine and_congr_left fun _ => ?_
    have e : ((k.toNat - 1 - j : Nat) : Int) = k - 1 - j := by omega
    have hp : p.1 = k - 1 - q.1 := hp
    rw [e, hp, Int.ofNat_eq_natCast, Int.ofNat_eq_natCast]
    generalize (i : Int) * s = z
    omega

theorem opposite_box {ks : List Int} {j : List Nat} (h : List.Forall₂ (fun (k : Int) (a : Nat) => (a : Int) < k) ks j) :
    List.Forall₂ (fun (k : Int) (a : Nat) => (a : Int) < k) ks (opposite ks j) ∧ opposite ks (opposite ks j) = j := by
  induction h with
  | nil => exact ⟨.nil, rfl⟩
  | @cons k a ks l h _ ih =>
    refine ⟨.cons ?_ ih.1, ?_⟩
    · show ((k.toNat - 1 - a : Nat) : Int) < k
      omega
    · show (k.toNat - 1 - (k.toNat - 1 - a)) :: opposite ks (opposite ks l) = _
      rw [ih.2]
      congr 1
      omega

/-- Sums over kernel positions can be taken in the opposite order. -/
theorem sum_opposite [CommSemiring α] (ks : List Int) (f : List Nat → α) :
    ∑ j ∈ (indices (ks.map Int.toNat)).toFinset, f (opposite ks j) = ∑ j ∈ (indices (ks.map Int.toNat)).toFinset, f j := by
  refine Finset.sum_nbij' (opposite ks) (opposite ks) ?_ ?_ ?_ ?_ ?_
  · intro j hj
    exact List.mem_toFinset.mpr (mem_box.mpr (opposite_box (mem_box.mp (List.mem_toFinset.mp hj))).1)
  · intro j hj
    exact List.mem_toFinset.mpr (mem_box.mpr (opposite_box (mem_box.mp (List.mem_toFinset.mp hj))).1)
  · intro j hj
    exact (opposite_box (mem_box.mp (List.mem_toFinset.mp hj))).2
  · intro j hj
    exact (opposite_box (mem_box.mp (List.mem_toFinset.mp hj))).2
  · intro j hj
    rfl

theorem list_sum [CommSemiring α] (s : List Nat) (f : List Nat → α) : ((indices s).map f).sum = ∑ j ∈ (indices s).toFinset, f j := by
  rw [List.sum_toFinset _ (Verif.Nd.nodup_indices s)]

theorem range_sum [CommSemiring α] (n : Nat) (f : Nat → α) : ((List.range n).map f).sum = ∑ c ∈ Finset.range n, f c := by
  induction n with
  | zero => rfl
  | succ n ih => rw [List.range_succ, List.map_append, List.sum_append, ih, Finset.sum_range_succ, List.map_cons, List.map_nil, List.sum_singleton]

/-- The paddings of the two convolutions and the sizes. -/
theorem paddings {same : Bool} : ∀ (n : Nat) (ys os ks ss : List Int) {ps : List (Int × Int)}, ys.length = n → os.length = n → ks.length = n → ss.length = n → (∀ y ∈ ys, 1 ≤ y) → (∀ k ∈ ks, 1 ≤ k) → (∀ s ∈ ss, 1 ≤ s) →
    adjustedPaddings (if same then "SAME".toList else "VALID".toList) ys os ks ss = .ok ps →
    ps.length = n ∧ (List.zipWith (fun nk s => stringPad same nk.1 nk.2 s) (os.zip (List.zipWith (fun k r => dilate k r) ks (List.replicate n 1))) ss).length = n ∧
    outSizes os (List.zipWith (fun k r => dilate k r) ks (List.replicate n 1)) ss (List.zipWith (fun nk s => stringPad same nk.1 nk.2 s) (os.zip (List.zipWith (fun k r => dilate k r) ks (List.replicate n 1))) ss) = ys ∧
    List.Forall₂ (fun (k : Int) (pq : (Int × Int) × (Int × Int)) => pq.1.1 = k - 1 - pq.2.1) ks
      (ps.zip (List.zipWith (fun nk s => stringPad same nk.1 nk.2 s) (os.zip (List.zipWith (fun k r => dilate k r) ks (List.replicate n 1))) ss))
  | 0, [], [], [], [], ps, _, _, _, _, _, _, _, h => by
    cases h
    exact ⟨rfl, rfl, rfl, .nil⟩
  | n + 1, y :: ys, o :: os, k :: ks, s :: ss, ps, h1, h2, h3, h4, hy, hk, hs, h => by
    unfold adjustedPaddings at h
    obtain ⟨p, hp, h⟩ := bind_ok h
    obtain ⟨ps', hps, h⟩ := bind_ok h
    cases h
    obtain ⟨i1, i2, i3, i4⟩ := paddings n ys os ks ss (Nat.succ.inj h1) (Nat.succ.inj h2) (Nat.succ.inj h3) (Nat.succ.inj h4) (fun a h => hy a (List.mem_cons_of_mem _ h)) (fun a h => hk a (List.mem_cons_of_mem _ h))
      (fun a h => hs a (List.mem_cons_of_mem _ h)) hps
    have hk1 : 1 ≤ k := hk k List.mem_cons_self
    have hs1 : 1 ≤ s := hs s List.mem_cons_self
    have hy1 : 1 ≤ y := hy y List.mem_cons_self
    have ed : dilate k 1 = k := by
      unfold dilate
      rw [if_neg (by omega)]
      omega
    have key : outSize o k s (stringPad same o k s).1 (stringPad same o k s).2 = y ∧ p.1 = k - 1 - (stringPad same o k s).1 := by
      unfold computeAdjustedPadding at hp
      dsimp only at hp
      have ek : (k - 1) * 1 + 1 = k := by omega
      rw [ek] at hp
      cases same with
      | false =>
        rw [if_neg Bool.false_ne_true, if_pos rfl] at hp
        by_cases hi : y ≠ Int.fdiv (o - k + s) s
        · rw [if_pos hi] at hp
          cases hp
        · rw [if_neg hi] at hp
          cases hp
          have hi : y = Int.fdiv (o - k + s) s := not_not.mp hi
          refine ⟨?_, rfl⟩
          show max 0 (Int.fdiv (o + 0 + 0 - k) s + 1) = y
          have e : Int.fdiv (o - k + s) s = Int.fdiv (o - k) s + 1 := by
            rw [Int.fdiv_eq_ediv_of_nonneg _ (by omega), Int.fdiv_eq_ediv_of_nonneg _ (by omega), show o - k + s = o - k + 1 * s by omega, Int.add_mul_ediv_right _ _ (by omega)]
          rw [Int.add_zero, Int.add_zero, ← e, ← hi]
          omega
      | true =>
        rw [if_pos rfl, if_neg (by decide), if_pos rfl] at hp
        by_cases hi : y ≠ Int.fdiv (o + s - 1) s
        · rw [if_pos hi] at hp
          cases hp
        · rw [if_neg hi] at hp
          cases hp
          have hi : y = Int.fdiv (o + s - 1) s := not_not.mp hi
          rw [Int.fdiv_eq_ediv_of_nonneg _ (by omega)] at hi
          have h1 : y * s ≤ o + s - 1 := by rw [hi]; exact Int.ediv_mul_le _ (by omega)
          have h2 : o + s - 1 < (y + 1) * s := by rw [hi]; exact Int.lt_ediv_add_one_mul_self _ (by omega)
          have hc : - Int.fdiv (-o) s = y := by
            rw [Int.fdiv_eq_ediv_of_nonneg _ (by omega)]
            have : (-o) / s = -y := by
              refine (Int.ediv_eq_iff_of_pos (by omega)).mpr ⟨?_, ?_⟩
              · rw [Int.neg_mul]
                rw [Int.add_mul] at h2
                omega
              · rw [Int.neg_mul]
                omega
            rw [this, Int.neg_neg]
          have hsp : stringPad true o k s = (Int.fdiv (max 0 ((y - 1) * s + k - o)) 2, max 0 ((y - 1) * s + k - o) - Int.fdiv (max 0 ((y - 1) * s + k - o)) 2) := by
            unfold stringPad
            rw [if_pos rfl]
            dsimp only
            rw [hc]
          rw [hsp]
          refine ⟨?_, rfl⟩
          unfold outSize
          dsimp only
          rw [show o + Int.fdiv (max 0 ((y - 1) * s + k - o)) 2 + (max 0 ((y - 1) * s + k - o) - Int.fdiv (max 0 ((y - 1) * s + k - o)) 2) - k = o + max 0 ((y - 1) * s + k - o) - k by omega,
            Int.fdiv_eq_ediv_of_nonneg _ (by omega)]
          rw [Int.add_mul] at h2
          have : (o + max 0 ((y - 1) * s + k - o) - k) / s = y - 1 := by
            refine (Int.ediv_eq_iff_of_pos (by omega)).mpr ⟨?_, ?_⟩
            · omega
            · rw [Int.sub_mul] at *
              omega
          rw [this]
          omega
    refine ⟨congrArg Nat.succ i1, ?_, ?_, ?_⟩
    · show (stringPad same o (dilate k 1) s :: List.zipWith (fun nk s => stringPad same nk.1 nk.2 s) (os.zip (List.zipWith (fun k r => dilate k r) ks (List.replicate n 1))) ss).length = n + 1
      rw [List.length_cons, i2]
    · show outSize o (dilate k 1) s (stringPad same o (dilate k 1) s).1 (stringPad same o (dilate k 1) s).2 :: outSizes os _ ss (List.zipWith (fun nk s => stringPad same nk.1 nk.2 s) (os.zip (List.zipWith (fun k r => dilate k r) ks (List.replicate n 1))) ss) = _
      rw [i3, ed, key.1]
    · refine .cons ?_ i4
      show p.1 = k - 1 - (stringPad same o (dilate k 1) s).1
      rw [ed]
      exact key.2

/-! ### C72 -/

/-- C72 A transposed convolution with `output_shape` and padding `"SAME"` or `"VALID"` is the transpose of the convolution with the same kernel size, stride and padding: that convolution maps images of the output shape to images of the
input's shape, and the inner product of any image `x` with the transposed convolution of `y` is the inner product of the convolution of `x`, with each kernel position replaced by the opposite one, with `y`. -/
theorem transposed_adjoint [CommSemiring α] (m : ConvNDTranspose) (same : Bool) (hm : m.padding = if same then "SAME".toList else "VALID".toList) (hk : m.kernelShape.length = m.numSpatialDims)
    (ho : m.outputShape.length = m.numSpatialDims) (hs : m.stride.length = m.numSpatialDims) (hk1 : ∀ k ∈ m.kernelShape, 1 ≤ k) (oc : Nat) (w : List Nat → Nat → Nat → α) (x y z : Image α)
    (hx : x.sizes = m.outputShape) (hxc : x.channels = oc) (hy : ∀ n ∈ y.sizes, 1 ≤ n) (h : m.call oc w (fun _ => 0) y = .ok z) :
    ∃ u, ConvND.call ⟨m.numSpatialDims, y.channels, m.kernelShape, m.stride, List.replicate m.numSpatialDims 1, 1, .str m.padding⟩ (fun j i o => w (opposite m.kernelShape j) i o) (fun _ => 0) x = .ok u ∧
      u.sizes = y.sizes ∧ u.channels = y.channels ∧ inner x.sizes oc x z = inner y.sizes y.channels u y := by
  unfold ConvNDTranspose.call at h
  by_cases hr : y.sizes.length ≠ m.numSpatialDims
  · rw [if_pos hr] at h
    cases h
  rw [if_neg hr] at h
  have hr : y.sizes.length = m.numSpatialDims := not_not.mp hr
  obtain ⟨ps, hps, h⟩ := bind_ok h
  by_cases hb : m.stride.any (· ≤ 0) = true ∨ m.kernelShape.any (· < 0) = true
  · rw [if_pos hb] at h
    cases h
  rw [if_neg hb] at h
  have hz := Except.ok.inj h
  have hs1 : ∀ s ∈ m.stride, 1 ≤ s := by
    intro s h
    have : ¬ s ≤ 0 := fun h0 => hb (.inl (List.any_eq_true.mpr ⟨s, h, decide_eq_true h0⟩))
    omega
  rw [hm] at hps
  obtain ⟨p1, p2, p3, p4⟩ := paddings _ _ _ _ _ hr ho hk hs hy hk1 hs1 hps
  generalize hq : List.zipWith (fun nk s => stringPad same nk.1 nk.2 s) (m.outputShape.zip (List.zipWith (fun k r => dilate k r) m.kernelShape (List.replicate m.numSpatialDims 1))) m.stride = qs at p2 p3 p4
  have hcall : ConvND.call ⟨m.numSpatialDims, y.channels, m.kernelShape, m.stride, List.replicate m.numSpatialDims 1, 1, .str m.padding⟩ (fun j i o => w (opposite m.kernelShape j) i o) (fun _ => 0) x =
      .ok (ConvND.output ⟨m.numSpatialDims, y.channels, m.kernelShape, m.stride, List.replicate m.numSpatialDims 1, 1, .str m.padding⟩ (fun j i o => w (opposite m.kernelShape j) i o) (fun _ => 0) x qs) := by
    unfold ConvND.call
    dsimp only
    have h2 : ¬ (x.channels % 1 ≠ 0 ∨ (1 : Nat) = 0) := by omega
    have h3 : ¬ (m.stride.any (· ≤ 0) = true ∨ (List.replicate m.numSpatialDims (1 : Int)).any (· ≤ 0) = true ∨ m.kernelShape.any (· < 0) = true) := by
      rintro (h | h | h)
      · exact hb (.inl h)
      · obtain ⟨a, ha, h⟩ := List.any_eq_true.mp h
        rw [List.eq_of_mem_replicate ha] at h
        exact absurd h (by decide)
      · exact hb (.inr h)
    rw [if_neg (by rw [hx, ho]; exact fun h => h rfl), if_neg h2, if_neg h3]
    unfold ConvND.pads
    dsimp only
    rw [hm]
    cases same with
    | true => rw [if_pos rfl, if_pos rfl, hx, hq]; rfl
    | false => rw [if_neg Bool.false_ne_true, if_neg (by decide), if_pos rfl, hx, hq]; rfl
  refine ⟨_, hcall, ?_, rfl, ?_⟩
  · show outSizes x.sizes _ m.stride qs = _
    rw [hx]
    exact p3
  · unfold inner
    have len : ∀ {ns : List Int} {i : List Nat}, i ∈ (indices (ns.map Int.toNat)).toFinset → i.length = ns.length := fun h => ((mem_box.mp (List.mem_toFinset.mp h)).length_eq).symm
    have tl : ∀ (n : Nat) (ss rs : List Int) (ps : List (Int × Int)) (t : List Int) (j : List Nat), ss.length = n → rs.length = n → ps.length = n → t.length = n → j.length = n → (tap ss rs ps t j).length = n := by
      intro n
      induction n with
      | zero =>
        intro ss rs ps t j h1 h2 h3 h4 h5
        rw [List.eq_nil_of_length_eq_zero h1]
        rfl
      | succ n ih =>
        intro ss rs ps t j h1 h2 h3 h4 h5
        match ss, rs, ps, t, j with
        | s :: ss, r :: rs, p :: ps, t :: ts, j :: js =>
          show (tap ss rs ps ts js).length + 1 = n + 1
          rw [ih _ _ _ _ _ (Nat.succ.inj h1) (Nat.succ.inj h2) (Nat.succ.inj h3) (Nat.succ.inj h4) (Nat.succ.inj h5)]
    have zv : ∀ t ∈ (indices (x.sizes.map Int.toNat)).toFinset, ∀ c, z.val (t.map Int.ofNat) c = ∑ j ∈ (indices (m.kernelShape.map Int.toNat)).toFinset, ∑ d ∈ Finset.range y.channels,
        ∑ i ∈ (indices (y.sizes.map Int.toNat)).toFinset,
          if tap m.stride (List.replicate m.numSpatialDims 1) qs (i.map Int.ofNat) (opposite m.kernelShape j) = t.map Int.ofNat then w j c d * y.val (i.map Int.ofNat) d else 0 := by
      intro t ht c
      rw [← hz]
      dsimp only
      rw [add_zero, list_sum]
      refine Finset.sum_congr rfl fun j hj => ?_
      rw [range_sum]
      refine Finset.sum_congr rfl fun d _ => ?_
      have tlen : t.length = m.numSpatialDims := by rw [len ht, hx, ho]
      have jlen : j.length = m.numSpatialDims := by rw [len hj, hk]
      have hl := tl _ (List.replicate m.numSpatialDims 1) (List.replicate m.numSpatialDims 1) ps (t.map Int.ofNat) j List.length_replicate List.length_replicate p1 (by rw [List.length_map, tlen]) jlen
      rw [getDilated_sum y m.stride _ d hs1 (by rw [hl, hs]) (by rw [hl, hr]), Finset.mul_sum]
      refine Finset.sum_congr rfl fun i hi => ?_
      have e := taps m.numSpatialDims m.kernelShape m.stride ps qs t j i hk hs p1 p2 tlen jlen (by rw [len hi, hr]) (mem_box.mp (List.mem_toFinset.mp hj)) p4
      rw [mul_ite, mul_zero]
      exact if_congr e rfl rfl
    have uv : ∀ i ∈ (indices (y.sizes.map Int.toNat)).toFinset, ∀ d ∈ Finset.range y.channels,
        (ConvND.output ⟨m.numSpatialDims, y.channels, m.kernelShape, m.stride, List.replicate m.numSpatialDims 1, 1, .str m.padding⟩ (fun j i o => w (opposite m.kernelShape j) i o) (fun _ => 0) x qs).val (i.map Int.ofNat) d =
        ∑ j ∈ (indices (m.kernelShape.map Int.toNat)).toFinset, ∑ c ∈ Finset.range oc, ∑ t ∈ (indices (x.sizes.map Int.toNat)).toFinset,
          if tap m.stride (List.replicate m.numSpatialDims 1) qs (i.map Int.ofNat) (opposite m.kernelShape j) = t.map Int.ofNat then w j c d * x.val (t.map Int.ofNat) c else 0 := by
      intro i hi d hd
      unfold ConvND.output
      dsimp only
      rw [add_zero, list_sum, ← sum_opposite m.kernelShape (fun j => ∑ c ∈ Finset.range oc, ∑ t ∈ (indices (x.sizes.map Int.toNat)).toFinset,
          if tap m.stride (List.replicate m.numSpatialDims 1) qs (i.map Int.ofNat) (opposite m.kernelShape j) = t.map Int.ofNat then w j c d * x.val (t.map Int.ofNat) c else 0)]
      refine Finset.sum_congr rfl fun j hj => ?_
      rw [range_sum, Nat.div_one, hxc, Nat.div_one, Nat.div_eq_of_lt (Finset.mem_range.mp hd), (opposite_box (mem_box.mp (List.mem_toFinset.mp hj))).2]
      refine Finset.sum_congr rfl fun c _ => ?_
      rw [Nat.zero_mul, Nat.zero_add, get_sum, Finset.mul_sum]
      refine Finset.sum_congr rfl fun t _ => ?_
      rw [mul_ite, mul_zero]
    have L : ∀ t ∈ (indices (x.sizes.map Int.toNat)).toFinset, ∑ c ∈ Finset.range oc, x.val (t.map Int.ofNat) c * z.val (t.map Int.ofNat) c =
        ∑ i ∈ (indices (y.sizes.map Int.toNat)).toFinset, ∑ d ∈ Finset.range y.channels, ∑ c ∈ Finset.range oc, ∑ j ∈ (indices (m.kernelShape.map Int.toNat)).toFinset,
          if tap m.stride (List.replicate m.numSpatialDims 1) qs (i.map Int.ofNat) (opposite m.kernelShape j) = t.map Int.ofNat then x.val (t.map Int.ofNat) c * (w j c d * y.val (i.map Int.ofNat) d) else 0 := by
      intro t ht
      have : ∀ c ∈ Finset.range oc, x.val (t.map Int.ofNat) c * z.val (t.map Int.ofNat) c = ∑ i ∈ (indices (y.sizes.map Int.toNat)).toFinset, ∑ d ∈ Finset.range y.channels, ∑ j ∈ (indices (m.kernelShape.map Int.toNat)).toFinset,
          if tap m.stride (List.replicate m.numSpatialDims 1) qs (i.map Int.ofNat) (opposite m.kernelShape j) = t.map Int.ofNat then x.val (t.map Int.ofNat) c * (w j c d * y.val (i.map Int.ofNat) d) else 0 := by
        intro c _
        rw [zv t ht c, Finset.mul_sum, Finset.sum_congr rfl fun j _ => Finset.mul_sum _ _ _, Finset.sum_comm, Finset.sum_congr rfl fun d _ => Finset.sum_congr rfl fun j _ => Finset.mul_sum _ _ _]
        rw [Finset.sum_congr rfl fun d _ => Finset.sum_comm, Finset.sum_comm]
        refine Finset.sum_congr rfl fun i _ => Finset.sum_congr rfl fun d _ => Finset.sum_congr rfl fun j _ => ?_
        rw [mul_ite, mul_zero]
      rw [Finset.sum_congr rfl this, Finset.sum_comm]
      exact Finset.sum_congr rfl fun i _ => Finset.sum_comm
    rw [Finset.sum_congr rfl L, Finset.sum_comm]
    refine Finset.sum_congr rfl fun i hi => ?_
    rw [Finset.sum_comm]
    refine Finset.sum_congr rfl fun d hd => ?_
    rw [uv i hi d hd, Finset.sum_mul, Finset.sum_congr rfl fun t _ => Finset.sum_comm, Finset.sum_comm]
    refine Finset.sum_congr rfl fun j _ => ?_
    rw [Finset.sum_mul, Finset.sum_comm]
    refine Finset.sum_congr rfl fun c _ => ?_
    rw [Finset.sum_mul]
    refine Finset.sum_congr rfl fun t _ => ?_
    rw [ite_mul, zero_mul]
    refine if_congr Iff.rfl ?_ rfl
    ring

/-- The hypotheses of C72 on a case: kernel 3, stride 2, output size 5 with padding `"SAME"`, an input of size 3 with 2 channels. -/
example : ConvNDTranspose.make 1 (.scalar 3) (.scalar 2) (.scalar 5) "SAME".toList = .ok ⟨1, [3], [5], [2], "SAME".toList⟩ ∧
    (ConvNDTranspose.call ⟨1, [3], [5], [2], "SAME".toList⟩ 1 (fun j o i => ((j.headD 0 + 1) * (i + 2) : Int)) (fun _ => 0) ⟨[3], 2, fun p c => p.headD 0 + c⟩).map
      (fun z => (z.sizes, (List.range 5).map fun (t : Nat) => z.val [Int.ofNat t] 0)) = .ok ([5], [6, 27, 16, 47, 26]) := by decide +kernel

end Verif.Props.ConvT
