import Verif.Model.BiasCall
import Verif.Props.Bias
import Verif.Props.Cores

/-!
# Adding a bias (C143)
-/

set_option linter.unusedVariables false
set_option linter.unusedSectionVars false

namespace Verif.Props.Bias
open Verif.Shapes (Err)
open Verif.Pool (Arr)
open Verif.Mlp (ParamFn getParameter)
open Verif.Nd (zip map BroadcastsTo)
open Verif.Props.Reset (Valid)
open Verif.Props.Norm (bind_eq spread)
open Verif.Props.Cores (Has)
open Verif.Bias

variable {K : Type} [Field K]

/-! ### Specification -/

open Classical in
/-- The coordinates of a position in the selected dimensions, and 0 in the others. -/
noncomputable def selected (dims : Option (List Int)) (i : List Nat) : List Nat :=
  (List.range i.length).map fun d => if Selects dims i.length d ∧ d ≠ 0 then i.getD d 0 else 0

/-- The element of the bias for a position of the input: leading coordinates that the bias does not have are left out. -/
noncomputable def biasAt (b : Arr K) (dims : Option (List Int)) (i : List Nat) : K := b.val ((selected dims i).drop (i.length - b.shape.length))

/-- What the bias is multiplied with at a position. -/
def factor (v : Option (Arr K)) (i : List Nat) : K :=
  match v with
  | none => 1
  | some v => spread v i

/-- An input that the module takes: of rank 2 or more, with valid dimensions, and of the size that the module was made for, given as a tuple. -/
structure Takes (m : Bias) (s : List Nat) : Prop where
  rank : 2 ≤ s.length
  dims : ∀ l, m.biasDims = some l → ∀ e ∈ l, InRange s.length e
  size : m.outputSize = none ∨ m.outputSize = some (.tuple (s.drop 1))

/-- The bias of the module for inputs of this shape. -/
def Owns (get : ParamFn K) (m : Bias) (s : List Nat) (b : Arr K) : Prop := ∀ r, calculateBiasShape s m.biasDims = .ok r → Has get m.name "b" r b

/-! ### Lemmas -/

theorem broadcasts_padded {s r : List Nat} {P : Nat → Prop} (hl : r.length < s.length) (h : ∀ d, d < s.length → (P d → (List.replicate (s.length - r.length) 1 ++ r)[d]? = s[d]?) ∧
    (¬P d → (List.replicate (s.length - r.length) 1 ++ r)[d]? = some 1)) : BroadcastsTo r s := by
  refine ⟨s.take (s.length - r.length), s.drop (s.length - r.length), (List.take_append_drop _ _).symm, ?_⟩
  rw [List.forall₂_iff_get]
  refine ⟨by rw [List.length_drop]; omega, fun d h1 h2 => ?_⟩
  have hd : s.length - r.length + d < s.length := by omega
  have e : (List.replicate (s.length - r.length) 1 ++ r)[s.length - r.length + d]? = some (r[d]) := by
    rw [List.getElem?_append_right (by rw [List.length_replicate]; omega), List.length_replicate, Nat.add_sub_cancel_left, List.getElem?_eq_getElem h1]
  rw [List.get_eq_getElem, List.get_eq_getElem, List.getElem_drop]
  by_cases hp : P (s.length - r.length + d)
  · have := (h _ hd).1 hp
    rw [e, List.getElem?_eq_getElem hd] at this
    exact .inr (Option.some.inj this)
  · have := (h _ hd).2 hp
    rw [e] at this
    exact .inl (Option.some.inj this)

theorem valid_get {s i : List Nat} (h : Valid s i) {d : Nat} (hd : d < s.length) : i.getD d 0 < s.getD d 0 := by
  induction h generalizing d with
  | nil => exact absurd hd (Nat.not_lt_zero _)
  | cons h1 h2 ih =>
    cases d with
    | zero => exact h1
    | succ d => exact ih (Nat.lt_of_succ_lt_succ hd)

theorem spread_bias {s r i : List Nat} {dims : Option (List Int)} {b : Arr K} (hb : b.shape = r) (hv : Valid s i) (hl : r.length < s.length)
    (h : ∀ d, d < s.length → (Selects dims s.length d ∧ d ≠ 0 → (List.replicate (s.length - r.length) 1 ++ r)[d]? = s[d]?) ∧
      (¬(Selects dims s.length d ∧ d ≠ 0) → (List.replicate (s.length - r.length) 1 ++ r)[d]? = some 1)) : spread b i = biasAt b dims i := by
  have hil : i.length = s.length := hv.length
  unfold spread biasAt
  rw [hb]
  congr 1
  refine List.ext_getElem? fun d => ?_
  by_cases hd : d < r.length
  · have hd' : s.length - r.length + d < s.length := by omega
    have e : (List.replicate (s.length - r.length) 1 ++ r)[s.length - r.length + d]? = some (r[d]) := by
      rw [List.getElem?_append_right (by rw [List.length_replicate]; omega), List.length_replicate, Nat.add_sub_cancel_left, List.getElem?_eq_getElem hd]
    have hi : i[s.length - r.length + d]? = some (i.getD (s.length - r.length + d) 0) := by
      rw [List.getD_eq_getElem?_getD, List.getElem?_eq_getElem (by omega)]
      rfl
    rw [List.getElem?_zipWith, List.getElem?_drop, List.getElem?_drop, hil, hi, List.getElem?_eq_getElem hd]
    unfold selected
    rw [List.getElem?_map, List.getElem?_range (by omega), hil]
    show some (if r[d] = 1 then 0 else i.getD (s.length - r.length + d) 0) = some _
    congr 1
    have hlt := valid_get hv hd'
    dsimp only
    split
    · rename_i h1
      split
      · rename_i hp
        have := (h _ hd').1 hp
        rw [e, h1] at this
        rw [List.getD_eq_getElem?_getD (l := s), ← this] at hlt
        have : i.getD (s.length - r.length + d) 0 < 1 := hlt
        omega
      · rfl
    · rename_i h1
      rw [if_pos]
      by_contra hp
      have := (h _ hd').2 hp
      rw [e] at this
      exact h1 (Option.some.inj this)
  · rw [List.getElem?_eq_none, List.getElem?_eq_none]
    · unfold selected
      rw [List.length_drop, List.length_map, List.length_range]
      omega
    · rw [List.length_zipWith, List.length_drop]
      omega

theorem populate_fits {s : List Nat} : ∀ {dims : List Int} {acc out : List Nat}, populate s dims acc = .ok out → List.Forall₂ (fun d n => d = 1 ∨ d = n) acc s → List.Forall₂ (fun d n => d = 1 ∨ d = n) out s
  | [], acc, out, h, ha => by
    cases h
    exact ha
  | e :: dims, acc, out, h, ha => by
    unfold populate at h
    dsimp only at h
    by_cases h0 : e < 0 ∧ (s.length : Int) = 0
    · rw [if_pos h0] at h
      cases h
    rw [if_neg h0] at h
    generalize (if e < 0 then Int.fmod e s.length else e) = z at h
    split at h
    · cases h
    split at h
    · cases h
    · refine populate_fits h ?_
      rw [List.forall₂_iff_get] at ha ⊢
      refine ⟨by rw [List.length_set]; exact ha.1, fun d h1 h2 => ?_⟩
      have hd : d < acc.length := by rw [List.length_set] at h1; exact h1
      have := ha.2 d hd h2
      simp only [List.get_eq_getElem] at this ⊢
      rw [List.getElem_set]
      split
      · rename_i he
        subst he
        rw [List.getD_eq_getElem?_getD, List.getElem?_eq_getElem h2]
        exact .inr rfl
      · exact this

theorem shape_broadcasts {s r : List Nat} {dims : Option (List Int)} (h : calculateBiasShape s dims = .ok r) : BroadcastsTo r s := by
  have same : ∀ l : List Nat, List.Forall₂ (fun d n => d = 1 ∨ d = n) l l := fun l => List.forall₂_same.mpr fun _ _ => .inr rfl
  match dims, h with
  | none, h =>
    cases h
    exact ⟨s.take 1, s.drop 1, (List.take_append_drop _ _).symm, same _⟩
  | some [], h =>
    cases h
    exact Verif.Nd.broadcasts_nil s
  | some (e :: dims), h =>
    change (populate s (e :: dims) (List.replicate s.length 1) >>= fun out => .ok (out.drop (stripStart out s.length))) = _ at h
    cases hp : populate s (e :: dims) (List.replicate s.length 1) with
    | error e => rw [hp] at h; cases h
    | ok out =>
      rw [hp] at h
      cases h
      have := populate_fits hp (by
        rw [List.forall₂_iff_get]
        refine ⟨List.length_replicate .., fun d _ _ => .inl ?_⟩
        rw [List.get_eq_getElem, List.getElem_replicate])
      exact ⟨s.take _, s.drop _, (List.take_append_drop (stripStart out s.length) _).symm, List.forall₂_drop _ this⟩

/-! ### C143 -/

/-- C143 The module adds to each element of the input the element of its bias at the coordinates in the selected dimensions, times the multiplier, and keeps the shape. -/
theorem bias_adds (get : ParamFn K) (m : Bias) (x b : Arr K) (v : Option (Arr K)) (ht : Takes m x.shape) (ho : Owns get m x.shape b) (hv : ∀ a, v = some a → BroadcastsTo a.shape x.shape) :
    ∃ y, m.call get x v = .ok y ∧ y.shape = x.shape ∧ ∀ i, Valid x.shape i → y.val i = x.val i + biasAt b m.biasDims i * factor v i := by
  obtain ⟨r, h1, h2, h3⟩ := bias_shape x.shape (List.length_pos_iff.mp (by have := ht.rank; omega)) m.biasDims ht.dims
  obtain ⟨g1, g2⟩ := ho r h1
  have e0 : checkSize m.outputSize (x.shape.drop 1) = .ok () := by
    rcases ht.size with h | h
    · rw [h]; rfl
    · rw [h]; exact if_pos rfl
  have e2 : getParameter get m.name "b" r = .ok b := by
    unfold getParameter
    rw [g1]
    exact if_pos g2
  obtain ⟨c, e3, cs, cv⟩ := Verif.Props.Norm.broadcastTo_at (x := b) (s := x.shape) (by rw [g2]; exact broadcasts_padded h2 h3)
  have last : ∀ d : Arr K, d.shape = x.shape → ∃ y, zip (· + ·) x d = .ok y ∧ y.shape = x.shape ∧ ∀ i, Valid x.shape i → y.val i = x.val i + d.val i := fun d hd => Verif.Props.Cores.zip_same rfl hd
  have sp : ∀ i, Valid x.shape i → c.val i = biasAt b m.biasDims i := fun i hi => by rw [cv, spread_bias g2 hi h2 h3]
  unfold Bias.call
  rw [if_neg (by have := ht.rank; omega), bind_eq e0, bind_eq h1, bind_eq e2, bind_eq e3]
  cases v with
  | none =>
    obtain ⟨y, e, ys, yv⟩ := last c cs
    refine ⟨y, e, ys, fun i hi => ?_⟩
    rw [yv i hi, sp i hi]
    exact congrArg (_ + ·) (mul_one _).symm
  | some a =>
    obtain ⟨d, e4, ds, dv⟩ := Verif.Props.Norm.zip_at (f := (· * ·)) (x := c) (y := a) (by rw [cs]; exact hv a rfl)
    rw [cs] at ds dv
    obtain ⟨y, e, ys, yv⟩ := last d ds
    refine ⟨y, (bind_eq e4).trans e, ys, fun i hi => ?_⟩
    rw [yv i hi, dv i hi, sp i hi]
    rfl

/-- C143 A bias that was added with one multiplier is taken off again with its negative. -/
theorem bias_undone (get : ParamFn K) (m : Bias) (x b : Arr K) (v : Arr K) (ht : Takes m x.shape) (ho : Owns get m x.shape b) (hv : BroadcastsTo v.shape x.shape) :
    ∃ y z, m.call get x (some v) = .ok y ∧ m.call get y (some (map (- ·) v)) = .ok z ∧ z.shape = x.shape ∧ ∀ i, Valid x.shape i → z.val i = x.val i := by
  obtain ⟨y, e, ys, yv⟩ := bias_adds get m x b (some v) ht ho (fun a ha => by cases ha; exact hv)
  obtain ⟨z, e', zs, zv⟩ := bias_adds get m y b (some (map (- ·) v)) (by rw [ys]; exact ht) (by rw [ys]; exact ho) (fun a ha => by cases ha; rw [ys]; exact hv)
  refine ⟨y, z, e, e', by rw [zs, ys], fun i hi => ?_⟩
  rw [zv i (by rw [ys]; exact hi), yv i hi]
  have : factor (some (map (- ·) v)) i = -factor (some v) i := rfl
  rw [this]
  ring

/-- C143 The same bias is added wherever the coordinates in the selected dimensions agree, in particular to all examples of a batch. -/
theorem bias_shared (get : ParamFn K) (m : Bias) (x b y : Arr K) (ht : Takes m x.shape) (ho : Owns get m x.shape b) (hy : m.call get x none = .ok y) (i j : List Nat) (hi : Valid x.shape i) (hj : Valid x.shape j)
    (h : ∀ d, Selects m.biasDims x.shape.length d → d ≠ 0 → i.getD d 0 = j.getD d 0) : y.val i - x.val i = y.val j - x.val j := by
  obtain ⟨y', e, _, yv⟩ := bias_adds get m x b none ht ho (fun a ha => by cases ha)
  rw [hy] at e
  cases e
  have : selected m.biasDims i = selected m.biasDims j := by
    unfold selected
    rw [hi.length, hj.length]
    refine List.map_congr_left fun d _ => ?_
    split
    · rename_i hs
      exact h d hs.1 hs.2
    · rfl
  rw [yv i hi, yv j hj]
  unfold biasAt
  rw [this, hi.length, hj.length]
  show x.val i + _ * 1 - _ = x.val j + _ * 1 - _
  ring

/-- C143 Exactly those inputs are taken that have rank 2 or more, dimensions for which there is a shape, and the size that the module was made for. -/
theorem bias_accepts (get : ParamFn K) (m : Bias) (x b : Arr K) (ho : Owns get m x.shape b) :
    (∃ y, m.call get x none = .ok y) ↔ 2 ≤ x.shape.length ∧ (∃ r, calculateBiasShape x.shape m.biasDims = .ok r) ∧ (m.outputSize = none ∨ m.outputSize = some (.tuple (x.shape.drop 1))) := by
  constructor
  · rintro ⟨y, h⟩
    unfold Bias.call at h
    split at h
    · cases h
    · rename_i hr
      have hs : checkSize m.outputSize (x.shape.drop 1) = .ok () := by
        cases hc : checkSize m.outputSize (x.shape.drop 1) with
        | error e => rw [hc] at h; cases h
        | ok u => rfl
      rw [bind_eq hs] at h
      cases hc : calculateBiasShape x.shape m.biasDims with
      | error e => rw [hc] at h; cases h
      | ok r =>
        obtain ⟨g1, g2⟩ := ho r hc
        have e2 : getParameter get m.name "b" r = .ok b := by
          unfold getParameter
          rw [g1]
          exact if_pos g2
        rw [bind_eq hc, bind_eq e2] at h
        refine ⟨by omega, ⟨r, rfl⟩, ?_⟩
        · revert hs
          unfold checkSize
          split
          · rename_i h; intro _; exact .inl h
          · rename_i l _ h
            split
            · rename_i he; intro _; rw [h, he]; exact .inr rfl
            · intro h; cases h
          · intro h; cases h
  · rintro ⟨hr, ⟨r, hc⟩, hs⟩
    obtain ⟨g1, g2⟩ := ho r hc
    have e0 : checkSize m.outputSize (x.shape.drop 1) = .ok () := by
      rcases hs with h | h
      · rw [h]; rfl
      · rw [h]; exact if_pos rfl
    have e2 : getParameter get m.name "b" r = .ok b := by
      unfold getParameter
      rw [g1]
      exact if_pos g2
    obtain ⟨c, e3, cs, cv⟩ := Verif.Props.Norm.broadcastTo_at (x := b) (s := x.shape) (by rw [g2]; exact shape_broadcasts hc)
    obtain ⟨y, e, _⟩ := Verif.Props.Cores.zip_same (f := (· + ·)) (x := x) (y := c) rfl cs
    refine ⟨y, ?_⟩
    unfold Bias.call
    rw [if_neg (by omega), bind_eq e0, bind_eq hc, bind_eq e2, bind_eq e3]
    exact e

/-- C143 A list as `output_size` is never taken, not even the right one, though any sequence is documented; and the error is that of making its message. -/
theorem list_size_rejected (get : ParamFn K) (m : Bias) (l : List Nat) (hm : m.outputSize = some (.list l)) (x : Arr K) (v : Option (Arr K)) (hx : 2 ≤ x.shape.length) : m.call get x v = .error .type := by
  unfold Bias.call
  rw [if_neg (by omega), hm]
  rfl

/-- A bias of `10 * channel` for height and channels. -/
def exBias : ParamFn Rat := fun _ _ s => .ok ⟨s, fun i => (i.getD 0 0 : Rat) + 10 * (i.getD 2 0 : Rat)⟩

/-- A batch of images. -/
def exInput : Arr Rat := ⟨[2, 3, 2, 4], fun i => (i.sum : Rat)⟩

example : Takes ⟨"bias", some (.tuple [3, 2, 4]), some [1, -1]⟩ exInput.shape ∧ Owns exBias ⟨"bias", some (.tuple [3, 2, 4]), some [1, -1]⟩ exInput.shape ⟨[3, 1, 4], fun i => (i.getD 0 0 : Rat) + 10 * (i.getD 2 0 : Rat)⟩ ∧
    (Bias.call exBias ⟨"bias", some (.tuple [3, 2, 4]), some [1, -1]⟩ exInput none).map (fun y => (y.shape, y.val [1, 2, 1, 3])) = .ok ([2, 3, 2, 4], 39) ∧
    (Bias.call exBias ⟨"bias", some (.tuple [3, 2, 4]), some [1, -1]⟩ exInput (some ⟨[], fun _ => -1⟩)).map (fun y => (y.shape, y.val [1, 2, 1, 3])) = .ok ([2, 3, 2, 4], -25) := by
  refine ⟨⟨by decide, fun l hl e he => ?_, .inr rfl⟩, fun r hr => ?_, by decide +kernel, by decide +kernel⟩
  · cases hl
    simp only [List.mem_cons, List.not_mem_nil, or_false] at he
    rcases he with rfl | rfl <;> exact ⟨by decide, by decide, by decide⟩
  · have : calculateBiasShape exInput.shape (some [1, -1]) = .ok [3, 1, 4] := by decide
    rw [this] at hr
    cases hr
    exact ⟨rfl, rfl⟩

/-- The right size as a list. -/
example : (Bias.call exBias ⟨"bias", some (.list [3, 2, 4]), none⟩ exInput none).map (fun y => y.shape) = .error .type := by decide +kernel

/-- C143 The documented shape of the result is not that of every accepted call: a multiplier of higher rank adds dimensions. -/
theorem multiplier_widens : (Bias.call exBias ⟨"bias", none, some []⟩ exInput (some ⟨[5, 1, 1, 1, 1], fun _ => 2⟩)).map (fun y => y.shape) = .ok [5, 2, 3, 2, 4] := by decide +kernel

end Verif.Props.Bias
