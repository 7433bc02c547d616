import Mathlib.Algebra.Order.BigOperators.Group.Finset
import Mathlib.Algebra.BigOperators.Ring.Finset
import Mathlib.Algebra.Order.Field.Basic
import Mathlib.Algebra.Field.Rat
import Mathlib.Algebra.Order.Field.Rat
import Mathlib.Analysis.Real.Sqrt
import Mathlib.Tactic.Ring
import Mathlib.Tactic.FieldSimp
import Mathlib.Tactic.Positivity
import Verif.Base.Dict
import Verif.Model.Norm
import Verif.Lemmas.Nd
import Verif.Props.Conv
import Verif.Props.Utils

/-!
# Layer and instance normalisation (C64, C65)
-/

set_option linter.unusedVariables false
set_option linter.unusedSectionVars false

namespace Verif.Props.Norm
open Verif.Shapes (Err)
open Verif.Pool (Arr)
open Verif.Conv (indices)
open Verif.Mlp (ParamFn getParameter)
open Verif.Recurrent (project)
open Verif.Props.Reset (Valid mem_indices)
open Verif.Props.Conv (bind_ok)
open Verif.Nd
open Verif.Norm

variable {K : Type}

/-! ### Specification -/

/-- The axis numbers `ax` that the integers `l` stand for in an array of rank `n`: negative ones count from the end, and no axis is given twice. -/
def Denotes (n : Nat) (l : List Int) (ax : List Nat) : Prop := List.Forall₂ (fun a k => k < n ∧ (a = (k : Int) ∨ a = (k : Int) - n)) l ax ∧ ax.Nodup

/-- The value that array `p` has at position `i` when it is broadcast to a larger shape: aligned on the right, axes of size 1 are repeated. -/
def spread (p : Arr K) (i : List Nat) : K := p.val (List.zipWith (fun d j => if d = 1 then 0 else j) p.shape (i.drop (i.length - p.shape.length)))

/-- The array that is used as scale or offset: the module's own parameter, the argument, or a constant. -/
def Effective (get : ParamFn K) (create : Bool) (module name : String) (shape : List Nat) (arg : Option (Arr K)) (default : K) (p : Arr K) : Prop :=
  (create = true ∧ arg = none ∧ get module name shape = .ok p ∧ p.shape = shape) ∨ (create = false ∧ arg = some p) ∨ (create = false ∧ arg = none ∧ p = ⟨[], fun _ => default⟩)

/-- `rsqrt` is one over the square root. -/
def IsRsqrt [Field K] [LinearOrder K] (rsqrt : K → K) : Prop := ∀ v, 0 < v → rsqrt v * rsqrt v * v = 1

/-! ### Lemmas -/

theorem mapM_denotes {n : Nat} : ∀ {l : List Int} {r : List Nat}, l.mapM (canonAxis n) = .ok r → List.Forall₂ (fun a k => k < n ∧ (a = (k : Int) ∨ a = (k : Int) - n)) l r
  | [], r, h => by
    cases h
    exact .nil
  | a :: l, r, h => by
    rw [List.mapM_cons] at h
    obtain ⟨k, hk, h⟩ := bind_ok h
    obtain ⟨r', hr', h⟩ := bind_ok h
    cases h
    refine .cons ?_ (mapM_denotes hr')
    unfold canonAxis at hk
    by_cases h1 : -(n : Int) ≤ a ∧ a < n
    · rw [if_pos h1] at hk
      by_cases h0 : a < 0
      · rw [if_pos h0] at hk
        cases hk
        omega
      · rw [if_neg h0] at hk
        cases hk
        omega
    · rw [if_neg h1] at hk
      cases hk

theorem denotes_of {n : Nat} {l : List Int} {ax : List Nat} (h : canonAxes n l = .ok ax) : Denotes n l ax := by
  unfold canonAxes at h
  obtain ⟨r, hr, h⟩ := bind_ok h
  by_cases hn : r.Nodup
  · rw [if_pos hn] at h
    cases h
    exact ⟨mapM_denotes hr, hn⟩
  · rw [if_neg hn] at h
    cases h

theorem canon_of {n : Nat} {l : List Int} {ax : List Nat} (h : Denotes n l ax) : canonAxes n l = .ok ax := by
  obtain ⟨h, hn⟩ := h
  have : l.mapM (canonAxis n) = .ok ax := by
    clear hn
    induction h with
    | nil => rfl
    | @cons a k l ax h _ ih =>
      have : canonAxis n a = .ok k := by
        unfold canonAxis
        rw [if_pos (by omega)]
        by_cases h0 : a < 0
        · rw [if_pos h0]
          congr 1
          omega
        · rw [if_neg h0]
          congr 1
          omega
      rw [List.mapM_cons, this, ih]
      rfl
  unfold canonAxes
  rw [this]
  show (if ax.Nodup then _ else _) = _
  rw [if_pos hn]

theorem affine_ok {get : ParamFn K} {create : Bool} {mn n : String} {shape : List Nat} {arg : Option (Arr K)} {d : K} {p : Arr K} (ha : ¬ (create = true ∧ arg.isSome = true))
    (h : affine get create mn n shape arg d = .ok p) : Effective get create mn n shape arg d p := by
  unfold affine at h
  cases create with
  | true =>
    rw [if_pos rfl] at h
    unfold getParameter at h
    obtain ⟨q, hq, h⟩ := bind_ok h
    by_cases e : q.shape = shape
    · rw [if_pos e] at h
      cases h
      cases arg with
      | none => exact .inl ⟨rfl, rfl, hq, e⟩
      | some a => exact absurd ⟨rfl, rfl⟩ ha
    · rw [if_neg e] at h
      cases h
  | false =>
    rw [if_neg Bool.false_ne_true] at h
    cases arg with
    | none =>
      cases h
      exact .inr (.inr ⟨rfl, rfl, rfl⟩)
    | some a =>
      cases h
      exact .inr (.inl ⟨rfl, rfl⟩)

theorem affine_of {get : ParamFn K} {create : Bool} {mn n : String} {shape : List Nat} {arg : Option (Arr K)} {d : K} {p : Arr K} (h : Effective get create mn n shape arg d p) :
    affine get create mn n shape arg d = .ok p ∧ ¬ (create = true ∧ arg.isSome = true) := by
  rcases h with ⟨rfl, rfl, h1, h2⟩ | ⟨rfl, rfl⟩ | ⟨rfl, rfl, rfl⟩
  · refine ⟨?_, fun h => by cases h.2⟩
    unfold affine getParameter
    rw [if_pos rfl, h1]
    show (if p.shape = shape then _ else _) = _
    rw [if_pos h2]
  · exact ⟨rfl, fun h => by cases h.1⟩
  · exact ⟨rfl, fun h => by cases h.1⟩

theorem spread_project (p : Arr K) (i : List Nat) : p.val (project p.shape i) = spread p i := rfl

theorem bind_eq {α β : Type} {x : Except Err α} {f : α → Except Err β} {a : α} (h : x = .ok a) : (x >>= f) = f a := by
  rw [h]
  rfl

theorem bind_err {α β : Type} {x : Except Err α} {f : α → Except Err β} {e : Err} (h : x = .error e) : (x >>= f) = .error e := by
  rw [h]
  rfl

theorem zip_at {f : K → K → K} {x y : Arr K} (h : BroadcastsTo y.shape x.shape) :
    ∃ z, Verif.Nd.zip f x y = .ok z ∧ z.shape = x.shape ∧ ∀ i, Valid x.shape i → z.val i = f (x.val i) (spread y i) :=
  ⟨_, zip_right h, rfl, fun i hi => by
    show f (x.val (project x.shape i)) (spread y i) = _
    rw [project_self hi]⟩

theorem zip_at' {f : K → K → K} {x y : Arr K} (h : BroadcastsTo x.shape y.shape) :
    ∃ z, Verif.Nd.zip f x y = .ok z ∧ z.shape = y.shape ∧ ∀ i, Valid y.shape i → z.val i = f (spread x i) (y.val i) :=
  ⟨_, zip_left h, rfl, fun i hi => by
    show f (spread x i) (y.val (project y.shape i)) = _
    rw [project_self hi]⟩

theorem broadcastTo_at {x : Arr K} {s : List Nat} (h : BroadcastsTo x.shape s) : ∃ z, broadcastTo x s = .ok z ∧ z.shape = s ∧ ∀ i, z.val i = spread x i :=
  ⟨_, broadcastTo_of h, rfl, fun i => rfl⟩

theorem spread_self {x : Arr K} {i : List Nat} (h : Valid x.shape i) : spread x i = x.val i := by
  rw [← spread_project, project_self h]

/-! ### C64 -/

/-- C64 A call of `LayerNorm` rejects a scale or offset argument next to an own parameter.  Otherwise, when the axes exist and are distinct and scale and offset can be broadcast to the
input, it returns an array of the input's shape whose element at each position `i` is `scale * (x - mean) * rsqrt(variance + eps) + offset`, with mean and variance taken over the positions that differ
from `i` on the given axes only; in all other cases it raises. -/
theorem layer_norm_formula [Field K] (get : ParamFn K) (rsqrt : K → K) (m : LayerNorm K) (x : Arr K) (scale offset : Option (Arr K)) :
    ((m.createScale = true ∧ scale ≠ none) ∨ (m.createOffset = true ∧ offset ≠ none) → m.call get rsqrt x scale offset = .error .value) ∧
    (∀ y, m.call get rsqrt x scale offset = .ok y → ∃ ax g b, Denotes x.shape.length (m.axis.resolve x.shape.length) ax ∧
      Effective get m.createScale m.name "scale" (x.shape.drop (x.shape.length - 1)) scale 1 g ∧ BroadcastsTo g.shape x.shape ∧
      Effective get m.createOffset m.name "offset" (x.shape.drop (x.shape.length - 1)) offset 0 b ∧ BroadcastsTo b.shape x.shape) ∧
    (∀ ax g b, Denotes x.shape.length (m.axis.resolve x.shape.length) ax →
      Effective get m.createScale m.name "scale" (x.shape.drop (x.shape.length - 1)) scale 1 g → BroadcastsTo g.shape x.shape →
      Effective get m.createOffset m.name "offset" (x.shape.drop (x.shape.length - 1)) offset 0 b → BroadcastsTo b.shape x.shape →
      ∃ y, m.call get rsqrt x scale offset = .ok y ∧ y.shape = x.shape ∧ ∀ i, Valid x.shape i →
        y.val i = spread g i * rsqrt (variance (slice ax x.shape i) x.val + m.eps) * (x.val i - avg (slice ax x.shape i) x.val) + spread b i) := by
  refine ⟨fun h => ?_, fun y h => ?_, fun ax g b hd hg hgs hb hbs => ?_⟩
  · unfold LayerNorm.call
    by_cases h1 : m.createScale = true ∧ scale.isSome = true
    · rw [if_pos h1]
    · rw [if_neg h1]
      rcases h with ⟨h, h'⟩ | ⟨h, h'⟩
      · exact absurd ⟨h, Option.isSome_iff_ne_none.mpr h'⟩ h1
      · rw [if_pos ⟨h, Option.isSome_iff_ne_none.mpr h'⟩]
  · unfold LayerNorm.call at h
    by_cases h1 : m.createScale = true ∧ scale.isSome = true
    · rw [if_pos h1] at h
      cases h
    rw [if_neg h1] at h
    by_cases h2 : m.createOffset = true ∧ offset.isSome = true
    · rw [if_pos h2] at h
      cases h
    rw [if_neg h2] at h
    obtain ⟨mu, hmu, h⟩ := bind_ok h
    obtain ⟨v, hv, h⟩ := bind_ok h
    obtain ⟨g, hg, h⟩ := bind_ok h
    obtain ⟨b, hb, h⟩ := bind_ok h
    obtain ⟨g', hg', h⟩ := bind_ok h
    obtain ⟨b', hb', h⟩ := bind_ok h
    obtain ⟨ax, hax, _⟩ := mean_ok hmu
    exact ⟨ax, g, b, denotes_of hax, affine_ok h1 hg, (broadcastTo_ok hg').1, affine_ok h2 hb, (broadcastTo_ok hb').1⟩
  · obtain ⟨hg1, hg2⟩ := affine_of hg
    obtain ⟨hb1, hb2⟩ := affine_of hb
    have hax := canon_of hd
    obtain ⟨v, hv, hvs, hvv⟩ := var_eq (x := x) hax
    obtain ⟨g', hg', hgs', hgv⟩ := broadcastTo_at hgs
    obtain ⟨b', hb', hbs', hbv⟩ := broadcastTo_at hbs
    obtain ⟨mu, hmu, hmus, hmuv⟩ := broadcastTo_at (x := meanArr x ax) (s := x.shape) (broadcasts_keep ax x.shape)
    obtain ⟨inv, hinv, hinvs, hinvv⟩ := zip_at (f := (· * ·)) (x := g') (y := map (fun v => rsqrt (v + m.eps)) v) (show BroadcastsTo v.shape g'.shape by rw [hvs, hgs']; exact broadcasts_keep ax x.shape)
    obtain ⟨c, hc, hcs, hcv⟩ := zip_at (f := (· - ·)) (x := x) (y := mu) (by rw [hmus]; exact broadcasts_refl _)
    obtain ⟨sc, hsc, hscs, hscv⟩ := zip_at (f := (· * ·)) (x := inv) (y := c) (by rw [hinvs, hgs', hcs]; exact broadcasts_refl _)
    obtain ⟨y, hy, hys, hyv⟩ := zip_at (f := (· + ·)) (x := sc) (y := b') (by rw [hscs, hinvs, hgs', hbs']; exact broadcasts_refl _)
    refine ⟨y, ?_, by rw [hys, hscs, hinvs, hgs'], fun i hi => ?_⟩
    · unfold LayerNorm.call
      rw [if_neg hg2, if_neg hb2]
      exact (bind_eq (mean_eq hax)).trans <| (bind_eq hv).trans <| (bind_eq hg1).trans <| (bind_eq hb1).trans <| (bind_eq hg').trans <| (bind_eq hb').trans <| (bind_eq hmu).trans <|
        (bind_eq hinv).trans <| (bind_eq hc).trans <| (bind_eq hsc).trans hy
    · have i1 : Valid g'.shape i := by rw [hgs']; exact hi
      have i2 : Valid inv.shape i := by rw [hinvs]; exact i1
      have i3 : Valid sc.shape i := by rw [hscs]; exact i2
      have i4 : Valid b'.shape i := by rw [hbs']; exact hi
      have i5 : Valid c.shape i := by rw [hcs]; exact hi
      have i6 : Valid mu.shape i := by rw [hmus]; exact hi
      rw [hyv i i3, hscv i i2, hinvv i i1, spread_self i4, spread_self i5, hcv i hi, spread_self i6, hgv, hbv, hmuv]
      have e1 : spread (map (fun v => rsqrt (v + m.eps)) v) i = rsqrt (variance (slice ax x.shape i) x.val + m.eps) := by rw [← hvv i hi]; rfl
      have e2 : spread (meanArr x ax) i = avg (slice ax x.shape i) x.val := meanArr_project hi
      rw [e1, e2]

/-- A layer norm over the last two axes, with an own scale: the parameters exist and the call succeeds. -/
example : (LayerNorm.make "ln" (.ints [1, -1]) true false (1 : Rat) false false) = .ok ⟨"ln", .ints [1, -1], true, false, 1⟩ ∧
    Denotes 3 [1, -1] [1, 2] ∧ Effective (fun _ _ s => .ok ⟨s, fun i => ((i.getD 0 0 : Nat) : Rat)⟩) true "ln" "scale" ([2, 2, 3].drop 2) none 1 ⟨[3], fun i => ((i.getD 0 0 : Nat) : Rat)⟩ ∧
    BroadcastsTo [3] [2, 2, 3] ∧
    (((LayerNorm.mk "ln" (.ints [1, -1]) true false 1).call (fun _ _ s => .ok ⟨s, fun i => ((i.getD 0 0 : Nat) : Rat)⟩) (fun v => v) ⟨[2, 2, 3], fun i => ((i.sum : Nat) : Rat)⟩ none none).toOption.map
      fun y => (y.shape, y.val [1, 0, 2], y.val [1, 1, 2])) = some ([2, 2, 3], 23 / 12, 69 / 12) := by
  refine ⟨rfl, ⟨.cons ⟨by decide, .inl rfl⟩ (.cons ⟨by decide, .inr rfl⟩ .nil), by decide⟩, .inl ⟨rfl, rfl, rfl, rfl⟩, ⟨[2, 2], [3], rfl, .cons (.inr rfl) .nil⟩, by decide +kernel⟩

theorem slice_card_ne [Field K] [CharZero K] {axes s i : List Nat} (h : Valid s i) : ((slice axes s i).card : K) ≠ 0 :=
  Nat.cast_ne_zero.mpr (Finset.card_ne_zero_of_mem (self_mem_slice h))

theorem avg_smul [Field K] (s : Finset (List Nat)) (c : K) (f : List Nat → K) : avg s (fun j => c * f j) = c * avg s f := by
  unfold avg
  rw [← Finset.mul_sum, mul_div_assoc]

theorem avg_add [Field K] (s : Finset (List Nat)) (f g : List Nat → K) : avg s (fun j => f j + g j) = avg s f + avg s g := by
  unfold avg
  rw [Finset.sum_add_distrib, add_div]

theorem avg_sub [Field K] (s : Finset (List Nat)) (f g : List Nat → K) : avg s (fun j => f j - g j) = avg s f - avg s g := by
  unfold avg
  rw [Finset.sum_sub_distrib, sub_div]

theorem avg_const [Field K] {s : Finset (List Nat)} (h : (s.card : K) ≠ 0) (c : K) : avg s (fun _ => c) = c := by
  unfold avg
  rw [Finset.sum_const, nsmul_eq_mul, mul_comm, mul_div_assoc, div_self h, mul_one]

theorem variance_nonneg [Field K] [LinearOrder K] [IsStrictOrderedRing K] (s : Finset (List Nat)) (f : List Nat → K) : 0 ≤ variance s f := by
  unfold variance avg
  exact div_nonneg (Finset.sum_nonneg fun j _ => sq_nonneg _) (Nat.cast_nonneg _)

/-- C64 Without scale and offset, the output of `LayerNorm` has, over every slice along the normalised axes, mean 0 and mean square `v / (v + eps)`, where `v` is the variance of the input over that slice. -/
theorem layer_norm_stats [Field K] [LinearOrder K] [IsStrictOrderedRing K] (get : ParamFn K) (rsqrt : K → K) (hr : IsRsqrt rsqrt) (m : LayerNorm K) (hs : m.createScale = false)
    (ho : m.createOffset = false) (he : 0 < m.eps) (x y : Arr K) (h : m.call get rsqrt x none none = .ok y) :
    ∃ ax, Denotes x.shape.length (m.axis.resolve x.shape.length) ax ∧ y.shape = x.shape ∧ ∀ i, Valid x.shape i →
      avg (slice ax x.shape i) y.val = 0 ∧
      avg (slice ax x.shape i) (fun j => y.val j ^ 2) = variance (slice ax x.shape i) x.val / (variance (slice ax x.shape i) x.val + m.eps) := by
  obtain ⟨_, h1, h2⟩ := layer_norm_formula get rsqrt m x none none
  obtain ⟨ax, g, b, hd, hg, hgs, hb, hbs⟩ := h1 y h
  obtain ⟨y', hy', hys, hyv⟩ := h2 ax g b hd hg hgs hb hbs
  rw [h] at hy'
  cases hy'
  have hg1 : g = ⟨[], fun _ => 1⟩ := by
    rcases hg with ⟨k, _⟩ | ⟨_, k⟩ | ⟨_, _, k⟩
    · rw [hs] at k
      cases k
    · cases k
    · exact k
  have hb1 : b = ⟨[], fun _ => 0⟩ := by
    rcases hb with ⟨k, _⟩ | ⟨_, k⟩ | ⟨_, _, k⟩
    · rw [ho] at k
      cases k
    · cases k
    · exact k
  subst hg1 hb1
  refine ⟨ax, hd, hys, fun i hi => ?_⟩
  have hv : ∀ j ∈ slice ax x.shape i, y.val j = rsqrt (variance (slice ax x.shape i) x.val + m.eps) * (x.val j - avg (slice ax x.shape i) x.val) := by
    intro j hj
    rw [hyv j (mem_slice.mp hj).1, slice_eq hj]
    show 1 * _ * _ + 0 = _
    rw [one_mul, add_zero]
  have hc := slice_card_ne (K := K) (axes := ax) hi
  refine ⟨?_, ?_⟩
  · rw [avg_congr hv, avg_smul, avg_sub, avg_const hc, sub_self, mul_zero]
  · have hp : 0 < variance (slice ax x.shape i) x.val + m.eps := add_pos_of_nonneg_of_pos (variance_nonneg _ _) he
    have e : avg (slice ax x.shape i) (fun j => y.val j ^ 2) =
        rsqrt (variance (slice ax x.shape i) x.val + m.eps) * rsqrt (variance (slice ax x.shape i) x.val + m.eps) * variance (slice ax x.shape i) x.val := by
      have e1 : variance (slice ax x.shape i) x.val = avg (slice ax x.shape i) fun j => (x.val j - avg (slice ax x.shape i) x.val) ^ 2 := rfl
      have e2 := avg_smul (slice ax x.shape i) (rsqrt (variance (slice ax x.shape i) x.val + m.eps) * rsqrt (variance (slice ax x.shape i) x.val + m.eps))
        fun j => (x.val j - avg (slice ax x.shape i) x.val) ^ 2
      rw [← e1] at e2
      rw [← e2]
      exact avg_congr fun j hj => by rw [hv j hj]; ring
    rw [e, eq_div_iff hp.ne', mul_right_comm, hr _ hp, one_mul]

/-- The real numbers have such an `rsqrt`. -/
theorem real_rsqrt : IsRsqrt (fun v : Real => (Real.sqrt v)⁻¹) := by
  intro v hv
  have h := Real.mul_self_sqrt hv.le
  have h0 : Real.sqrt v ≠ 0 := (Real.sqrt_pos.mpr hv).ne'
  rw [← mul_inv, h]
  exact inv_mul_cancel₀ hv.ne'

/-- Real numbers, the last axis: the call succeeds. -/
example : IsRsqrt (fun v : Real => (Real.sqrt v)⁻¹) ∧
    ∃ y, (LayerNorm.mk "ln" (.ints [-1]) false false (1 : Real)).call (fun _ _ _ => .error .value) (fun v => (Real.sqrt v)⁻¹) ⟨[2, 3], fun i => (i.sum : Real)⟩ none none = .ok y :=
  ⟨real_rsqrt, by
    obtain ⟨_, _, h⟩ := layer_norm_formula (fun _ _ _ => .error .value) (fun v => (Real.sqrt v)⁻¹) (LayerNorm.mk "ln" (.ints [-1]) false false (1 : Real)) ⟨[2, 3], fun i => (i.sum : Real)⟩ none none
    obtain ⟨y, hy, _⟩ := h [1] ⟨[], fun _ => 1⟩ ⟨[], fun _ => 0⟩ ⟨.cons ⟨by decide, .inr rfl⟩ .nil, by decide⟩ (.inr (.inr ⟨rfl, rfl, rfl⟩)) (broadcasts_nil _) (.inr (.inr ⟨rfl, rfl, rfl⟩)) (broadcasts_nil _)
    exact ⟨y, hy⟩⟩

/-- C64 The output of `LayerNorm` at a position depends on the input only through the slice of that position, and adding the same number to all elements of the slice does not change it. -/
theorem layer_norm_slicewise [Field K] [CharZero K] (get : ParamFn K) (rsqrt : K → K) (m : LayerNorm K) (scale offset : Option (Arr K)) (x x' y y' : Arr K) (hx : x'.shape = x.shape)
    (h : m.call get rsqrt x scale offset = .ok y) (h' : m.call get rsqrt x' scale offset = .ok y') :
    ∃ ax, Denotes x.shape.length (m.axis.resolve x.shape.length) ax ∧ ∀ i, Valid x.shape i → ∀ c, (∀ j ∈ slice ax x.shape i, x'.val j = x.val j + c) → y'.val i = y.val i := by
  obtain ⟨_, h1, h2⟩ := layer_norm_formula get rsqrt m x scale offset
  obtain ⟨ax, g, b, hd, hg, hgs, hb, hbs⟩ := h1 y h
  obtain ⟨z, hz, hys, hyv⟩ := h2 ax g b hd hg hgs hb hbs
  rw [h] at hz
  cases hz
  obtain ⟨_, _, h3⟩ := layer_norm_formula get rsqrt m x' scale offset
  rw [hx] at h3
  obtain ⟨z, hz, hys', hyv'⟩ := h3 ax g b hd hg hgs hb hbs
  rw [h'] at hz
  cases hz
  refine ⟨ax, hd, fun i hi c hc => ?_⟩
  have ha : avg (slice ax x.shape i) x'.val = avg (slice ax x.shape i) x.val + c := by
    rw [avg_congr hc, avg_add, avg_const (slice_card_ne hi)]
  have hv : variance (slice ax x.shape i) x'.val = variance (slice ax x.shape i) x.val := by
    unfold variance
    rw [ha]
    exact avg_congr fun j hj => by rw [hc j hj]; ring
  rw [hyv i hi, hyv' i hi, ha, hv, hc i (self_mem_slice hi)]
  ring

/-- Two inputs that differ by 5 on the first row only. -/
example : Valid [2, 3] [0, 1] ∧ (∀ j ∈ slice [1] [2, 3] [0, 1], (if j.getD 0 0 = 0 then ((j.sum : Nat) : Rat) + 5 else 7) = ((j.sum : Nat) : Rat) + 5) ∧
    ((LayerNorm.mk "ln" (.ints [-1]) false false (1 : Rat)).call (fun _ _ _ => .error .value) (fun v => v) ⟨[2, 3], fun i => ((i.sum : Nat) : Rat)⟩ none none).toOption.map (fun y => y.val [0, 2]) = some (5 / 3) ∧
    ((LayerNorm.mk "ln" (.ints [-1]) false false (1 : Rat)).call (fun _ _ _ => .error .value) (fun v => v) ⟨[2, 3], fun i => if i.getD 0 0 = 0 then ((i.sum : Nat) : Rat) + 5 else 7⟩ none none).toOption.map
      (fun y => y.val [0, 2]) = some (5 / 3) :=
  ⟨.cons (by decide) (.cons (by decide) .nil), by decide +kernel, by decide +kernel, by decide +kernel⟩

/-! ### C65 -/

theorem resolve_first {n : Nat} : (Axis.slice (some 2) none).resolve n = (List.range' 2 (n - 2)).map Int.ofNat := by
  show (List.range' (bound n 2) (n - bound n 2)).map Int.ofNat = _
  have hb : bound n 2 = min 2 n := rfl
  rw [hb]
  by_cases h : 2 ≤ n
  · rw [Nat.min_eq_left h]
  · have e1 : n - min 2 n = 0 := by omega
    have e2 : n - 2 = 0 := by omega
    rw [e1, e2]
    rfl

theorem resolve_last {n : Nat} : (Axis.slice (some 1) (some (-1))).resolve n = (List.range' 1 (n - 2)).map Int.ofNat := by
  show (List.range' (bound n 1) (bound n (-1) - bound n 1)).map Int.ofNat = _
  have hb : bound n 1 = min 1 n := rfl
  have hc : bound n (-1) = (-1 + (n : Int)).toNat := rfl
  rw [hb, hc]
  by_cases h : 2 ≤ n
  · have e1 : min 1 n = 1 := by omega
    have e2 : (-1 + (n : Int)).toNat - 1 = n - 2 := by omega
    rw [e1, e2]
  · have e1 : (-1 + (n : Int)).toNat - min 1 n = 0 := by omega
    have e2 : n - 2 = 0 := by omega
    rw [e1, e2]
    rfl

theorem denotes_nat {n : Nat} {l : List Nat} (h : ∀ k ∈ l, k < n) (hn : l.Nodup) : Denotes n (l.map Int.ofNat) l := denotes_of (canonAxes_nat h hn)

theorem denotes_unique {n : Nat} {l : List Int} {a b : List Nat} (h : Denotes n l a) (h' : Denotes n l b) : a = b := Except.ok.inj ((canon_of h).symm.trans (canon_of h'))

theorem instance_axes {name : String} {cs co si oi : Bool} {eps : K} {fmt : List Char} {c : Int} {m : LayerNorm K} (hc : Verif.Utils.getChannelIndex fmt = .ok c)
    (h : instanceNorm name cs co eps si oi fmt = .ok m) : m = ⟨name, if c = 1 then .slice (some 2) none else .slice (some 1) (some (-1)), cs, co, eps⟩ := by
  unfold instanceNorm at h
  rw [hc] at h
  have h : LayerNorm.make name (if c = 1 then .slice (some 2) none else .slice (some 1) (some (-1))) cs co eps si oi = .ok m := h
  unfold LayerNorm.make at h
  by_cases h1 : cs = false ∧ si = true
  · rw [if_pos h1] at h
    cases h
  rw [if_neg h1] at h
  by_cases h2 : co = false ∧ oi = true
  · rw [if_pos h2] at h
    cases h
  rw [if_neg h2] at h
  obtain ⟨a, ha, h⟩ := bind_ok h
  cases h
  congr 1
  by_cases e : c = 1
  · rw [if_pos e] at ha ⊢
    cases ha
    rfl
  · rw [if_neg e] at ha ⊢
    cases ha
    rfl

theorem last_split {l : List Nat} {a : Nat} (h : l.getLast? = some a) : l = l.dropLast ++ [a] := (List.dropLast_append_getLast? a h).symm

theorem spread_vector {p : Arr K} {s i : List Nat} {n d : Nat} (hs : s.getLast? = some n) (hi : Valid s i) (hp : p.shape = [n]) (hd : i.getLast? = some d) : spread p i = p.val [d] := by
  have hsl := last_split hs
  have hil := last_split hd
  have hlt : d < n := by
    rw [hsl, hil] at hi
    have h1 := hi.length
    have := Valid.get hi (s.dropLast.length) (by rw [List.length_append]; exact Nat.lt_succ_self _)
    rw [List.length_append, List.length_append] at h1
    have h1 : i.dropLast.length = s.dropLast.length := by simpa using h1
    rw [List.getD_append_right _ _ _ _ (Nat.le_of_eq h1), List.getD_append_right _ _ _ _ (Nat.le_refl _), h1, Nat.sub_self] at this
    exact this
  unfold spread
  rw [hp, hil, List.length_append]
  have e : i.dropLast.length + [d].length - [n].length = i.dropLast.length := rfl
  rw [e, List.drop_left]
  show p.val [if n = 1 then 0 else d] = p.val [d]
  by_cases h : n = 1
  · rw [if_pos h]
    have : d = 0 := by omega
    rw [this]
  · rw [if_neg h]

/-- The position in the parameter of `InstanceNorm`: the position on the last axis. -/
theorem drop_last {s : List Nat} {n : Nat} (hs : s.getLast? = some n) : s.drop (s.length - 1) = [n] := by
  have hsl := last_split hs
  rw [hsl, List.length_append]
  have e : s.dropLast.length + [n].length - 1 = s.dropLast.length := rfl
  rw [e, List.drop_left]

theorem getD_iff {i j : List Nat} {k : Nat} (hi : k < i.length) (hj : k < j.length) : j.getD k 0 = i.getD k 0 ↔ j[k]? = i[k]? := by
  rw [List.getD_eq_getElem _ _ hi, List.getD_eq_getElem _ _ hj, List.getElem?_eq_getElem hi, List.getElem?_eq_getElem hj, Option.some_inj]

/-- What scale or offset is at a position: the argument, a constant, or the own parameter at the last coordinate. -/
def LastAxis (get : ParamFn K) (create : Bool) (module name : String) (n : Nat) (default : K) (g : List Nat → K) : Prop :=
  (create = true ∧ ∃ p, get module name [n] = .ok p ∧ p.shape = [n] ∧ ∀ l d, g (l ++ [d]) = p.val [d]) ∨ (create = false ∧ ∀ i, g i = default)

/-- C65 `InstanceNorm` on an input of rank at least 2, without scale and offset arguments: the element at position `i` is normalised with the mean and variance over the positions that share the example and the channel
with `i`, for the channel on axis 1 and on the last axis.  When the channel is the last axis, an own scale and offset have one entry per channel.  Missing: this is wrong when the channel is on axis 1
(`instance_norm_scale_wrong`); they then have one entry per position on the last axis. -/
theorem instance_norm_partial [Field K] (get : ParamFn K) (rsqrt : K → K) (name : String) (cs co si oi : Bool) (eps : K) (fmt : List Char) (c : Int) (hc : Verif.Utils.getChannelIndex fmt = .ok c)
    (m : LayerNorm K) (hm : instanceNorm name cs co eps si oi fmt = .ok m) (x y : Arr K) (n : Nat) (hn : x.shape.getLast? = some n) (hx : 2 ≤ x.shape.length) (h : m.call get rsqrt x none none = .ok y) :
    ∃ g b : List Nat → K, LastAxis get cs name "scale" n 1 g ∧ LastAxis get co name "offset" n 0 b ∧ y.shape = x.shape ∧ ∀ i, Valid x.shape i →
      ∀ s : Finset (List Nat), (∀ j, j ∈ s ↔ Valid x.shape j ∧ j.head? = i.head? ∧ (if c = 1 then j[1]? = i[1]? else j.getLast? = i.getLast?)) →
        y.val i = g i * rsqrt (variance s x.val + eps) * (x.val i - avg s x.val) + b i := by
  have hma := instance_axes hc hm
  subst hma
  obtain ⟨_, h1, h2⟩ := layer_norm_formula get rsqrt _ x none none
  obtain ⟨ax, g, b, hd, hg, hgs, hb, hbs⟩ := h1 y h
  obtain ⟨z, hz, hys, hyv⟩ := h2 ax g b hd hg hgs hb hbs
  rw [h] at hz
  cases hz
  have key : ∀ (create : Bool) (nm : String) (d : K) (p : Arr K), Effective get create name nm (x.shape.drop (x.shape.length - 1)) none d p →
      ∃ g : List Nat → K, LastAxis get create name nm n d g ∧ ∀ i, Valid x.shape i → spread p i = g i := by
    intro create nm d p hp
    rcases hp with ⟨k1, _, k2, k3⟩ | ⟨_, k⟩ | ⟨k1, _, k2⟩
    · rw [drop_last hn] at k2 k3
      refine ⟨fun i => p.val [i.getLastD 0], .inl ⟨k1, p, k2, k3, fun l d => ?_⟩, fun i hi => ?_⟩
      · show p.val [(l ++ [d]).getLastD 0] = _
        rw [List.getLastD_concat]
      · have hne : i ≠ [] := by
          intro e
          have := hi.length
          rw [e] at this
          have h0 : (0 : Nat) = x.shape.length := this
          omega
        refine spread_vector hn hi k3 ?_
        rw [List.getLastD_eq_getLast?, List.getLast?_eq_some_getLast hne]
        rfl
    · cases k
    · subst k2
      exact ⟨fun _ => d, .inr ⟨k1, fun _ => rfl⟩, fun i _ => rfl⟩
  obtain ⟨g', hg', hgv⟩ := key _ _ _ _ hg
  obtain ⟨b', hb', hbv⟩ := key _ _ _ _ hb
  refine ⟨g', b', hg', hb', hys, fun i hi s hs => ?_⟩
  have e : s = slice ax x.shape i := by
    ext j
    rw [hs, mem_slice]
    refine and_congr_right fun hj => ?_
    have li := hi.length
    have lj := hj.length
    have hb : ∀ k < x.shape.length, (j.getD k 0 = i.getD k 0 ↔ j[k]? = i[k]?) := fun k hk => getD_iff (by rw [li]; exact hk) (by rw [lj]; exact hk)
    rw [List.head?_eq_getElem?, List.head?_eq_getElem?, List.getLast?_eq_getElem?, List.getLast?_eq_getElem?, li, lj, ← hb 0 (by omega), ← hb (x.shape.length - 1) (by omega), ← hb 1 (by omega)]
    by_cases e : c = 1
    · rw [if_pos e]
      dsimp only at hd
      rw [if_pos e, resolve_first] at hd
      have := denotes_unique hd (denotes_nat (fun k hk => by rw [List.mem_range'_1] at hk; omega) (List.nodup_range' ..))
      subst this
      constructor
      · intro ⟨k0, k1⟩ k hk hm
        rw [List.mem_range'_1] at hm
        have : k = 0 ∨ k = 1 := by omega
        rcases this with rfl | rfl
        · exact k0
        · exact k1
      · intro h
        exact ⟨h 0 (by omega) (by rw [List.mem_range'_1]; omega), h 1 (by omega) (by rw [List.mem_range'_1]; omega)⟩
    · rw [if_neg e]
      dsimp only at hd
      rw [if_neg e, resolve_last] at hd
      have := denotes_unique hd (denotes_nat (fun k hk => by rw [List.mem_range'_1] at hk; omega) (List.nodup_range' ..))
      subst this
      constructor
      · intro ⟨k0, k1⟩ k hk hm
        rw [List.mem_range'_1] at hm
        have : k = 0 ∨ k = x.shape.length - 1 := by omega
        rcases this with rfl | rfl
        · exact k0
        · exact k1
      · intro h
        exact ⟨h 0 (by omega) (by rw [List.mem_range'_1]; omega), h _ (by omega) (by rw [List.mem_range'_1]; omega)⟩
  rw [hyv i hi, hgv i hi, hbv i hi, e]

/-- Both formats, rank 4. -/
example : Verif.Utils.getChannelIndex "NHWC".toList = .ok (-1) ∧ Verif.Utils.getChannelIndex "NCHW".toList = .ok 1 ∧
    ((instanceNorm "in" true true (1 : Rat) false false "NHWC".toList).toOption.bind fun m =>
      (m.call (fun _ n s => .ok ⟨s, fun i => if n = "scale" then ((i.getD 0 0 : Nat) : Rat) + 1 else 0⟩) (fun v => v) ⟨[1, 2, 2, 2], fun i => ((i.getD 1 0 + 2 * i.getD 3 0 : Nat) : Rat)⟩ none none).toOption.map
        fun y => (y.shape, y.val [0, 1, 0, 0], y.val [0, 1, 0, 1])) = some ([1, 2, 2, 2], 5 / 8, 5 / 4) :=
  ⟨by decide, by decide, by decide +kernel⟩

/-- C65 With the channel on axis 1, `InstanceNorm` does not scale per channel: for an input of shape `[1, 2, 3]` a scale with one entry per channel is rejected, and the scale that is accepted has one entry per
position, so two positions of one channel with the same normalised value get different outputs. -/
theorem instance_norm_scale_wrong : ∃ m : LayerNorm Rat, instanceNorm "in" true false 1 false false "NCH".toList = .ok m ∧
    (∀ x : List Nat → Rat, ∀ p : Arr Rat, p.shape = [2] → m.call (fun _ _ _ => .ok p) (fun v => v) ⟨[1, 2, 3], x⟩ none none = .error .assertion) ∧
    ∃ y, m.call (fun _ _ s => .ok ⟨s, fun i => ((i.getD 0 0 : Nat) : Rat)⟩) (fun v => v) ⟨[1, 2, 3], fun i => if i.getD 2 0 = 0 then 1 else 0⟩ none none = .ok y ∧ y.val [0, 0, 1] ≠ y.val [0, 0, 2] := by
  refine ⟨⟨"in", .slice (some 2) none, true, false, 1⟩, rfl, fun x p hp => ?_, ?_⟩
  · have hax : canonAxes 3 ((Axis.slice (some 2) none).resolve 3) = .ok [2] := by decide
    obtain ⟨v, hv, _⟩ := var_eq (x := ⟨[1, 2, 3], x⟩) hax
    unfold LayerNorm.call
    rw [if_neg (fun h => by cases h.2), if_neg (fun h => by cases h.2)]
    refine (bind_eq (mean_eq (x := ⟨[1, 2, 3], x⟩) hax)).trans ((bind_eq hv).trans ?_)
    refine bind_err ?_
    show (if p.shape = [3] then Except.ok p else .error Err.assertion) = _
    rw [if_neg (by rw [hp]; decide)]
  · have : ∃ y, ((LayerNorm.mk "in" (.slice (some 2) none) true false (1 : Rat)).call (fun _ _ s => .ok ⟨s, fun i => ((i.getD 0 0 : Nat) : Rat)⟩) (fun v => v)
        ⟨[1, 2, 3], fun i => if i.getD 2 0 = 0 then 1 else 0⟩ none none) = .ok y := ⟨_, rfl⟩
    obtain ⟨y, hy⟩ := this
    refine ⟨y, hy, ?_⟩
    have h1 : ((LayerNorm.mk "in" (.slice (some 2) none) true false (1 : Rat)).call (fun _ _ s => .ok ⟨s, fun i => ((i.getD 0 0 : Nat) : Rat)⟩) (fun v => v)
        ⟨[1, 2, 3], fun i => if i.getD 2 0 = 0 then 1 else 0⟩ none none).toOption.map (fun y => decide (y.val [0, 0, 1] ≠ y.val [0, 0, 2])) = some true := by decide +kernel
    rw [hy] at h1
    exact of_decide_eq_true (Option.some.inj h1)

end Verif.Props.Norm
