import Mathlib.LinearAlgebra.Matrix.NonsingularInverse
import Mathlib.Analysis.Real.Sqrt
import Mathlib.Algebra.Order.Field.Basic
import Mathlib.Data.Sign.Basic
import Mathlib.Tactic.Ring
import Mathlib.Tactic.FieldSimp
import Mathlib.Tactic.Positivity
import Mathlib.Tactic.Linarith
import Mathlib.Tactic.NormNum
import Verif.Base.Dict
import Verif.Model.Initializers
import Verif.Lemmas.Nd
import Verif.Lemmas.Reshape
import Verif.Props.Norm
import Verif.Props.VQ

/-!
# Initializers (C94, C95, C96, C97, C98)
-/

set_option linter.unusedVariables false
set_option linter.unusedSectionVars false

namespace Verif.Props.Initializers
open Verif.Shapes (Err size)
open Verif.Pool (Arr)
open Verif.Conv (indices)
open Verif.Props.Reset (Valid mem_indices)
open Verif.Props.Conv (bind_ok)
open Verif.Props.Norm (spread bind_eq bind_err)
open Verif.Nd
open Verif.VQ (reshapeTo)
open Verif.Initializers

variable {K : Type}

/-! ### Specification -/

/-- The number of input and of output units of weights: of a convolution with kernel `lead`, of a matrix (`lead` empty), of a vector and of a number. -/
inductive Units : List Nat → Nat → Nat → Prop
  | number : Units [] 1 1
  | vector (n : Nat) : Units [n] n n
  | kernel (lead : List Nat) (a b : Nat) : Units (lead ++ [a, b]) (size lead * a) (size lead * b)

/-- What the variance is divided by. -/
def Divisor [Field K] (mode : String) (ins outs : Nat) (n : K) : Prop :=
  (mode = "fan_in" ∧ n = ins) ∨ (mode = "fan_out" ∧ n = outs) ∨ (mode = "fan_avg" ∧ 2 * n = ins + outs)

/-- `sqrt` is the square root. -/
def IsSqrt [Field K] [LinearOrder K] (sqrt : K → K) : Prop := ∀ v, 0 ≤ v → 0 ≤ sqrt v ∧ sqrt v * sqrt v = v

/-- The samples are in the range of the distribution. -/
structure InRange [Field K] [LinearOrder K] (rand : Rand K) : Prop where
  truncated : ∀ k shape i, -2 ≤ rand.truncated k shape i ∧ rand.truncated k shape i ≤ 2
  uniform : ∀ k shape i, 0 ≤ rand.uniform k shape i ∧ rand.uniform k shape i ≤ 1

/-- The initializer draws one key from the sequence, and the array depends on nothing but this key and the shape. -/
def OneKey (f : Init K) : Prop :=
  ∀ shape seq y seq', f shape seq = .ok (y, seq') → y.shape = shape ∧ ∃ k, seq.next = (some k, seq') ∧ ∀ other other', other.next = (some k, other') → f shape other = .ok (y, other')

/-- The initializer draws no key, and the array depends on nothing but the shape. -/
def NoKey (f : Init K) : Prop := ∀ shape seq y seq', f shape seq = .ok (y, seq') → seq' = seq ∧ ∀ other, f shape other = .ok (y, other)

/-- The axis `axis` of an array of rank `n` is axis number `a`. -/
def IsAxis (n : Nat) (axis : Int) (a : Nat) : Prop := a < n ∧ (axis = (a : Int) ∨ axis = (a : Int) - n)

/-- The inner product of row `r` and row `r'` along axis `a`; `rest` is the shape without this axis. -/
def rowProduct [Field K] (y : Arr K) (a : Nat) (rest : List Nat) (r r' : Nat) : K := ∑ p ∈ (indices rest).toFinset, y.val (p.insertIdx a r) * y.val (p.insertIdx a r')

/-- The inner product of the columns at positions `p` and `p'` of the other axes; there are `n` rows. -/
def columnProduct [Field K] (y : Arr K) (a n : Nat) (p p' : List Nat) : K := ∑ r ∈ Finset.range n, y.val (p.insertIdx a r) * y.val (p'.insertIdx a r)

/-- A matrix with `m` rows and `n` orthonormal columns. -/
def OrthonormalColumns [Field K] (q : Arr K) (m n : Nat) : Prop :=
  q.shape = [m, n] ∧ ∀ c < n, ∀ c' < n, ∑ r ∈ Finset.range m, q.val [r, c] * q.val [r, c'] = if c = c' then 1 else 0

/-! ### Lemmas -/

theorem nextKey_ok {seq seq' : PRNGSeq} {k : Key} : nextKey seq = .ok (k, seq') ↔ seq.next = (some k, seq') := by
  unfold nextKey
  rcases h : seq.next with ⟨_ | k', s⟩
  · exact ⟨(fun h => by cases h), (fun h => by cases h)⟩
  · exact ⟨(fun h => by cases h; rfl), (fun h => by cases h; rfl)⟩

theorem fans_eq {shape : List Nat} {ins outs : Nat} (h : Units shape ins outs) : computeFans shape = (ins, outs) := by
  cases h with
  | number => rfl
  | vector n => rfl
  | kernel lead a b =>
    have h2 : (lead ++ [a, b]).length - 2 = lead.length := by rw [List.length_append]; exact Nat.add_sub_cancel _ _
    have h1 : (lead ++ [a, b]).length - 1 = lead.length + 1 := by rw [List.length_append]; exact rfl
    have hg : (lead ++ [a, b]).getD lead.length 0 = a := getD_right lead [a, b] 0
    have hg' : (lead ++ [a, b]).getD (lead.length + 1) 0 = b := getD_right lead [a, b] 1
    rcases lead with _ | ⟨c, lead⟩
    · show (a, b) = (1 * a, 1 * b)
      rw [Nat.one_mul, Nat.one_mul]
    · have : ∀ l : List Nat, 2 < l.length → computeFans l = (l.getD (l.length - 2) 0 * size (l.take (l.length - 2)), l.getD (l.length - 1) 0 * size (l.take (l.length - 2))) := by
        intro l hl
        rcases l with _ | ⟨x, _ | ⟨y, _ | ⟨z, l⟩⟩⟩
        · exact absurd hl (by decide)
        · exact absurd hl (by show ¬ 2 < 1; decide)
        · exact absurd hl (by show ¬ 2 < 2; decide)
        · rfl
      rw [this _ (by rw [List.length_append]; show 2 < lead.length + 1 + 2; omega), h2, h1, hg, hg', List.take_left' rfl, Nat.mul_comm a, Nat.mul_comm b]

section
variable [Field K] [LinearOrder K] [IsStrictOrderedRing K]

theorem units_pos {shape : List Nat} {ins outs : Nat} (h : Units shape ins outs) (hs : 0 < size shape) : 1 ≤ ins ∧ 1 ≤ outs := by
  cases h with
  | number => exact ⟨Nat.le_refl 1, Nat.le_refl 1⟩
  | vector =>
    have : size [ins] = ins := Nat.mul_one ins
    omega
  | kernel lead a b =>
    rw [size_append] at hs
    have h2 : size [a, b] = a * b := by show a * (b * 1) = a * b; rw [Nat.mul_one]
    rw [h2] at hs
    have hl := Nat.pos_of_mul_pos_right hs
    have hab := Nat.pos_of_mul_pos_left hs
    exact ⟨Nat.mul_pos hl (Nat.pos_of_mul_pos_right hab), Nat.mul_pos hl (Nat.pos_of_mul_pos_left hab)⟩

theorem make_ok {scale : K} {mode dist : List Char} {v : VarianceScaling K} (h : VarianceScaling.make scale mode dist = .ok v) :
    0 ≤ scale ∧ mode ∈ ["fan_in".toList, "fan_out".toList, "fan_avg".toList] ∧ dist.map Char.toLower ∈ ["normal".toList, "truncated_normal".toList, "uniform".toList]
      ∧ v = ⟨scale, mode, dist.map Char.toLower⟩ := by
  unfold VarianceScaling.make at h
  by_cases h1 : scale < 0
  · rw [if_pos h1] at h
    cases h
  rw [if_neg h1] at h
  by_cases h2 : mode ∉ ["fan_in".toList, "fan_out".toList, "fan_avg".toList]
  · rw [if_pos h2] at h
    cases h
  rw [if_neg h2] at h
  dsimp only at h
  by_cases h3 : dist.map Char.toLower ∉ ["normal".toList, "truncated_normal".toList, "uniform".toList]
  · rw [if_pos h3] at h
    cases h
  rw [if_neg h3] at h
  cases h
  exact ⟨not_lt.mp h1, not_not.mp h2, not_not.mp h3, rfl⟩

theorem factor_eq {scale n : K} {mode : String} {dist : List Char} {s : List Nat} {ins outs : Nat} (hu : Units s ins outs) (hs : 0 < size s) (hn : Divisor mode ins outs n) :
    1 ≤ n ∧ VarianceScaling.factor ⟨scale, mode.toList, dist⟩ s = scale / n := by
  obtain ⟨h1, h2⟩ := units_pos hu hs
  have h1 : (1 : K) ≤ ins := by exact_mod_cast h1
  have h2 : (1 : K) ≤ outs := by exact_mod_cast h2
  unfold VarianceScaling.factor
  rw [fans_eq hu]
  dsimp only
  have e1 : "fan_out".toList ≠ "fan_in".toList := by decide
  have e2 : "fan_avg".toList ≠ "fan_in".toList := by decide
  have e3 : "fan_avg".toList ≠ "fan_out".toList := by decide
  rcases hn with ⟨rfl, rfl⟩ | ⟨rfl, rfl⟩ | ⟨rfl, hn⟩
  · rw [if_pos rfl, max_eq_right h1]
    exact ⟨h1, rfl⟩
  · rw [if_neg e1, if_pos rfl, max_eq_right h2]
    exact ⟨h2, rfl⟩
  · have e : ((ins + outs : Nat) : K) / 2 = n := by
      rw [Nat.cast_add, ← hn]
      field_simp
    have hn1 : 1 ≤ n := by linarith
    refine ⟨hn1, (if_neg e2).trans ((if_neg e3).trans ?_)⟩
    rw [e, max_eq_right hn1]

theorem normal_run {rand : Rand K} {s m : K} {shape : List Nat} {seq seq' : PRNGSeq} {k : Key} (h : seq.next = (some k, seq')) :
    randomNormal rand s m shape seq = .ok (⟨shape, fun i => m + s * rand.normal k shape i⟩, seq') := by
  unfold randomNormal
  rw [bind_eq (nextKey_ok.mpr h)]

theorem truncated_run {rand : Rand K} {s m : K} {shape : List Nat} {seq seq' : PRNGSeq} {k : Key} (h : seq.next = (some k, seq')) :
    truncatedNormal rand s m shape seq = .ok (⟨shape, fun i => s * rand.truncated k shape i + m⟩, seq') := by
  unfold truncatedNormal
  rw [bind_eq (nextKey_ok.mpr h)]

theorem uniform_run {rand : Rand K} {a b : K} {shape : List Nat} {seq seq' : PRNGSeq} {k : Key} (h : seq.next = (some k, seq')) :
    randomUniform rand a b shape seq = .ok (⟨shape, fun i => max a (rand.uniform k shape i * (b - a) + a)⟩, seq') := by
  unfold randomUniform
  rw [bind_eq (nextKey_ok.mpr h)]

theorem normal_one (rand : Rand K) (s m : K) : OneKey (randomNormal rand s m) := by
  intro shape seq y seq' h
  unfold randomNormal at h
  obtain ⟨⟨k, s'⟩, hk, h⟩ := bind_ok h
  cases h
  exact ⟨rfl, k, nextKey_ok.mp hk, fun other other' ho => normal_run ho⟩

theorem truncated_one (rand : Rand K) (s m : K) : OneKey (truncatedNormal rand s m) := by
  intro shape seq y seq' h
  unfold truncatedNormal at h
  obtain ⟨⟨k, s'⟩, hk, h⟩ := bind_ok h
  cases h
  exact ⟨rfl, k, nextKey_ok.mp hk, fun other other' ho => truncated_run ho⟩

theorem uniform_one (rand : Rand K) (a b : K) : OneKey (randomUniform rand a b) := by
  intro shape seq y seq' h
  unfold randomUniform at h
  obtain ⟨⟨k, s'⟩, hk, h⟩ := bind_ok h
  cases h
  exact ⟨rfl, k, nextKey_ok.mp hk, fun other other' ho => uniform_run ho⟩


theorem variance_one (rand : Rand K) (sqrt : K → K) (v : VarianceScaling K) : OneKey (v.call rand sqrt) := by
  intro shape seq y seq' h
  unfold VarianceScaling.call at h
  dsimp only at h
  by_cases h1 : v.distribution = "truncated_normal".toList
  · rw [if_pos h1] at h
    obtain ⟨e, k, hk, ho⟩ := truncated_one _ _ _ _ _ _ _ h
    refine ⟨e, k, hk, fun other other' hn => ?_⟩
    rw [← ho other other' hn]
    exact if_pos h1
  rw [if_neg h1] at h
  by_cases h2 : v.distribution = "normal".toList
  · rw [if_pos h2] at h
    obtain ⟨e, k, hk, ho⟩ := normal_one _ _ _ _ _ _ _ h
    refine ⟨e, k, hk, fun other other' hn => ?_⟩
    rw [← ho other other' hn]
    exact (if_neg h1).trans (if_pos h2)
  rw [if_neg h2] at h
  obtain ⟨e, k, hk, ho⟩ := uniform_one _ _ _ _ _ _ _ h
  refine ⟨e, k, hk, fun other other' hn => ?_⟩
  rw [← ho other other' hn]
  exact (if_neg h1).trans (if_neg h2)

theorem sq_bound {a b : K} (h1 : -b ≤ a) (h2 : a ≤ b) : a * a ≤ b * b := by nlinarith

theorem max_uniform {u l : K} (h0 : 0 ≤ u) (hl : 0 ≤ l) : max (-l) (u * (l - -l) + -l) = l * (2 * u - 1) := by
  rw [max_eq_right (by nlinarith)]
  ring

theorem uniform_within {u a b : K} (h0 : 0 ≤ u) (h1 : u ≤ 1) (hab : a ≤ b) : a ≤ max a (u * (b - a) + a) ∧ max a (u * (b - a) + a) ≤ b := by
  refine ⟨le_max_left _ _, max_le hab ?_⟩
  nlinarith

/-- Samples for the examples. -/
noncomputable def rand0 : Rand Real := ⟨fun _ _ i => if i.getD 0 0 = i.getD 1 0 then 1 else 0, fun _ _ _ => 3 / 2, fun _ _ i => if i = [1, 1] then 1 else 0⟩

theorem real_sqrt : IsSqrt Real.sqrt := fun v hv => ⟨Real.sqrt_nonneg v, Real.mul_self_sqrt hv⟩

theorem rand0_range : InRange rand0 :=
  ⟨fun _ _ _ => ⟨by show (-2 : Real) ≤ 3 / 2; norm_num, by show (3 / 2 : Real) ≤ 2; norm_num⟩, fun _ _ i => by
    show (0 : Real) ≤ (if i = [1, 1] then 1 else 0) ∧ (if i = [1, 1] then (1 : Real) else 0) ≤ 1
    split <;> norm_num⟩

theorem root_next : ∃ k seq', (PRNGSeq.ofKey (.root 0)).next = (some k, seq') := ⟨_, _, rfl⟩

theorem make0 : VarianceScaling.make (2 : Real) "fan_avg".toList "Uniform".toList = .ok ⟨2, "fan_avg".toList, "uniform".toList⟩ := by
  obtain ⟨v, hv⟩ := (show ∃ v, VarianceScaling.make (2 : Real) "fan_avg".toList "Uniform".toList = .ok v from by
    unfold VarianceScaling.make
    rw [if_neg (by norm_num), if_neg (by decide)]
    exact ⟨_, if_neg (by decide)⟩)
  obtain ⟨-, -, -, rfl⟩ := make_ok hv
  exact hv

theorem units0 : Units [3, 3, 4, 6] 36 54 := .kernel [3, 3] 4 6

theorem divisor0 : Divisor "fan_avg" 36 54 (45 : Real) := .inr (.inr ⟨rfl, by norm_num⟩)

/-! ### C94: variance scaling -/

/-- C94: `VarianceScaling` called for a shape with elements draws one key and scales the sample of that key: with `n` the number of input units, of output units or their average (by mode), and
`σ = sqrt (scale / n)`, a normal sample is multiplied by `σ`; a truncated normal sample by `σ / 0.8796…`, so that its deviation is `σ`; and a uniform sample is spread over `[-limit, limit]` with
`limit² = 3·σ²`.  The name of the distribution is read without regard to case. -/
theorem variance_scaling {rand : Rand K} {sqrt : K → K} (hq : IsSqrt sqrt) (hr : InRange rand) {scale n : K} {mode : String} {dist : List Char} {v : VarianceScaling K} {shape : List Nat}
    {ins outs : Nat} {seq seq' : PRNGSeq} {k : Key} (hm : VarianceScaling.make scale mode.toList dist = .ok v) (hu : Units shape ins outs) (hs : 0 < size shape) (hn : Divisor mode ins outs n)
    (hk : seq.next = (some k, seq')) :
    ∃ y σ, v.call rand sqrt shape seq = .ok (y, seq') ∧ y.shape = shape ∧ 0 ≤ σ ∧ σ * σ * n = scale
      ∧ (dist.map Char.toLower = "normal".toList → ∀ i, y.val i = σ * rand.normal k shape i)
      ∧ (dist.map Char.toLower = "truncated_normal".toList → ∀ i, y.val i * (87962566103423978 / 100000000000000000) = σ * rand.truncated k shape i)
      ∧ (dist.map Char.toLower = "uniform".toList → ∃ limit, 0 ≤ limit ∧ limit * limit = 3 * (σ * σ) ∧ ∀ i, y.val i = limit * (2 * rand.uniform k shape i - 1)) := by
  obtain ⟨h0, -, hd, rfl⟩ := make_ok hm
  obtain ⟨h1, hf⟩ := factor_eq (scale := scale) (dist := dist.map Char.toLower) hu hs hn
  have hn0 : 0 < n := by linarith
  have hsn : 0 ≤ scale / n := div_nonneg h0 hn0.le
  obtain ⟨q0, q1⟩ := hq _ hsn
  obtain ⟨l0, l1⟩ := hq (3 * (scale / n)) (by linarith)
  have e0 : sqrt (scale / n) * sqrt (scale / n) * n = scale := by
    rw [q1]
    field_simp
  have d1 : "normal".toList ≠ "truncated_normal".toList := by decide
  have d2 : "uniform".toList ≠ "truncated_normal".toList := by decide
  have d3 : "uniform".toList ≠ "normal".toList := by decide
  unfold VarianceScaling.call
  dsimp only
  rw [hf]
  rw [List.mem_cons, List.mem_cons, List.mem_singleton] at hd
  rcases hd with hd | hd | hd
  · rw [hd]
    refine ⟨_, sqrt (scale / n), (if_neg d1).trans ((if_pos rfl).trans (normal_run hk)), rfl, q0, e0, fun _ i => zero_add _, fun h => absurd h d1, fun h => absurd h.symm d3⟩
  · rw [hd]
    refine ⟨_, sqrt (scale / n), (if_pos rfl).trans (truncated_run hk), rfl, q0, e0, fun h => absurd h.symm d1, fun _ i => ?_, fun h => absurd h.symm d2⟩
    show (sqrt (scale / n) / (87962566103423978 / 100000000000000000) * rand.truncated k shape i + 0) * (87962566103423978 / 100000000000000000) = _
    field_simp
    ring
  · rw [hd]
    refine ⟨_, sqrt (scale / n), (if_neg d2).trans ((if_neg d3).trans (uniform_run hk)), rfl, q0, e0, fun h => absurd h d3, fun h => absurd h d2,
      fun _ => ⟨sqrt (3 * (scale / n)), l0, by rw [l1, q1], fun i => max_uniform (hr.uniform k shape i).1 l0⟩⟩

/-- With a kernel of shape 3×3, 4 input and 6 output channels the average of the units is 45; the distribution is written "Uniform". -/
example : ∃ y seq', (VarianceScaling.mk 2 "fan_avg".toList "uniform".toList).call rand0 Real.sqrt [3, 3, 4, 6] (PRNGSeq.ofKey (.root 0)) = .ok (y, seq')
    ∧ ∃ limit, limit * limit * 45 = 6 ∧ y.val [1, 1] = limit ∧ y.val [0, 0] = -limit := by
  obtain ⟨k, seq', hk⟩ := root_next
  obtain ⟨y, σ, h, -, -, e, -, -, hu⟩ := variance_scaling real_sqrt rand0_range make0 units0 (by decide) divisor0 hk
  obtain ⟨l, -, hl, hv⟩ := hu (by decide)
  refine ⟨y, seq', h, l, by rw [hl]; linarith, ?_, ?_⟩
  · rw [hv]
    show l * (2 * (if [1, 1] = [1, 1] then 1 else 0) - 1) = l
    rw [if_pos rfl]
    ring
  · rw [hv]
    show l * (2 * (if [0, 0] = [1, 1] then 1 else 0) - 1) = -l
    rw [if_neg (by decide)]
    ring

/-- C94: so for `n` units, uniform values satisfy `v²·n ≤ 3·scale` and truncated normal ones `(0.8796…·v)²·n ≤ 4·scale`. -/
theorem variance_scaling_bounds {rand : Rand K} {sqrt : K → K} (hq : IsSqrt sqrt) (hr : InRange rand) {scale n : K} {mode : String} {dist : List Char} {v : VarianceScaling K} {shape : List Nat}
    {ins outs : Nat} {seq seq' : PRNGSeq} {y : Arr K} (hm : VarianceScaling.make scale mode.toList dist = .ok v) (hu : Units shape ins outs) (hs : 0 < size shape) (hn : Divisor mode ins outs n)
    (h : v.call rand sqrt shape seq = .ok (y, seq')) (i : List Nat) :
    (dist.map Char.toLower = "uniform".toList → y.val i ^ 2 * n ≤ 3 * scale)
      ∧ (dist.map Char.toLower = "truncated_normal".toList → (87962566103423978 / 100000000000000000 * y.val i) ^ 2 * n ≤ 4 * scale) := by
  obtain ⟨-, k, hk, -⟩ := variance_one _ _ _ _ _ _ _ h
  obtain ⟨y', σ, h', -, hσ, e, -, ht, hu'⟩ := variance_scaling hq hr hm hu hs hn hk
  obtain rfl : y' = y := by
    rw [h'] at h
    cases h
    rfl
  have h1 : 0 < n := by linarith [(factor_eq (scale := scale) (dist := dist) hu hs hn).1]
  constructor
  · intro hd
    obtain ⟨l, hl, e2, hv⟩ := hu' hd
    obtain ⟨u0, u1⟩ := hr.uniform k shape i
    have : y'.val i * y'.val i ≤ l * l := by
      rw [hv]
      exact sq_bound (by nlinarith) (by nlinarith)
    rw [← e, pow_two]
    nlinarith
  · intro hd
    obtain ⟨u0, u1⟩ := hr.truncated k shape i
    have : (σ * rand.truncated k shape i) * (σ * rand.truncated k shape i) ≤ (2 * σ) * (2 * σ) := sq_bound (by nlinarith) (by nlinarith)
    rw [← e, mul_comm (87962566103423978 / 100000000000000000 : K), ht hd i, pow_two]
    nlinarith

example : ∃ y seq', (VarianceScaling.mk 2 "fan_avg".toList "uniform".toList).call rand0 Real.sqrt [3, 3, 4, 6] (PRNGSeq.ofKey (.root 0)) = .ok (y, seq') ∧ y.val [1, 1] ^ 2 * 45 ≤ 3 * 2 := by
  obtain ⟨k, seq', hk⟩ := root_next
  obtain ⟨y, σ, h, -⟩ := variance_scaling real_sqrt rand0_range make0 units0 (by decide) divisor0 hk
  exact ⟨y, seq', h, (variance_scaling_bounds real_sqrt rand0_range make0 units0 (by decide) divisor0 h [1, 1]).1 (by decide)⟩

/-- C94: `VarianceScaling` is made exactly from a scale that is not negative, a known mode and, up to case, a known distribution; otherwise making it is a `ValueError`. -/
theorem variance_scaling_rejects (scale : K) (mode dist : List Char) :
    ((∃ v, VarianceScaling.make scale mode dist = .ok v) ↔ 0 ≤ scale ∧ mode ∈ ["fan_in".toList, "fan_out".toList, "fan_avg".toList]
      ∧ dist.map Char.toLower ∈ ["normal".toList, "truncated_normal".toList, "uniform".toList])
    ∧ ∀ e, VarianceScaling.make scale mode dist = .error e → e = .value := by
  refine ⟨⟨fun ⟨v, h⟩ => ?_, fun ⟨h1, h2, h3⟩ => ⟨⟨scale, mode, dist.map Char.toLower⟩, ?_⟩⟩, fun e h => ?_⟩
  · obtain ⟨h1, h2, h3, -⟩ := make_ok h
    exact ⟨h1, h2, h3⟩
  · unfold VarianceScaling.make
    rw [if_neg (not_lt.mpr h1), if_neg (not_not.mpr h2)]
    exact if_neg (not_not.mpr h3)
  · unfold VarianceScaling.make at h
    dsimp only at h
    split at h
    · cases h
      rfl
    · split at h
      · cases h
        rfl
      · split at h
        · cases h
          rfl
        · cases h

/-- A mode is not read without regard to case, and a negative scale is rejected. -/
example : (¬ ∃ v, VarianceScaling.make (1 : Real) "Fan_in".toList "normal".toList = .ok v) ∧ (¬ ∃ v, VarianceScaling.make (-1 : Real) "fan_in".toList "normal".toList = .ok v)
    ∧ ∃ v, VarianceScaling.make (1 : Real) "fan_in".toList "NORMAL".toList = .ok v :=
  ⟨fun h => absurd ((variance_scaling_rejects _ _ _).1.mp h).2.1 (by decide), fun h => absurd ((variance_scaling_rejects _ _ _).1.mp h).1 (by norm_num),
    (variance_scaling_rejects _ _ _).1.mpr ⟨by norm_num, by decide, by decide⟩⟩

/-! ### C95: bounds -/

/-- C95: `RandomUniform` gives values between its limits. -/
theorem random_uniform_bounds {rand : Rand K} (hr : InRange rand) {a b : K} (hab : a ≤ b) {shape : List Nat} {seq seq' : PRNGSeq} {y : Arr K} (h : randomUniform rand a b shape seq = .ok (y, seq'))
    (i : List Nat) : a ≤ y.val i ∧ y.val i ≤ b := by
  obtain ⟨-, k, hk, -⟩ := uniform_one _ _ _ _ _ _ _ h
  rw [uniform_run hk] at h
  cases h
  exact uniform_within (hr.uniform k shape i).1 (hr.uniform k shape i).2 hab

example : ∃ y seq', randomUniform rand0 (-1) 3 [2, 2] (PRNGSeq.ofKey (.root 0)) = .ok (y, seq') ∧ y.val [1, 1] = 3 ∧ y.val [0, 0] = -1 := by
  obtain ⟨k, seq', hk⟩ := root_next
  refine ⟨_, seq', uniform_run hk, ?_, ?_⟩
  · show max (-1 : Real) ((if [1, 1] = [1, 1] then 1 else 0) * (3 - -1) + -1) = 3
    rw [if_pos rfl]
    norm_num
  · show max (-1 : Real) ((if [0, 0] = [1, 1] then 1 else 0) * (3 - -1) + -1) = -1
    rw [if_neg (by decide)]
    norm_num

/-- C95: `TruncatedNormal` gives values at most two standard deviations from the mean. -/
theorem truncated_normal_bounds {rand : Rand K} (hr : InRange rand) {s m : K} {shape : List Nat} {seq seq' : PRNGSeq} {y : Arr K} (h : truncatedNormal rand s m shape seq = .ok (y, seq'))
    (i : List Nat) : |y.val i - m| ≤ 2 * |s| := by
  obtain ⟨-, k, hk, -⟩ := truncated_one _ _ _ _ _ _ _ h
  rw [truncated_run hk] at h
  cases h
  show |s * rand.truncated k shape i + m - m| ≤ _
  rw [add_sub_cancel_right, abs_mul, mul_comm]
  exact mul_le_mul_of_nonneg_right (abs_le.mpr (hr.truncated k shape i)) (abs_nonneg s)

example : ∃ y seq', truncatedNormal rand0 (-4) 1 [2] (PRNGSeq.ofKey (.root 0)) = .ok (y, seq') ∧ |y.val [0] - 1| ≤ 8 := by
  obtain ⟨k, seq', hk⟩ := root_next
  refine ⟨_, seq', truncated_run hk, ?_⟩
  have := truncated_normal_bounds rand0_range (truncated_run (rand := rand0) (s := -4) (m := 1) (shape := [2]) hk) [0]
  rw [abs_neg, abs_of_pos (show (0 : Real) < 4 by norm_num)] at this
  linarith

/-- C95: `UniformScaling` with a scale that is not negative gives values with `v²·inputs ≤ 3·scale²`. -/
theorem uniform_scaling_bounds {rand : Rand K} (hr : InRange rand) {sqrt : K → K} (hq : IsSqrt sqrt) {scale : K} (h0 : 0 ≤ scale) {lead : List Nat} {d : Nat} {seq seq' : PRNGSeq} {y : Arr K}
    (h : uniformScaling rand sqrt scale (lead ++ [d]) seq = .ok (y, seq')) (hs : 0 < size lead) (i : List Nat) : y.val i ^ 2 * size lead ≤ 3 * scale ^ 2 := by
  unfold uniformScaling at h
  dsimp only at h
  rw [List.dropLast_concat] at h
  have hp : (0 : K) < size lead := by exact_mod_cast hs
  obtain ⟨q0, q1⟩ := hq (3 / (size lead : K)) (by positivity)
  have hl : 0 ≤ sqrt (3 / (size lead : K)) * scale := mul_nonneg q0 h0
  obtain ⟨b1, b2⟩ := random_uniform_bounds hr (by linarith) h i
  have e : sqrt (3 / (size lead : K)) * scale * (sqrt (3 / (size lead : K)) * scale) * size lead = 3 * scale ^ 2 := by
    rw [show sqrt (3 / (size lead : K)) * scale * (sqrt (3 / (size lead : K)) * scale) = sqrt (3 / (size lead : K)) * sqrt (3 / (size lead : K)) * scale ^ 2 by ring, q1]
    field_simp
  rw [← e, pow_two]
  exact mul_le_mul_of_nonneg_right (sq_bound b1 b2) hp.le

example : ∃ y seq', uniformScaling rand0 Real.sqrt 5 ([3] ++ [2]) (PRNGSeq.ofKey (.root 0)) = .ok (y, seq') ∧ y.val [1, 1] ^ 2 * 3 ≤ 3 * 5 ^ 2 := by
  obtain ⟨k, seq', hk⟩ := root_next
  have h := uniform_run (rand := rand0) (a := -(Real.sqrt (3 / (size [3] : Real)) * 5)) (b := Real.sqrt (3 / (size [3] : Real)) * 5) (shape := [3, 2]) hk
  refine ⟨_, seq', h, ?_⟩
  have := uniform_scaling_bounds rand0_range real_sqrt (by norm_num) (lead := [3]) (d := 2) h (by decide) [1, 1]
  rw [show ((size [3] : Nat) : Real) = 3 by norm_num [size]] at this ⊢
  exact this

/-- C95: the scale is not checked: with a negative scale `UniformScaling` gives the same value everywhere. -/
theorem uniform_scaling_negative {rand : Rand K} (hr : InRange rand) {sqrt : K → K} (hq : IsSqrt sqrt) {scale : K} (h0 : scale ≤ 0) {shape : List Nat} {seq seq' : PRNGSeq} {y : Arr K}
    (h : uniformScaling rand sqrt scale shape seq = .ok (y, seq')) (i j : List Nat) : y.val i = y.val j := by
  unfold uniformScaling at h
  dsimp only at h
  obtain ⟨q0, -⟩ := hq (3 / (size shape.dropLast : K)) (by positivity)
  have hl : sqrt (3 / (size shape.dropLast : K)) * scale ≤ 0 := mul_nonpos_of_nonneg_of_nonpos q0 h0
  obtain ⟨-, k, hk, -⟩ := uniform_one _ _ _ _ _ _ _ h
  rw [uniform_run hk] at h
  cases h
  have : ∀ i, max (-(sqrt (3 / (size shape.dropLast : K)) * scale)) (rand.uniform k shape i * (sqrt (3 / (size shape.dropLast : K)) * scale - -(sqrt (3 / (size shape.dropLast : K)) * scale)) +
      -(sqrt (3 / (size shape.dropLast : K)) * scale)) = -(sqrt (3 / (size shape.dropLast : K)) * scale) := by
    intro i
    have := (hr.uniform k shape i).1
    exact max_eq_left (by nlinarith)
  exact (this i).trans (this j).symm

example : ∃ y seq', uniformScaling rand0 Real.sqrt (-5) [3, 2] (PRNGSeq.ofKey (.root 0)) = .ok (y, seq') ∧ y.val [1, 1] = y.val [0, 0] := by
  obtain ⟨k, seq', hk⟩ := root_next
  have h := uniform_run (rand := rand0) (a := -(Real.sqrt (3 / (size [3] : Real)) * -5)) (b := Real.sqrt (3 / (size [3] : Real)) * -5) (shape := [3, 2]) hk
  exact ⟨_, seq', h, uniform_scaling_negative rand0_range real_sqrt (by norm_num) (shape := [3, 2]) h [1, 1] [0, 0]⟩

/-- C95: the weights of a linear layer or a convolution are by default at most `2 / sqrt inputs`. -/
theorem default_weights_bounds {rand : Rand K} (hr : InRange rand) {sqrt : K → K} (hq : IsSqrt sqrt) {lead : List Nat} {d : Nat} {seq seq' : PRNGSeq} {y : Arr K}
    (h : defaultWeights rand sqrt (lead ++ [d]) seq = .ok (y, seq')) (hs : 0 < size lead) (i : List Nat) : y.val i ^ 2 * size lead ≤ 4 := by
  unfold defaultWeights at h
  rw [List.dropLast_concat] at h
  have hp : (0 : K) < size lead := by exact_mod_cast hs
  obtain ⟨q0, q1⟩ := hq (size lead : K) hp.le
  have q2 : 0 < sqrt (size lead : K) := lt_of_le_of_ne q0 fun e => by
    rw [← e, mul_zero] at q1
    exact hp.ne q1
  have b := truncated_normal_bounds hr h i
  rw [sub_zero, abs_of_pos (by positivity : 0 < 1 / sqrt (size lead : K))] at b
  have b' := sq_bound (abs_le.mp b).1 (abs_le.mp b).2
  calc y.val i ^ 2 * size lead ≤ (2 * (1 / sqrt (size lead : K)) * (2 * (1 / sqrt (size lead : K)))) * size lead := by
        rw [pow_two]
        exact mul_le_mul_of_nonneg_right b' hp.le
    _ = 4 := by
        nth_rewrite 3 [← q1]
        field_simp
        norm_num

example : ∃ y seq', defaultWeights rand0 Real.sqrt ([3, 3, 4] ++ [6]) (PRNGSeq.ofKey (.root 0)) = .ok (y, seq') ∧ y.val [0, 1, 2, 3] ^ 2 * (size [3, 3, 4] : Nat) ≤ 4 := by
  obtain ⟨k, seq', hk⟩ := root_next
  have h := truncated_run (rand := rand0) (s := 1 / Real.sqrt (size [3, 3, 4] : Real)) (m := 0) (shape := [3, 3, 4] ++ [6]) hk
  exact ⟨_, seq', h, default_weights_bounds rand0_range real_sqrt (lead := [3, 3, 4]) (d := 6) h (by decide) _⟩

/-- C95: the values are the samples of the drawn key, moved into the range: `RandomUniform` takes the point at `u` of the way from the lower to the upper limit; `UniformScaling` is uniform over
`[-limit, limit]` with `limit² · inputs = 3 · scale²`; and default weights are truncated normal samples times `σ` with `σ² · inputs = 1`. -/
theorem samples_scaled {rand : Rand K} (hr : InRange rand) {sqrt : K → K} (hq : IsSqrt sqrt) {lead : List Nat} {d : Nat} (hs : 0 < size lead) {seq seq' : PRNGSeq} {k : Key}
    (hk : seq.next = (some k, seq')) :
    (∀ a b : K, a ≤ b → ∃ y, randomUniform rand a b (lead ++ [d]) seq = .ok (y, seq') ∧ ∀ i, y.val i = (1 - rand.uniform k (lead ++ [d]) i) * a + rand.uniform k (lead ++ [d]) i * b)
    ∧ (∀ scale : K, 0 ≤ scale → ∃ (y : Arr K) (limit : K), uniformScaling rand sqrt scale (lead ++ [d]) seq = .ok (y, seq') ∧ 0 ≤ limit ∧ limit ^ 2 * size lead = 3 * scale ^ 2
        ∧ ∀ i, y.val i = limit * (2 * rand.uniform k (lead ++ [d]) i - 1))
    ∧ ∃ (y : Arr K) (σ : K), defaultWeights rand sqrt (lead ++ [d]) seq = .ok (y, seq') ∧ 0 < σ ∧ σ ^ 2 * size lead = 1 ∧ ∀ i, y.val i = σ * rand.truncated k (lead ++ [d]) i := by
  have hp : (0 : K) < size lead := by exact_mod_cast hs
  refine ⟨fun a b hab => ⟨_, uniform_run hk, fun i => ?_⟩, fun scale h0 => ?_, ?_⟩
  · show max a (rand.uniform k (lead ++ [d]) i * (b - a) + a) = _
    have := (hr.uniform k (lead ++ [d]) i).1
    rw [max_eq_right (by nlinarith)]
    ring
  · obtain ⟨q0, q1⟩ := hq (3 / (size lead : K)) (by positivity)
    have h : uniformScaling rand sqrt scale (lead ++ [d]) seq = randomUniform rand (-(sqrt (3 / (size lead : K)) * scale)) (sqrt (3 / (size lead : K)) * scale) (lead ++ [d]) seq := by
      unfold uniformScaling
      dsimp only
      rw [List.dropLast_concat]
    refine ⟨_, sqrt (3 / (size lead : K)) * scale, h.trans (uniform_run hk), mul_nonneg q0 h0, ?_, fun i => max_uniform (hr.uniform k (lead ++ [d]) i).1 (mul_nonneg q0 h0)⟩
    rw [mul_pow, pow_two, q1]
    field_simp
  · obtain ⟨q0, q1⟩ := hq (size lead : K) hp.le
    have q2 : 0 < sqrt (size lead : K) := lt_of_le_of_ne q0 fun e => by
      rw [← e, mul_zero] at q1
      exact hp.ne q1
    have h : defaultWeights rand sqrt (lead ++ [d]) seq = truncatedNormal rand (1 / sqrt (size lead : K)) 0 (lead ++ [d]) seq := by
      unfold defaultWeights
      rw [List.dropLast_concat]
    refine ⟨_, 1 / sqrt (size lead : K), h.trans (truncated_run hk), by positivity, ?_, fun i => add_zero _⟩
    rw [div_pow, one_pow, pow_two, q1]
    field_simp

example : ∃ (y : Arr Real) (seq' : PRNGSeq) (σ : Real), defaultWeights rand0 Real.sqrt ([3, 3, 4] ++ [6]) (PRNGSeq.ofKey (.root 0)) = .ok (y, seq') ∧ 0 < σ ∧ σ ^ 2 * (size [3, 3, 4] : Nat) = 1 ∧ y.val [0, 1, 2, 3] = σ * (3 / 2) := by
  obtain ⟨k, seq', hk⟩ := root_next
  obtain ⟨-, -, y, σ, h, h0, h1, h2⟩ := samples_scaled rand0_range real_sqrt (lead := [3, 3, 4]) (d := 6) (by decide) hk
  exact ⟨y, seq', σ, h, h0, h1, h2 _⟩

/-! ### C96: orthogonal matrices -/

theorem size_erase : ∀ {s : List Nat} {a : Nat}, a < s.length → size s = s.getD a 0 * size (s.eraseIdx a)
  | n :: s, 0, _ => rfl
  | n :: s, a + 1, h => by
    show n * size s = s.getD a 0 * (n * size (s.eraseIdx a))
    rw [size_erase (Nat.lt_of_succ_lt_succ h)]
    ring

theorem insert_get : ∀ {p : List Nat} {a r : Nat}, a ≤ p.length → (p.insertIdx a r).getD a 0 = r ∧ (p.insertIdx a r).eraseIdx a = p
  | p, 0, r, _ => ⟨rfl, rfl⟩
  | x :: p, a + 1, r, h => by
    obtain ⟨h1, h2⟩ := insert_get (r := r) (Nat.le_of_succ_le_succ h)
    rw [List.insertIdx_succ_cons]
    refine ⟨h1, ?_⟩
    rw [List.eraseIdx_cons_succ, h2]

theorem axis_of {n : Nat} {axis : Int} {a : Nat} (h : IsAxis n axis a) : axisIndex n axis = .ok a := by
  unfold IsAxis at h
  unfold axisIndex
  rw [if_pos (by omega)]
  congr 1
  split <;> omega

theorem unravel_row {n m r c : Nat} {rest p : List Nat} (hm : size rest = m) (hr : r < n) (hp : Valid rest p) (hc : ravel rest p = c) : unravel [n, m] (ravel (n :: rest) (r :: p)) = [r, c] := by
  have hlt := ravel_lt hp
  rw [show ravel (n :: rest) (r :: p) = ravel [n, m] [r, c] by
    show r * size rest + ravel rest p = r * (m * 1) + (c * 1 + 0)
    rw [hm, hc, Nat.mul_one, Nat.mul_one, Nat.add_zero]]
  exact unravel_ravel (.cons hr (.cons (by rw [← hc, ← hm]; exact hlt) .nil))

/-- The sign as a number. -/
abbrev sgn (x : K) : K := (SignType.sign x : K)

theorem sgn_sq {x : K} (h : x ≠ 0) : sgn x * sgn x = 1 := by
  unfold sgn
  rcases lt_or_gt_of_ne h with h | h
  · rw [sign_neg h]
    norm_num
  · rw [sign_pos h]
    norm_num

theorem orthogonal_run {rand : Rand K} {qr : Arr K → Arr K × Arr K} {scale : K} {axis : Int} {shape rest sampleShape : List Nat} {a n m : Nat} {seq seq' : PRNGSeq} {k : Key} (h2 : 2 ≤ shape.length)
    (ha : IsAxis shape.length axis a) (hn : shape.getD a 0 = n) (hn0 : 0 < n) (hrest : rest = shape.eraseIdx a) (hm : m = size rest) (hk : seq.next = (some k, seq'))
    (hs : sampleShape = [max n m, min n m]) (hq : (qr ⟨sampleShape, rand.normal k sampleShape⟩).1.shape = [max n m, min n m]) :
    ∃ y, orthogonal rand qr scale axis shape seq = .ok (y, seq') ∧ y.shape = shape ∧ ∀ r < n, ∀ p, Valid rest p → y.val (p.insertIdx a r) =
      scale * if n < m then (qr ⟨sampleShape, rand.normal k sampleShape⟩).1.val [ravel rest p, r] * sgn ((qr ⟨sampleShape, rand.normal k sampleShape⟩).2.val [r, r])
        else (qr ⟨sampleShape, rand.normal k sampleShape⟩).1.val [r, ravel rest p] * sgn ((qr ⟨sampleShape, rand.normal k sampleShape⟩).2.val [ravel rest p, ravel rest p]) := by
  have e1 : size shape / n = m := by
    rw [size_erase ha.1, hn, ← hrest, ← hm, Nat.mul_div_cancel_left _ hn0]
  have e2 : (if m < n then [n, m] else [m, n]) = sampleShape := by
    rw [hs]
    split
    · rw [Nat.max_eq_left (by omega), Nat.min_eq_right (by omega)]
    · rw [Nat.max_eq_right (by omega), Nat.min_eq_left (by omega)]
  have hsz : size (n :: rest) = n * m := by rw [size_cons, ← hm]
  unfold orthogonal
  rw [if_neg (by omega), bind_eq (axis_of ha)]
  dsimp only
  rw [hn, if_neg hn0.ne', e1, e2, bind_eq (nextKey_ok.mpr hk)]
  dsimp only
  rw [← hrest]
  generalize qr ⟨sampleShape, rand.normal k sampleShape⟩ = d at hq ⊢
  obtain ⟨q, r⟩ := d
  dsimp only at hq ⊢
  have hlen : a ≤ rest.length := by
    rw [hrest, List.length_eraseIdx_of_lt ha.1]
    have := ha.1
    omega
  by_cases hnm : n < m
  · rw [Nat.max_eq_right hnm.le, Nat.min_eq_left hnm.le] at hq
    rw [if_pos hnm]
    unfold transpose reshapeTo
    dsimp only
    rw [hq, show [m, n].reverse = [n, m] from rfl, hsz, show size [n, m] = n * m by show n * (m * 1) = _; rw [Nat.mul_one], if_pos rfl]
    refine ⟨_, rfl, rfl, fun r' hr' p hp => ?_⟩
    obtain ⟨g1, g2⟩ := insert_get (r := r') (p := p) (a := a) (by rw [hp.length]; exact hlen)
    rw [if_pos hnm]
    show scale * (q.val (unravel [n, m] (ravel (n :: rest) ((p.insertIdx a r').getD a 0 :: (p.insertIdx a r').eraseIdx a))).reverse *
      sgn (r.val [(unravel [n, m] (ravel (n :: rest) ((p.insertIdx a r').getD a 0 :: (p.insertIdx a r').eraseIdx a))).reverse.getLastD 0,
        (unravel [n, m] (ravel (n :: rest) ((p.insertIdx a r').getD a 0 :: (p.insertIdx a r').eraseIdx a))).reverse.getLastD 0])) = _
    rw [g1, g2, unravel_row hm.symm hr' hp rfl]
    rfl
  · rw [Nat.max_eq_left (by omega), Nat.min_eq_right (by omega)] at hq
    rw [if_neg hnm]
    unfold reshapeTo
    dsimp only
    rw [hq, hsz, show size [n, m] = n * m by show n * (m * 1) = _; rw [Nat.mul_one], if_pos rfl]
    refine ⟨_, rfl, rfl, fun r' hr' p hp => ?_⟩
    obtain ⟨g1, g2⟩ := insert_get (r := r') (p := p) (a := a) (by rw [hp.length]; exact hlen)
    rw [if_neg hnm]
    show scale * (q.val (unravel [n, m] (ravel (n :: rest) ((p.insertIdx a r').getD a 0 :: (p.insertIdx a r').eraseIdx a))) *
      sgn (r.val [(unravel [n, m] (ravel (n :: rest) ((p.insertIdx a r').getD a 0 :: (p.insertIdx a r').eraseIdx a))).getLastD 0,
        (unravel [n, m] (ravel (n :: rest) ((p.insertIdx a r').getD a 0 :: (p.insertIdx a r').eraseIdx a))).getLastD 0])) = _
    rw [g1, g2, unravel_row hm.symm hr' hp rfl]
    rfl

/-- The rows of a square matrix with orthonormal columns are orthonormal. -/
theorem square_rows {n : Nat} {f : Nat → Nat → K} (h : ∀ c < n, ∀ c' < n, ∑ r ∈ Finset.range n, f r c * f r c' = if c = c' then 1 else 0) :
    ∀ r < n, ∀ r' < n, ∑ c ∈ Finset.range n, f r c * f r' c = if r = r' then 1 else 0 := by
  intro r hr r' hr'
  let A : Matrix (Fin n) (Fin n) K := fun i j => f i j
  have h1 : A.transpose * A = 1 := by
    ext i j
    rw [Matrix.mul_apply, Matrix.one_apply]
    show ∑ k : Fin n, f k i * f k j = _
    rw [Fin.sum_univ_eq_sum_range (fun k => f k i * f k j) n, h i i.2 j j.2]
    exact if_congr Fin.ext_iff.symm rfl rfl
  have h2 := mul_eq_one_comm.mp h1
  have h3 := congrFun (congrFun h2 ⟨r, hr⟩) ⟨r', hr'⟩
  rw [Matrix.mul_apply, Matrix.one_apply] at h3
  rw [← Fin.sum_univ_eq_sum_range (fun c => f r c * f r' c) n]
  refine Eq.trans h3 (if_congr Fin.ext_iff rfl rfl)

/-- C96: `Orthogonal` gives, for a shape with at least two axes, an array of that shape.  With `n` elements along the axis, the array is seen as a matrix with `n` rows, one column for each position
on the other axes.  If there are at least as many columns as rows, the rows are orthogonal with squared length `scale²`; if there are at least as many rows as columns, the columns are.  This holds
when the QR decomposition of the sample has orthonormal columns and no zero on the diagonal. -/
theorem orthogonal_partial {rand : Rand K} {qr : Arr K → Arr K × Arr K} {scale : K} {axis : Int} {shape rest sampleShape : List Nat} {a n m : Nat} {seq seq' : PRNGSeq} {k : Key}
    (h2 : 2 ≤ shape.length) (ha : IsAxis shape.length axis a) (hn : shape.getD a 0 = n) (hn0 : 0 < n) (hrest : rest = shape.eraseIdx a) (hm : m = size rest) (hk : seq.next = (some k, seq'))
    (hs : sampleShape = [max n m, min n m]) (hq : OrthonormalColumns (qr ⟨sampleShape, rand.normal k sampleShape⟩).1 (max n m) (min n m))
    (hd : ∀ c < min n m, (qr ⟨sampleShape, rand.normal k sampleShape⟩).2.val [c, c] ≠ 0) :
    ∃ y, orthogonal rand qr scale axis shape seq = .ok (y, seq') ∧ y.shape = shape
      ∧ (n ≤ m → ∀ r < n, ∀ r' < n, rowProduct y a rest r r' = if r = r' then scale ^ 2 else 0)
      ∧ (m ≤ n → ∀ p p', Valid rest p → Valid rest p' → columnProduct y a n p p' = if p = p' then scale ^ 2 else 0) := by
  obtain ⟨y, hy, hsh, hv⟩ := orthogonal_run (scale := scale) h2 ha hn hn0 hrest hm hk hs hq.1
  refine ⟨y, hy, hsh, ?_⟩
  generalize qr ⟨sampleShape, rand.normal k sampleShape⟩ = d at hq hd hv
  obtain ⟨q, r⟩ := d
  dsimp only at hq hd hv
  have hcol : ∀ c < min n m, ∀ c' < min n m, ∑ i ∈ Finset.range (max n m), (q.val [i, c] * sgn (r.val [c, c])) * (q.val [i, c'] * sgn (r.val [c', c'])) = if c = c' then 1 else 0 := by
    intro c hc c' hc'
    have : ∀ i, (q.val [i, c] * sgn (r.val [c, c])) * (q.val [i, c'] * sgn (r.val [c', c'])) = q.val [i, c] * q.val [i, c'] * (sgn (r.val [c, c]) * sgn (r.val [c', c'])) := fun i => by ring
    rw [Finset.sum_congr rfl fun i _ => this i, ← Finset.sum_mul, hq.2 c hc c' hc']
    by_cases e : c = c'
    · subst e
      rw [if_pos rfl, sgn_sq (hd c hc), mul_one]
    · rw [if_neg e, zero_mul]
  have hscale : ∀ (P : Prop) [Decidable P], scale ^ 2 * (if P then 1 else 0) = if P then scale ^ 2 else 0 := by
    intro P _
    split
    · rw [mul_one]
    · rw [mul_zero]
  have hsq : ∀ u v : K, scale * u * (scale * v) = scale ^ 2 * (u * v) := fun u v => by ring
  constructor
  · intro hnm i hi i' hi'
    have hmem : ∀ p ∈ (indices rest).toFinset, Valid rest p := fun p hp => mem_indices.mp (List.mem_toFinset.mp hp)
    unfold rowProduct
    rcases Nat.lt_or_eq_of_le hnm with hlt | heq
    · rw [Nat.min_eq_left hnm, Nat.max_eq_right hnm] at hcol
      rw [Finset.sum_congr rfl fun p hp => by rw [hv i hi p (hmem p hp), hv i' hi' p (hmem p hp), if_pos hlt, if_pos hlt, hsq], ← Finset.mul_sum,
        ← Verif.Props.VQ.sum_rows rest fun c => q.val [c, i] * sgn (r.val [i, i]) * (q.val [c, i'] * sgn (r.val [i', i'])), ← hm, hcol i hi i' hi', hscale]
    · rw [← heq, Nat.min_self, Nat.max_self] at hcol
      rw [Finset.sum_congr rfl fun p hp => by rw [hv i hi p (hmem p hp), hv i' hi' p (hmem p hp), if_neg (by omega), if_neg (by omega), hsq], ← Finset.mul_sum,
        ← Verif.Props.VQ.sum_rows rest fun c => q.val [i, c] * sgn (r.val [c, c]) * (q.val [i', c] * sgn (r.val [c, c])), ← hm, ← heq,
        square_rows (f := fun i c => q.val [i, c] * sgn (r.val [c, c])) hcol i hi i' hi', hscale]
  · intro hmn p p' hp hp'
    rw [Nat.min_eq_right hmn, Nat.max_eq_left hmn] at hcol
    unfold columnProduct
    rw [Finset.sum_congr rfl fun i hi => by rw [hv i (Finset.mem_range.mp hi) p hp, hv i (Finset.mem_range.mp hi) p' hp', if_neg (by omega), if_neg (by omega), hsq], ← Finset.mul_sum,
      hcol _ (by rw [hm]; exact ravel_lt hp) _ (by rw [hm]; exact ravel_lt hp'), ← hscale]
    refine congrArg (scale ^ 2 * ·) (if_congr ⟨fun e => ?_, fun e => by rw [e]⟩ rfl rfl)
    rw [← unravel_ravel hp, e, unravel_ravel hp']

/-- A decomposition for the examples: the sample is already orthonormal, up to the sign of the second column. -/
noncomputable def qr0 : Arr Real → Arr Real × Arr Real := fun x =>
  (⟨x.shape, fun i => if i.getD 1 0 = 1 then -x.val i else x.val i⟩, ⟨[2, 2], fun i => if i = [0, 0] then 1 else if i = [1, 1] then -1 else 0⟩)

theorem qr0_orthonormal (k : Key) : OrthonormalColumns (qr0 ⟨[3, 2], rand0.normal k [3, 2]⟩).1 3 2 := by
  refine ⟨rfl, fun c hc c' hc' => ?_⟩
  have hc : c = 0 ∨ c = 1 := by omega
  have hc' : c' = 0 ∨ c' = 1 := by omega
  rcases hc with rfl | rfl <;> rcases hc' with rfl | rfl <;> norm_num [Finset.sum_range_succ, qr0, rand0]

theorem qr0_diagonal (k : Key) : ∀ c < 2, (qr0 ⟨[3, 2], rand0.normal k [3, 2]⟩).2.val [c, c] ≠ 0 := by
  intro c hc
  have hc : c = 0 ∨ c = 1 := by omega
  rcases hc with rfl | rfl <;> norm_num [qr0]

/-- For the shape `[2, 3]` and the last axis there are three rows and two columns, so the columns are orthogonal. -/
example : ∃ y seq', orthogonal rand0 qr0 5 (-1) [2, 3] (PRNGSeq.ofKey (.root 0)) = .ok (y, seq') ∧ columnProduct y 1 3 [1] [1] = 5 ^ 2 ∧ columnProduct y 1 3 [0] [1] = 0 := by
  obtain ⟨k, seq', hk⟩ := root_next
  obtain ⟨y, h, -, -, hc⟩ := orthogonal_partial (scale := (5 : Real)) (qr := qr0) (rand := rand0) (shape := [2, 3]) (rest := [2]) (a := 1) (n := 3) (m := 2) (axis := -1) (sampleShape := [3, 2])
    (by decide) ⟨by decide, .inr (by decide)⟩ rfl (by decide) rfl rfl hk rfl (qr0_orthonormal k) (qr0_diagonal k)
  refine ⟨y, seq', h, ?_, ?_⟩
  · rw [hc (by decide) [1] [1] (.cons (by decide) .nil) (.cons (by decide) .nil), if_pos rfl]
  · rw [hc (by decide) [0] [1] (.cons (by decide) .nil) (.cons (by decide) .nil), if_neg (by decide)]

/-- For the first axis there are two rows and three columns, so the rows are orthogonal. -/
example : ∃ y seq', orthogonal rand0 qr0 5 0 [2, 3] (PRNGSeq.ofKey (.root 0)) = .ok (y, seq') ∧ rowProduct y 0 [3] 1 1 = 5 ^ 2 ∧ rowProduct y 0 [3] 0 1 = 0 := by
  obtain ⟨k, seq', hk⟩ := root_next
  obtain ⟨y, h, -, hc, -⟩ := orthogonal_partial (scale := (5 : Real)) (qr := qr0) (rand := rand0) (shape := [2, 3]) (rest := [3]) (a := 0) (n := 2) (m := 3) (axis := 0) (sampleShape := [3, 2])
    (by decide) ⟨by decide, .inl (by decide)⟩ rfl (by decide) rfl rfl hk rfl (qr0_orthonormal k) (qr0_diagonal k)
  refine ⟨y, seq', h, ?_, ?_⟩
  · rw [hc (by decide) 1 (by decide) 1 (by decide), if_pos rfl]
  · rw [hc (by decide) 0 (by decide) 1 (by decide), if_neg (by decide)]

/-- C96: without the condition on the diagonal the claim fails: where the diagonal of the QR decomposition is zero, the row or column is zero instead of having length `scale`. -/
theorem orthogonal_zero_diagonal {rand : Rand K} {qr : Arr K → Arr K × Arr K} {scale : K} {axis : Int} {shape rest sampleShape : List Nat} {a n m : Nat} {seq seq' : PRNGSeq} {k : Key}
    (h2 : 2 ≤ shape.length) (ha : IsAxis shape.length axis a) (hn : shape.getD a 0 = n) (hn0 : 0 < n) (hrest : rest = shape.eraseIdx a) (hm : m = size rest) (hk : seq.next = (some k, seq'))
    (hs : sampleShape = [max n m, min n m]) (hq : OrthonormalColumns (qr ⟨sampleShape, rand.normal k sampleShape⟩).1 (max n m) (min n m)) {c : Nat} (hc : c < min n m)
    (hd : (qr ⟨sampleShape, rand.normal k sampleShape⟩).2.val [c, c] = 0) :
    ∃ y, orthogonal rand qr scale axis shape seq = .ok (y, seq') ∧ (n < m → rowProduct y a rest c c = 0) ∧ (m ≤ n → columnProduct y a n (unravel rest c) (unravel rest c) = 0) := by
  obtain ⟨y, hy, hsh, hv⟩ := orthogonal_run (scale := scale) h2 ha hn hn0 hrest hm hk hs hq.1
  refine ⟨y, hy, fun hlt => ?_, fun hmn => ?_⟩
  · refine Finset.sum_eq_zero fun p hp => ?_
    rw [hv c (by omega) p (mem_indices.mp (List.mem_toFinset.mp hp)), if_pos hlt, hd, sgn, sign_zero]
    show scale * (_ * 0) * _ = 0
    rw [mul_zero, mul_zero, zero_mul]
  · have hc' : c < size rest := by rw [← hm]; omega
    obtain ⟨u1, u2⟩ := Verif.Props.VQ.valid_unravel hc'
    refine Finset.sum_eq_zero fun i hi => ?_
    rw [hv i (Finset.mem_range.mp hi) _ u1, if_neg (by omega), u2, hd, sgn, sign_zero]
    show scale * (_ * 0) * _ = 0
    rw [mul_zero, mul_zero, zero_mul]

/-- The same decomposition with a zero on the diagonal. -/
example : ∃ y seq', orthogonal rand0 (fun x => ((qr0 x).1, ⟨[2, 2], fun _ => 0⟩)) 5 0 [2, 3] (PRNGSeq.ofKey (.root 0)) = .ok (y, seq') ∧ rowProduct y 0 [3] 1 1 = 0 := by
  obtain ⟨k, seq', hk⟩ := root_next
  obtain ⟨y, h, hc, -⟩ := orthogonal_zero_diagonal (scale := (5 : Real)) (qr := fun x => ((qr0 x).1, ⟨[2, 2], fun _ => 0⟩)) (rand := rand0) (shape := [2, 3]) (rest := [3]) (a := 0) (n := 2) (m := 3)
    (axis := 0) (sampleShape := [3, 2]) (by decide) ⟨by decide, .inl (by decide)⟩ rfl (by decide) rfl rfl hk rfl (qr0_orthonormal k) (c := 1) (by decide) rfl
  exact ⟨y, seq', h, hc (by decide)⟩

/-- C96: `Orthogonal` rejects a shape with fewer than two axes, and an axis that the shape does not have; no key is drawn. -/
theorem orthogonal_rejects (rand : Rand K) (qr : Arr K → Arr K × Arr K) (scale : K) (axis : Int) (shape : List Nat) (seq : PRNGSeq) :
    (shape.length < 2 → orthogonal rand qr scale axis shape seq = .error .value)
    ∧ (2 ≤ shape.length → (∀ a, ¬ IsAxis shape.length axis a) → orthogonal rand qr scale axis shape seq = .error .index) := by
  constructor
  · intro h
    unfold orthogonal
    rw [if_pos h]
  · intro h hno
    unfold orthogonal
    rw [if_neg (by omega)]
    refine bind_err ?_
    unfold axisIndex
    refine if_neg fun hr => ?_
    by_cases h0 : axis < 0
    · exact hno (axis + shape.length).toNat ⟨by omega, .inr (by omega)⟩
    · exact hno axis.toNat ⟨by omega, .inl (by omega)⟩

example : orthogonal rand0 qr0 1 0 [5] (PRNGSeq.ofKey (.root 0)) = .error .value ∧ orthogonal rand0 qr0 1 2 [5, 3] (PRNGSeq.ofKey (.root 0)) = .error .index :=
  ⟨(orthogonal_rejects _ _ _ _ _ _).1 (by decide), (orthogonal_rejects _ _ _ _ _ _).2 (by decide) fun a h => by
    unfold IsAxis at h
    have e : ([5, 3] : List Nat).length = 2 := rfl
    omega⟩

theorem orthogonal_one (rand : Rand K) (qr : Arr K → Arr K × Arr K) (scale : K) (axis : Int) : OneKey (orthogonal rand qr scale axis) := by
  intro shape seq y seq' h
  unfold orthogonal at h
  by_cases h2 : shape.length < 2
  · rw [if_pos h2] at h
    cases h
  rw [if_neg h2] at h
  obtain ⟨a, ha, h⟩ := bind_ok h
  dsimp only at h
  by_cases h0 : shape.getD a 0 = 0
  · rw [if_pos h0] at h
    cases h
  rw [if_neg h0] at h
  obtain ⟨⟨k, s'⟩, hk, h⟩ := bind_ok h
  dsimp only at h
  obtain ⟨q, hq, h⟩ := bind_ok h
  cases h
  refine ⟨rfl, k, nextKey_ok.mp hk, fun other other' ho => ?_⟩
  unfold orthogonal
  rw [if_neg h2, bind_eq ha]
  dsimp only
  rw [if_neg h0, bind_eq (nextKey_ok.mpr ho)]
  dsimp only
  rw [bind_eq hq]

/-! ### C97: identity and constant -/

/-- C97: `Identity` gives `gain` on the diagonal of the last two axes and zero elsewhere, for each position on the axes before; shapes with fewer than two axes are rejected. -/
theorem identity_diagonal (gain : Arr K) (lead : List Nat) (n m : Nat) (seq : PRNGSeq) (hg : BroadcastsTo gain.shape (lead ++ [n, m])) :
    ∃ y, identity gain (lead ++ [n, m]) seq = .ok (y, seq) ∧ y.shape = lead ++ [n, m]
      ∧ ∀ p r c, Valid lead p → r < n → c < m → y.val (p ++ [r, c]) = if r = c then spread gain (p ++ [r, c]) else 0 := by
  have h2 : (lead ++ [n, m]).length - 2 = lead.length := by rw [List.length_append]; exact Nat.add_sub_cancel _ _
  have h1 : (lead ++ [n, m]).length - 1 = lead.length + 1 := by rw [List.length_append]; exact rfl
  have hg0 : (lead ++ [n, m]).getD lead.length 0 = n := getD_right lead [n, m] 0
  have hg1 : (lead ++ [n, m]).getD (lead.length + 1) 0 = m := getD_right lead [n, m] 1
  obtain ⟨e, he, hes, hev⟩ := Verif.Props.Norm.broadcastTo_at (x := eye (K := K) n m) (s := lead ++ [n, m]) ⟨lead, [n, m], rfl, .cons (.inr rfl) (.cons (.inr rfl) .nil)⟩
  obtain ⟨y, hy, hys, hyv⟩ := Verif.Props.Norm.zip_at' (f := fun a b : K => a * b) (x := gain) (y := e) (by rw [hes]; exact hg)
  refine ⟨y, ?_, hys.trans hes, fun p r c hp hr hc => ?_⟩
  · unfold identity
    rw [if_neg (by rw [List.length_append]; show ¬ lead.length + 2 < 2; omega), h2, h1, hg0, hg1, bind_eq he, bind_eq hy]
  · rw [hyv _ (by rw [hes]; exact valid_append hp (.cons hr (.cons hc .nil))), hev]
    have : spread (eye (K := K) n m) (p ++ [r, c]) = if r = c then 1 else 0 := by
      unfold spread
      rw [show (p ++ [r, c]).length - (eye (K := K) n m).shape.length = p.length by rw [List.length_append]; exact Nat.add_sub_cancel _ _, List.drop_left' rfl]
      show (if (if n = 1 then 0 else r) = (if m = 1 then 0 else c) then (1 : K) else 0) = _
      rw [show (if n = 1 then 0 else r) = r by split <;> omega, show (if m = 1 then 0 else c) = c by split <;> omega]
    rw [this]
    by_cases e : r = c
    · rw [if_pos e, if_pos e, mul_one]
    · rw [if_neg e, if_neg e, mul_zero]

/-- Two 2×3 matrices with one gain for each of them. -/
example : ∃ y, identity (⟨[2, 1, 1], fun i => (i.getD 0 0 : Real) + 5⟩) [2, 2, 3] (PRNGSeq.ofKey (.root 0)) = .ok (y, PRNGSeq.ofKey (.root 0)) ∧ y.val [1, 1, 1] = 6 ∧ y.val [1, 0, 1] = 0 := by
  obtain ⟨y, h, -, hv⟩ := identity_diagonal (⟨[2, 1, 1], fun i => (i.getD 0 0 : Real) + 5⟩) [2] 2 3 (PRNGSeq.ofKey (.root 0)) ⟨[], _, rfl, .cons (.inr rfl) (.cons (.inl rfl) (.cons (.inl rfl) .nil))⟩
  refine ⟨y, h, ?_, ?_⟩
  · refine (hv [1] 1 1 (.cons (by decide) .nil) (by decide) (by decide)).trans ?_
    rw [if_pos rfl]
    show (((1 : Nat) : Real)) + 5 = 6
    norm_num
  · exact (hv [1] 0 1 (.cons (by decide) .nil) (by decide) (by decide)).trans (if_neg (by decide))

/-- C97: `Identity` rejects shapes with fewer than two axes. -/
theorem identity_rejects (gain : Arr K) (shape : List Nat) (seq : PRNGSeq) (h : shape.length < 2) : identity gain shape seq = .error .value := by
  unfold identity
  rw [if_pos h]

example : identity (⟨[], fun _ => (1 : Real)⟩) [4] (PRNGSeq.ofKey (.root 0)) = .error .value := identity_rejects _ _ _ (by decide)

/-- C97: `Constant` fills the shape with the constant, or, if the constant cannot be broadcast to it, is a `ValueError`. -/
theorem constant_fills (c : Arr K) (shape : List Nat) (seq : PRNGSeq) :
    (BroadcastsTo c.shape shape → ∃ y, constant c shape seq = .ok (y, seq) ∧ y.shape = shape ∧ ∀ i, y.val i = spread c i) ∧ (¬ BroadcastsTo c.shape shape → constant c shape seq = .error .value) := by
  constructor
  · intro h
    obtain ⟨y, hy, hs, hv⟩ := Verif.Props.Norm.broadcastTo_at h
    refine ⟨y, ?_, hs, hv⟩
    unfold constant
    rw [bind_eq hy]
  · intro h
    unfold constant
    refine bind_err ?_
    unfold broadcastTo
    exact if_neg fun e => h (broadcast_to e)

/-- A row of two numbers fills three rows, but not rows of three numbers. -/
example : (∃ y, constant (⟨[2], fun i => (i.getD 0 0 : Real)⟩) [3, 2] (PRNGSeq.ofKey (.root 0)) = .ok (y, PRNGSeq.ofKey (.root 0)) ∧ y.val [2, 1] = 1)
    ∧ constant (⟨[2], fun i => (i.getD 0 0 : Real)⟩) [3] (PRNGSeq.ofKey (.root 0)) = .error .value := by
  constructor
  · obtain ⟨y, h, -, hv⟩ := (constant_fills (⟨[2], fun i => (i.getD 0 0 : Real)⟩) [3, 2] (PRNGSeq.ofKey (.root 0))).1 ⟨[3], _, rfl, .cons (.inr rfl) .nil⟩
    refine ⟨y, h, ?_⟩
    rw [hv]
    show ((1 : Nat) : Real) = 1
    norm_num
  · refine (constant_fills _ _ _).2 fun h => ?_
    have := (broadcast_of h).1
    exact absurd this (by decide)

/-! ### C98: keys -/

/-- C98: every random initializer draws exactly one key from the sequence, whatever the shape, and its array has the requested shape and depends on nothing but this key. -/
theorem random_draw_one (rand : Rand K) (sqrt : K → K) (qr : Arr K → Arr K × Arr K) (a b : K) (axis : Int) (v : VarianceScaling K) :
    OneKey (randomNormal rand a b) ∧ OneKey (truncatedNormal rand a b) ∧ OneKey (randomUniform rand a b) ∧ OneKey (v.call rand sqrt) ∧ OneKey (uniformScaling rand sqrt a)
      ∧ OneKey (orthogonal rand qr a axis) ∧ OneKey (defaultWeights rand sqrt) :=
  ⟨normal_one rand a b, truncated_one rand a b, uniform_one rand a b, variance_one rand sqrt v, fun shape => uniform_one rand _ _ shape, orthogonal_one rand qr a axis,
    fun shape => truncated_one rand _ _ shape⟩

example : ∃ y seq', randomNormal rand0 2 1 [2, 2] (PRNGSeq.ofKey (.root 0)) = .ok (y, seq') ∧ y.val [1, 1] = 3 := by
  obtain ⟨k, seq', hk⟩ := root_next
  refine ⟨_, seq', normal_run hk, ?_⟩
  show (1 : Real) + 2 * (if 1 = 1 then 1 else 0) = 3
  norm_num

/-- C98: `Constant` and `Identity` draw no key and depend only on the shape. -/
theorem deterministic_draw_none (c : Arr K) : NoKey (constant c) ∧ NoKey (identity c) := by
  constructor
  · intro shape seq y seq' h
    unfold constant at h
    obtain ⟨z, hz, h⟩ := bind_ok h
    cases h
    refine ⟨rfl, fun other => ?_⟩
    unfold constant
    rw [bind_eq hz]
  · intro shape seq y seq' h
    unfold identity at h
    by_cases h2 : shape.length < 2
    · rw [if_pos h2] at h
      cases h
    rw [if_neg h2] at h
    obtain ⟨e, he, h⟩ := bind_ok h
    obtain ⟨z, hz, h⟩ := bind_ok h
    cases h
    refine ⟨rfl, fun other => ?_⟩
    unfold identity
    rw [if_neg h2, bind_eq he, bind_eq hz]

example : ∃ y, constant (⟨[], fun _ => (7 : Real)⟩) [2] (PRNGSeq.ofKey (.root 0)) = .ok (y, PRNGSeq.ofKey (.root 0)) ∧ y.val [1] = 7 := ⟨_, rfl, rfl⟩

end

end Verif.Props.Initializers
