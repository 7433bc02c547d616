import Mathlib.Algebra.Order.BigOperators.Ring.Finset
import Mathlib.Tactic.Linarith
import Mathlib.Tactic.Positivity
import Mathlib.Analysis.Real.Sqrt
import Verif.Base.Dict
import Verif.Model.SpectralNorm
import Verif.Props.VQ

/-!
# Spectral normalisation (C78, C79, C80)
-/

set_option linter.unusedVariables false
set_option linter.unusedSectionVars false

namespace Verif.Props.Spectral
open Verif.Shapes (Err size)
open Verif.Pool (Arr)
open Verif.Conv (indices)
open Verif.Nd
open Verif.Spectral
open Verif.VQ (reshapeTo)
open Verif.Props.Reset (Valid mem_indices)
open Verif.Props.Norm (bind_eq bind_err)
open Verif.Props.VQ (sum_rows flat_eq ravel_snoc)

variable {K : Type} [Field K] [LinearOrder K] [IsStrictOrderedRing K]

/-! ### Specification -/

/-- One over the positive square root. -/
def IsRsqrt (rsqrt : K → K) : Prop := ∀ v, 0 < v → 0 < rsqrt v ∧ rsqrt v * rsqrt v * v = 1

/-- `|W x|² ≤ L |x|²` for every `x`, where the rows of `W` are the vectors of the array along its last axis.  The least such `L` is the square of the first singular value. -/
def NormBound (lead : List Nat) (n : Nat) (value : Arr K) (L : K) : Prop :=
  0 ≤ L ∧ ∀ x : Nat → K, ∑ p ∈ (indices lead).toFinset, (∑ c ∈ Finset.range n, value.val (p ++ [c]) * x c) ^ 2 ≤ L * ∑ c ∈ Finset.range n, x c ^ 2

/-! ### Lemmas -/

/-- The square of the length of a vector. -/
def sq (n : Nat) (x : Nat → K) : K := ∑ k ∈ Finset.range n, x k ^ 2

theorem sq_nonneg' (n : Nat) (x : Nat → K) : 0 ≤ sq n x := Finset.sum_nonneg fun _ _ => sq_nonneg _

theorem cauchy (n : Nat) (x y : Nat → K) : (∑ k ∈ Finset.range n, x k * y k) ^ 2 ≤ sq n x * sq n y := Finset.sum_mul_sq_le_sq_mul_sq _ _ _

theorem l2_eq (rsqrt : K → K) (eps : K) (n : Nat) (x : Nat → K) : l2Normalize rsqrt eps n x = fun i => x i * rsqrt (sq n x + eps) := by
  unfold l2Normalize sq
  simp only [pow_two]

theorem sq_mul (n : Nat) (x : Nat → K) (t : K) : sq n (fun i => x i * t) = sq n x * t ^ 2 := by
  unfold sq
  rw [Finset.sum_mul]
  exact Finset.sum_congr rfl fun i _ => mul_pow _ _ _

/-- A normalised vector is not longer than 1. -/
theorem sq_l2 {rsqrt : K → K} (hr : IsRsqrt rsqrt) {eps : K} (he : 0 ≤ eps) (n : Nat) (x : Nat → K) (hp : 0 < sq n x + eps) : sq n (l2Normalize rsqrt eps n x) ≤ 1 := by
  rw [l2_eq, sq_mul]
  obtain ⟨h1, h2⟩ := hr _ hp
  have : sq n x * rsqrt (sq n x + eps) ^ 2 = 1 - eps * rsqrt (sq n x + eps) ^ 2 := by
    rw [← h2]
    ring
  rw [this]
  have : 0 ≤ eps * rsqrt (sq n x + eps) ^ 2 := mul_nonneg he (sq_nonneg _)
  linarith

/-- `v W · u = v · W u`. -/
theorem transpose_swap (rows cols : Nat) (w : Nat → Nat → K) (v u : Nat → K) :
    ∑ c ∈ Finset.range cols, times rows v w c * u c = ∑ r ∈ Finset.range rows, v r * timesTranspose cols u w r := by
  unfold times timesTranspose
  rw [Finset.sum_congr rfl fun c _ => Finset.sum_mul _ _ _, Finset.sum_comm]
  refine Finset.sum_congr rfl fun r _ => ?_
  rw [Finset.mul_sum]
  exact Finset.sum_congr rfl fun c _ => by ring

/-- A bound for `W` is a bound for its transpose. -/
theorem bound_transpose {rows cols : Nat} {w : Nat → Nat → K} {L : K} (hL : 0 ≤ L) (h : ∀ x, sq rows (timesTranspose cols x w) ≤ L * sq cols x) (v : Nat → K) : sq cols (times rows v w) ≤ L * sq rows v := by
  have e : sq cols (times rows v w) = ∑ r ∈ Finset.range rows, v r * timesTranspose cols (times rows v w) w r := by
    rw [← transpose_swap]
    unfold sq
    exact Finset.sum_congr rfl fun c _ => by rw [pow_two]
  have h1 : sq cols (times rows v w) ^ 2 ≤ sq rows v * sq rows (timesTranspose cols (times rows v w) w) := by
    have := cauchy rows v (timesTranspose cols (times rows v w) w)
    rwa [← e] at this
  have h2 := mul_le_mul_of_nonneg_left (h (times rows v w)) (sq_nonneg' rows v)
  rcases (sq_nonneg' cols (times rows v w)).eq_or_lt with h0 | h0
  · rw [← h0]
    exact mul_nonneg hL (sq_nonneg' rows v)
  · have h3 : sq cols (times rows v w) * sq cols (times rows v w) ≤ (L * sq rows v) * sq cols (times rows v w) := by
      rw [← pow_two]
      refine h1.trans (h2.trans_eq ?_)
      ring
    exact le_of_mul_le_mul_right h3 h0

/-- The estimate after a step. -/
def est (cols rows : Nat) (w : Nat → Nat → K) (s : (Nat → K) × (Nat → K)) : K := ∑ c ∈ Finset.range cols, times rows s.1 w c * s.2 c

theorem est_step (rsqrt : K → K) (eps : K) (rows cols : Nat) (w : Nat → Nat → K) (u : Nat → K) :
    est cols rows w (step rsqrt eps rows cols w u) =
      sq cols (times rows (step rsqrt eps rows cols w u).1 w) * rsqrt (sq cols (times rows (step rsqrt eps rows cols w u).1 w) + eps) := by
  unfold est
  rw [show (step rsqrt eps rows cols w u).2 = l2Normalize rsqrt eps cols (times rows (step rsqrt eps rows cols w u).1 w) from rfl, l2_eq]
  unfold sq
  rw [Finset.sum_mul]
  exact Finset.sum_congr rfl fun c _ => by ring

theorem est_bounds {rsqrt : K → K} (hr : IsRsqrt rsqrt) {eps : K} (he : 0 < eps) {rows cols : Nat} {w : Nat → Nat → K} (u : Nat → K) :
    0 ≤ est cols rows w (step rsqrt eps rows cols w u) ∧
      ∀ L, 0 ≤ L → (∀ x, sq rows (timesTranspose cols x w) ≤ L * sq cols x) → est cols rows w (step rsqrt eps rows cols w u) ^ 2 ≤ L := by
  rw [est_step]
  have hb := sq_nonneg' cols (times rows (step rsqrt eps rows cols w u).1 w)
  have hv : sq rows (step rsqrt eps rows cols w u).1 ≤ 1 := sq_l2 hr he.le _ _ (add_pos_of_nonneg_of_pos (sq_nonneg' _ _) he)
  generalize (step rsqrt eps rows cols w u).1 = v at *
  obtain ⟨h1, h2⟩ := hr _ (add_pos_of_nonneg_of_pos hb he)
  refine ⟨mul_nonneg hb h1.le, fun L hL h => ?_⟩
  have h3 := (bound_transpose hL h v).trans (mul_le_mul_of_nonneg_left hv hL)
  rw [mul_one] at h3
  have h4 : sq cols (times rows v w) * rsqrt (sq cols (times rows v w) + eps) ^ 2 ≤ 1 := by
    have : 0 ≤ eps * rsqrt (sq cols (times rows v w) + eps) ^ 2 := mul_nonneg he.le (sq_nonneg _)
    have : sq cols (times rows v w) * rsqrt (sq cols (times rows v w) + eps) ^ 2 = 1 - eps * rsqrt (sq cols (times rows v w) + eps) ^ 2 := by
      rw [← h2]
      ring
    linarith
  have h5 := mul_le_mul_of_nonneg_left h4 hb
  rw [mul_one] at h5
  refine le_trans (le_of_eq ?_) (h5.trans h3)
  ring

theorem iterate_succ (rsqrt : K → K) (eps : K) (rows cols : Nat) (w : Nat → Nat → K) : ∀ (k : Nat) (s : Option (Nat → K) × (Nat → K)),
    iterate rsqrt eps rows cols w (k + 1) s =
      (some (step rsqrt eps rows cols w (iterate rsqrt eps rows cols w k s).2).1, (step rsqrt eps rows cols w (iterate rsqrt eps rows cols w k s).2).2)
  | 0, s => rfl
  | k + 1, s => by
    show iterate rsqrt eps rows cols w (k + 1) _ = _
    rw [iterate_succ rsqrt eps rows cols w k]
    rfl

theorem snoc_length {lead : List Nat} {n : Nat} {s : List Nat} (h : s = lead ++ [n]) : s.length = lead.length + 1 ∧ s.getLastD 0 = n := by
  subst h
  simp [List.getLastD_eq_getLast?]

theorem matrix_inv {lead : List Nat} {n : Nat} {value w : Arr K} {e : Bool} (hs : value.shape = lead ++ [n]) (h : matrix value e = .ok w) :
    w.shape = [size lead, n] ∧ ∀ p, Valid lead p → ∀ c < n, w.val [ravel lead p, c] = value.val (p ++ [c]) := by
  obtain ⟨hl, hn⟩ := snoc_length hs
  unfold matrix at h
  split at h
  · cases h
  split at h
  · split at h
    · cases h
    rw [hn] at h
    rcases Nat.eq_zero_or_pos n with h0 | h0
    · subst h0
      unfold reshapeLead at h
      dsimp only at h
      rw [if_pos (Or.inl (by rfl))] at h
      cases h
    · obtain ⟨flat, hf, hs', hv⟩ := flat_eq hs h0
      rw [hf] at h
      cases h
      exact ⟨hs', hv⟩
  · have hw : value = w := by injection h
    subst hw
    obtain ⟨r, rfl⟩ : ∃ r, lead = [r] := by
      match lead, hl with
      | [r], _ => exact ⟨r, rfl⟩
      | [], hl => simp at hl; omega
      | _ :: _ :: _, hl => simp at hl; omega
    refine ⟨by rw [hs]; simp [size], fun p hp c hc => ?_⟩
    match p, hp with
    | [i], hp => 
      simp [ravel, size]

/-- What a call that succeeds does. -/
theorem call_inv {m : SpectralNorm K} {rsqrt : K → K} {init : List Nat → Arr K} {st st' : State K} {value out : Arr K} {u e : Bool} {lead : List Nat} {n : Nat} (hs : value.shape = lead ++ [n])
    (h : m.call rsqrt init st value u e = .ok (out, st')) :
    ∃ (w : Nat → Nat → K) (k : Nat), (∃ a, matrix value e = .ok a ∧ w = fun r c => a.val [r, c]) ∧ m.nSteps = (k : Int) + 1 ∧ (∀ p, Valid lead p → ∀ c < n, w (ravel lead p) c = value.val (p ++ [c])) ∧
      (st.u0.getD (init [1, n])).shape = [1, n] ∧
      ∃ s, s = step rsqrt m.eps (size lead) n w (iterate rsqrt m.eps (size lead) n w k (none, fun c => (st.u0.getD (init [1, n])).val [0, c])).2 ∧
        out.shape = value.shape ∧ (∀ i, Valid value.shape i → out.val i = value.val i / est n (size lead) w s) ∧
        st' = if u then ⟨some ⟨[1, n], fun i => s.2 (i.getD 1 0)⟩, some (est n (size lead) w s)⟩ else ⟨some (st.u0.getD (init [1, n])), st.sigma⟩ := by
  unfold SpectralNorm.call at h
  rcases hm : matrix value e with er | w
  · rw [bind_err hm] at h
    cases h
  rw [bind_eq hm] at h
  obtain ⟨hw, hv⟩ := matrix_inv hs hm
  dsimp only at h
  rw [hw] at h
  simp only [List.headD_cons, List.getLastD_cons, List.getLastD_nil] at h
  split at h
  · cases h
  rename_i hu
  rcases hk : m.nSteps.toNat with _ | k
  · rw [hk] at h
    cases h
  rw [hk, iterate_succ] at h
  dsimp only at h
  refine ⟨fun r c => w.val [r, c], k, ⟨w, rfl, rfl⟩, by omega, hv, not_not.mp hu, _, rfl, ?_⟩
  generalize step rsqrt m.eps (size lead) n (fun r c => w.val [r, c]) _ = s at *
  change (reshapeTo (map (· / est n (size lead) (fun r c => w.val [r, c]) s) w) value.shape >>= _) = _ at h
  unfold reshapeTo at h
  split at h
  · injection h with h
    injection h with h1 h2
    subst h1
    refine ⟨rfl, fun i hi => ?_, h2.symm⟩
    show w.val (unravel w.shape (ravel value.shape i)) / _ = _
    rw [hs] at hi ⊢
    obtain ⟨p, b, rfl, hp, hb⟩ := valid_append_inv hi
    cases hb with
    | cons hc hb =>
      cases hb
      rename_i c
      rw [hw, show ravel (lead ++ [n]) (p ++ [c]) = ravel [size lead, n] [ravel lead p, c] by
        rw [ravel_snoc n c hp.length.symm]; show _ = _ * (n * 1) + (c * 1 + 0); rw [Nat.mul_one]; omega,
        unravel_ravel (.cons (ravel_lt hp) (.cons hc .nil)), hv p hp c hc]
  · cases h

theorem bound_flat {lead : List Nat} {n : Nat} {value : Arr K} {w : Nat → Nat → K} (hw : ∀ p, Valid lead p → ∀ c < n, w (ravel lead p) c = value.val (p ++ [c])) (x : Nat → K) :
    sq (size lead) (timesTranspose n x w) = ∑ p ∈ (indices lead).toFinset, (∑ c ∈ Finset.range n, value.val (p ++ [c]) * x c) ^ 2 := by
  unfold sq
  rw [sum_rows]
  refine Finset.sum_congr rfl fun p hp => ?_
  rw [List.mem_toFinset, mem_indices] at hp
  unfold timesTranspose
  rw [Finset.sum_congr rfl fun c hc => by rw [hw p hp c (Finset.mem_range.mp hc), mul_comm]]

/-! ### A concrete module -/

/-- One over the square root of a real. -/
noncomputable def rs (v : ℝ) : ℝ := 1 / √v

theorem real_rsqrt : IsRsqrt rs := fun v hv => by
  have h := Real.sqrt_pos.mpr hv
  refine ⟨one_div_pos.mpr h, ?_⟩
  unfold rs
  rw [div_mul_div_comm, one_mul, Real.mul_self_sqrt hv.le]
  exact one_div_mul_cancel hv.ne'

/-- The matrix with 2 and 1 on its diagonal. -/
def diag : Arr ℝ := ⟨[2, 2], fun i => if i = [0, 0] then 2 else if i = [1, 1] then 1 else 0⟩

/-- Its first singular value is 2. -/
theorem diag_bound : NormBound [2] 2 diag 4 := by
  refine ⟨by norm_num, fun x => ?_⟩
  rw [show (indices [2]).toFinset = {[0], [1]} by decide]
  simp [Finset.sum_range_succ, diag]
  nlinarith [sq_nonneg (x 1)]

/-- An initial vector. -/
def ones : List Nat → Arr ℝ := fun s => ⟨s, fun _ => 1⟩

/-! ### The estimate never exceeds the first singular value -/

/-- C78: a call divides every entry by one number, which is at least zero and at most the first singular value of the matrix, keeps the shape, and stores that number when it updates. -/
theorem spectral_norm_estimate {m : SpectralNorm K} {rsqrt : K → K} (hr : IsRsqrt rsqrt) (he : 0 < m.eps) {init : List Nat → Arr K} {st st' : State K} {value out : Arr K} {u e : Bool}
    {lead : List Nat} {n : Nat} (hs : value.shape = lead ++ [n]) (h : m.call rsqrt init st value u e = .ok (out, st')) :
    ∃ sigma, out.shape = value.shape ∧ (∀ i, Valid value.shape i → out.val i = value.val i / sigma) ∧ 0 ≤ sigma ∧ (∀ L, NormBound lead n value L → sigma ^ 2 ≤ L) ∧
      (u = true → st'.sigma = some sigma) ∧ (u = false → st'.sigma = st.sigma ∧ ∀ u0, st.u0 = some u0 → st' = st) := by
  obtain ⟨w, k, _, hk, hw, hu, s, rfl, h1, h2, h3⟩ := call_inv hs h
  obtain ⟨b1, b2⟩ := est_bounds (rows := size lead) (cols := n) (w := w) hr he (iterate rsqrt m.eps (size lead) n w k (none, fun c => (st.u0.getD (init [1, n])).val [0, c])).2
  refine ⟨_, h1, h2, b1, fun L hL => b2 L hL.1 fun x => ?_, ?_, ?_⟩
  · rw [bound_flat hw]
    exact hL.2 x
  · rintro rfl
    rw [h3]
    rfl
  · rintro rfl
    rw [h3]
    refine ⟨rfl, fun u0 h0 => ?_⟩
    show State.mk _ _ = _
    rcases st with ⟨a, b⟩
    dsimp only at h0 ⊢
    rw [h0]
    rfl

example {out : Arr ℝ} {st' : State ℝ} (h : (⟨1 / 10000, 3⟩ : SpectralNorm ℝ).call rs ones ⟨none, none⟩ diag true false = .ok (out, st')) :
    ∃ sigma, out.val [0, 0] = 2 / sigma ∧ out.val [1, 1] = 1 / sigma ∧ 0 ≤ sigma ∧ sigma ^ 2 ≤ 4 ∧ st'.sigma = some sigma := by
  obtain ⟨sigma, _, h2, h3, h4, h5, _⟩ := spectral_norm_estimate real_rsqrt (by norm_num) (lead := [2]) (n := 2) rfl h
  refine ⟨sigma, ?_, ?_, h3, h4 4 diag_bound, h5 rfl⟩
  · rw [h2 [0, 0] (.cons (by decide) (.cons (by decide) .nil))]
    rfl
  · rw [h2 [1, 1] (.cons (by decide) (.cons (by decide) .nil))]
    simp [diag]

/-! ### Without `eps`, more iteration never gives a smaller estimate -/

theorem sq_l2_zero {rsqrt : K → K} (hr : IsRsqrt rsqrt) (n : Nat) (x : Nat → K) (hp : 0 < sq n x) : sq n (l2Normalize rsqrt 0 n x) = 1 := by
  rw [l2_eq, sq_mul, add_zero]
  obtain ⟨h1, h2⟩ := hr _ hp
  rw [← h2]
  ring

theorem dot_l2_zero {rsqrt : K → K} (hr : IsRsqrt rsqrt) (n : Nat) (x : Nat → K) (hp : 0 < sq n x) :
    0 < ∑ k ∈ Finset.range n, l2Normalize rsqrt 0 n x k * x k ∧ (∑ k ∈ Finset.range n, l2Normalize rsqrt 0 n x k * x k) ^ 2 = sq n x := by
  rw [l2_eq, add_zero]
  obtain ⟨h1, h2⟩ := hr _ hp
  have e : ∑ k ∈ Finset.range n, x k * rsqrt (sq n x) * x k = sq n x * rsqrt (sq n x) := by
    rw [show sq n x * rsqrt (sq n x) = ∑ k ∈ Finset.range n, x k ^ 2 * rsqrt (sq n x) by rw [← Finset.sum_mul]; rfl]
    exact Finset.sum_congr rfl fun k _ => by ring
  dsimp only
  rw [e]
  refine ⟨mul_pos hp h1, ?_⟩
  calc (sq n x * rsqrt (sq n x)) ^ 2 = sq n x * (rsqrt (sq n x) * rsqrt (sq n x) * sq n x) := by ring
    _ = sq n x := by rw [h2, mul_one]

/-- A step from `u` makes no length smaller: `|W u|² ≤ |v W|² |u|²` and `|v W|² ≤ |W u'|²`. -/
theorem step_grows {rsqrt : K → K} (hr : IsRsqrt rsqrt) {rows cols : Nat} {w : Nat → Nat → K} {u : Nat → K} (h : 0 < sq rows (timesTranspose cols u w)) :
    sq rows (timesTranspose cols u w) ≤ est cols rows w (step rsqrt 0 rows cols w u) ^ 2 * sq cols u ∧ 0 < est cols rows w (step rsqrt 0 rows cols w u) ∧
      sq cols (step rsqrt 0 rows cols w u).2 = 1 ∧ est cols rows w (step rsqrt 0 rows cols w u) ^ 2 ≤ sq rows (timesTranspose cols (step rsqrt 0 rows cols w u).2 w) := by
  have hv1 : sq rows (step rsqrt 0 rows cols w u).1 = 1 := sq_l2_zero hr _ _ h
  have hv2 := dot_l2_zero hr _ _ h
  change 0 < ∑ k ∈ Finset.range rows, (step rsqrt 0 rows cols w u).1 k * _ ∧ (∑ k ∈ Finset.range rows, (step rsqrt 0 rows cols w u).1 k * _) ^ 2 = _ at hv2
  have hu : (step rsqrt 0 rows cols w u).2 = l2Normalize rsqrt 0 cols (times rows (step rsqrt 0 rows cols w u).1 w) := rfl
  unfold est
  rw [hu]
  generalize (step rsqrt 0 rows cols w u).1 = v at *
  rw [← transpose_swap] at hv2
  have c1 := cauchy cols (times rows v w) u
  rw [hv2.2] at c1
  have hb : 0 < sq cols (times rows v w) := by
    rcases (sq_nonneg' cols (times rows v w)).eq_or_lt with h0 | h0
    · rw [← h0, zero_mul] at c1
      exact absurd h (not_lt.mpr c1)
    · exact h0
  obtain ⟨d1, d2⟩ := dot_l2_zero hr _ _ hb
  have e : ∑ c ∈ Finset.range cols, times rows v w c * l2Normalize rsqrt 0 cols (times rows v w) c = ∑ k ∈ Finset.range cols, l2Normalize rsqrt 0 cols (times rows v w) k * times rows v w k :=
    Finset.sum_congr rfl fun k _ => mul_comm _ _
  rw [← e] at d1 d2
  refine ⟨?_, d1, sq_l2_zero hr _ _ hb, ?_⟩
  · rw [d2]
    exact c1
  · have c2 := cauchy rows v (timesTranspose cols (l2Normalize rsqrt 0 cols (times rows v w)) w)
    rw [← transpose_swap, hv1, one_mul] at c2
    exact c2

/-- A unit vector whose image is at least as long as `t`. -/
def Reached (rows cols : Nat) (w : Nat → Nat → K) (t : K) (u : Nat → K) : Prop := sq cols u = 1 ∧ 0 < t ∧ t ^ 2 ≤ sq rows (timesTranspose cols u w)

theorem reached_step {rsqrt : K → K} (hr : IsRsqrt rsqrt) {rows cols : Nat} {w : Nat → Nat → K} {t : K} {u : Nat → K} (h : Reached rows cols w t u) :
    t ≤ est cols rows w (step rsqrt 0 rows cols w u) ∧ Reached rows cols w (est cols rows w (step rsqrt 0 rows cols w u)) (step rsqrt 0 rows cols w u).2 := by
  obtain ⟨h1, h2, h3⟩ := h
  obtain ⟨g1, g2, g3, g4⟩ := step_grows hr (lt_of_lt_of_le (pow_pos h2 2) h3)
  rw [h1, mul_one] at g1
  exact ⟨le_of_sq_le_sq (h3.trans g1) g2.le, g3, g2, g4⟩

theorem reached_iterate {rsqrt : K → K} (hr : IsRsqrt rsqrt) {rows cols : Nat} {w : Nat → Nat → K} {t : K} {u : Nat → K} (h : Reached rows cols w t u) (v : Option (Nat → K)) :
    ∀ k, ∃ t', t ≤ t' ∧ Reached rows cols w t' (iterate rsqrt 0 rows cols w k (v, u)).2
  | 0 => ⟨t, le_refl t, h⟩
  | k + 1 => by
    obtain ⟨t', h1, h2⟩ := reached_iterate hr h v k
    obtain ⟨g1, g2⟩ := reached_step hr h2
    rw [iterate_succ]
    exact ⟨_, h1.trans g1, g2⟩

theorem reached_start {rsqrt : K → K} (hr : IsRsqrt rsqrt) {rows cols : Nat} {w : Nat → Nat → K} {u : Nat → K} (h : 0 < sq rows (timesTranspose cols u w)) (v : Option (Nat → K)) :
    ∀ k, Reached rows cols w (est cols rows w (step rsqrt 0 rows cols w (iterate rsqrt 0 rows cols w k (v, u)).2)) (step rsqrt 0 rows cols w (iterate rsqrt 0 rows cols w k (v, u)).2).2
  | 0 => by
    obtain ⟨_, g2, g3, g4⟩ := step_grows hr h
    exact ⟨g3, g2, g4⟩
  | k + 1 => by
    have h0 := reached_start hr h v k
    rw [iterate_succ]
    exact (reached_step hr h0).2

theorem est_more {rsqrt : K → K} (hr : IsRsqrt rsqrt) {rows cols : Nat} {w : Nat → Nat → K} {u : Nat → K} (h : 0 < sq rows (timesTranspose cols u w)) (v : Option (Nat → K)) (k : Nat) :
    ∀ j, est cols rows w (step rsqrt 0 rows cols w (iterate rsqrt 0 rows cols w k (v, u)).2) ≤ est cols rows w (step rsqrt 0 rows cols w (iterate rsqrt 0 rows cols w (k + j) (v, u)).2)
  | 0 => le_refl _
  | j + 1 => by
    refine (est_more hr h v k j).trans ?_
    rw [← Nat.add_assoc, iterate_succ]
    exact (reached_step hr (reached_start hr h v (k + j))).1

/-- The matrix does not map the vector that is used for the first step to zero. -/
def Starts (lead : List Nat) (n : Nat) (value u0 : Arr K) : Prop := ∃ p, Valid lead p ∧ ∑ c ∈ Finset.range n, value.val (p ++ [c]) * u0.val [0, c] ≠ 0

theorem starts_pos {lead : List Nat} {n : Nat} {value u0 : Arr K} {w : Nat → Nat → K} (hw : ∀ p, Valid lead p → ∀ c < n, w (ravel lead p) c = value.val (p ++ [c])) (h : Starts lead n value u0) :
    0 < sq (size lead) (timesTranspose n (fun c => u0.val [0, c]) w) := by
  rw [bound_flat hw]
  obtain ⟨p, hp, h0⟩ := h
  refine Finset.sum_pos' (fun _ _ => sq_nonneg _) ⟨p, ?_, sq_pos_of_ne_zero h0⟩
  rw [List.mem_toFinset, mem_indices]
  exact hp

/-- What the state of an updated module with `eps = 0` satisfies. -/
def Iterated (lead : List Nat) (n : Nat) (value : Arr K) (st : State K) : Prop :=
  ∃ a s, st.u0 = some a ∧ st.sigma = some s ∧ sq n (fun c => a.val [0, c]) = 1 ∧ 0 < s ∧
    s ^ 2 ≤ ∑ p ∈ (indices lead).toFinset, (∑ c ∈ Finset.range n, value.val (p ++ [c]) * a.val [0, c]) ^ 2

theorem iterated_start {m : SpectralNorm K} {rsqrt : K → K} (hr : IsRsqrt rsqrt) (he : m.eps = 0) {init : List Nat → Arr K} {st st' : State K} {value out : Arr K} {e : Bool}
    {lead : List Nat} {n : Nat} (hs : value.shape = lead ++ [n]) (h0 : Starts lead n value (st.u0.getD (init [1, n]))) (h : m.call rsqrt init st value true e = .ok (out, st')) : Iterated lead n value st' := by
  obtain ⟨w, k, _, hk, hw, hu, s, rfl, h1, h2, h3⟩ := call_inv hs h
  rw [he] at h3
  obtain ⟨g1, g2, g3⟩ := reached_start hr (starts_pos hw h0) none k
  rw [bound_flat hw] at g3
  rw [h3]
  exact ⟨_, _, rfl, rfl, g1, g2, g3⟩

theorem iterated_call {m : SpectralNorm K} {rsqrt : K → K} (hr : IsRsqrt rsqrt) (he : m.eps = 0) {init : List Nat → Arr K} {st st' : State K} {value out : Arr K} {e : Bool}
    {lead : List Nat} {n : Nat} (hs : value.shape = lead ++ [n]) (h0 : Iterated lead n value st) (h : m.call rsqrt init st value true e = .ok (out, st')) :
    Iterated lead n value st' ∧ ∃ s s', st.sigma = some s ∧ st'.sigma = some s' ∧ 0 < s ∧ s ≤ s' := by
  obtain ⟨w, k, _, hk, hw, hu, s, rfl, h1, h2, h3⟩ := call_inv hs h
  obtain ⟨a, t, ha, ht, q1, q2, q3⟩ := h0
  rw [he, ha] at h3
  rw [← bound_flat hw] at q3
  obtain ⟨t', i1, i2⟩ := reached_iterate hr (⟨q1, q2, q3⟩ : Reached (size lead) n w t fun c => a.val [0, c]) none k
  obtain ⟨j1, g1, g2, g3⟩ := reached_step hr i2
  rw [bound_flat hw] at g3
  rw [h3]
  exact ⟨⟨_, _, rfl, rfl, g1, g2, g3⟩, t, _, ht, rfl, q2, i1.trans j1⟩

/-- C79: with `eps = 0`, over any history of updating calls with the same array the stored estimate is positive and never becomes smaller. -/
theorem spectral_norm_monotone {m : SpectralNorm K} {rsqrt : K → K} (hr : IsRsqrt rsqrt) (he : m.eps = 0) {init : List Nat → Arr K} {value : Arr K} {lead : List Nat} {n : Nat}
    (hs : value.shape = lead ++ [n]) : ∀ (calls : List Bool) {st st1 st2 : State K} {out : Arr K} {e : Bool}, Starts lead n value (st.u0.getD (init [1, n])) → calls ≠ [] →
    m.after rsqrt init st (calls.map fun e => (value, true, e)) = .ok st1 → m.call rsqrt init st1 value true e = .ok (out, st2) →
    ∃ s1 s2, st1.sigma = some s1 ∧ st2.sigma = some s2 ∧ 0 < s1 ∧ s1 ≤ s2 := by
  have tail : ∀ (calls : List Bool) {st st1 : State K}, Iterated lead n value st → m.after rsqrt init st (calls.map fun e => (value, true, e)) = .ok st1 → Iterated lead n value st1 := by
    intro calls
    induction calls with
    | nil =>
      intro st st1 h0 h
      cases h
      exact h0
    | cons e rest ih =>
      intro st st1 h0 h
      change (m.call rsqrt init st value true e >>= fun x => m.after rsqrt init x.2 _) = _ at h
      rcases hc : m.call rsqrt init st value true e with er | ⟨out, st'⟩
      · rw [bind_err hc] at h
        cases h
      · rw [bind_eq hc] at h
        exact ih (iterated_call hr he hs h0 hc).1 h
  intro calls st st1 st2 out e h0 hne h h2
  match calls, hne with
  | e :: rest, _ =>
    change (m.call rsqrt init st value true e >>= fun x => m.after rsqrt init x.2 _) = _ at h
    rcases hc : m.call rsqrt init st value true e with er | ⟨out, st'⟩
    · rw [bind_err hc] at h
      cases h
    · rw [bind_eq hc] at h
      exact (iterated_call hr he hs (tail rest (iterated_start hr he hs h0 hc) h) h2).2

theorem diag_starts : Starts [2] 2 diag (ones [1, 2]) := ⟨[0], .cons (by decide) .nil, by simp [diag, ones]⟩

example {st1 st2 : State ℝ} {out : Arr ℝ} (h : (⟨0, 1⟩ : SpectralNorm ℝ).after rs ones ⟨none, none⟩ [(diag, true, false), (diag, true, true)] = .ok st1)
    (h2 : (⟨0, 1⟩ : SpectralNorm ℝ).call rs ones st1 diag true false = .ok (out, st2)) : ∃ s1 s2, st1.sigma = some s1 ∧ st2.sigma = some s2 ∧ 0 < s1 ∧ s1 ≤ s2 :=
  spectral_norm_monotone real_rsqrt rfl (lead := [2]) (n := 2) rfl [false, true] diag_starts (by simp) h h2

/-- C79: with `eps = 0`, a module with more steps does not give a smaller estimate. -/
theorem spectral_norm_more_steps {m m' : SpectralNorm K} {rsqrt : K → K} (hr : IsRsqrt rsqrt) (he : m.eps = 0) (he' : m'.eps = 0) (hm : m.nSteps ≤ m'.nSteps) {init : List Nat → Arr K} {st st1 st2 : State K}
    {value out1 out2 : Arr K} {e : Bool} {lead : List Nat} {n : Nat} (hs : value.shape = lead ++ [n]) (h0 : Starts lead n value (st.u0.getD (init [1, n])))
    (h1 : m.call rsqrt init st value true e = .ok (out1, st1)) (h2 : m'.call rsqrt init st value true e = .ok (out2, st2)) :
    ∃ s1 s2, st1.sigma = some s1 ∧ st2.sigma = some s2 ∧ 0 < s1 ∧ s1 ≤ s2 := by
  obtain ⟨w, k, ⟨a, ha, rfl⟩, hk, hw, hu, s, rfl, _, _, h3⟩ := call_inv hs h1
  obtain ⟨w', k', ⟨a', ha', rfl⟩, hk', hw', hu', s', rfl, _, _, h3'⟩ := call_inv hs h2
  rw [ha] at ha'
  cases ha'
  rw [h3, h3']
  refine ⟨_, _, rfl, rfl, ?_⟩
  rw [he, he']
  obtain ⟨j, rfl⟩ : ∃ j, k' = k + j := ⟨k' - k, by omega⟩
  exact ⟨(reached_start hr (starts_pos hw h0) none k).2.1, est_more hr (starts_pos hw h0) none k j⟩

example {st1 st2 : State ℝ} {out1 out2 : Arr ℝ} (h1 : (⟨0, 1⟩ : SpectralNorm ℝ).call rs ones ⟨none, none⟩ diag true false = .ok (out1, st1))
    (h2 : (⟨0, 5⟩ : SpectralNorm ℝ).call rs ones ⟨none, none⟩ diag true false = .ok (out2, st2)) : ∃ s1 s2, st1.sigma = some s1 ∧ st2.sigma = some s2 ∧ 0 < s1 ∧ s1 ≤ s2 :=
  spectral_norm_more_steps real_rsqrt rfl rfl (by decide) (lead := [2]) (n := 2) rfl diag_starts h1 h2

/-! ### Which arrays are accepted -/

/-- C80: a scalar is rejected, whatever the flags are, although the documentation says that scalars are returned unchanged; so is a vector. -/
theorem spectral_norm_scalar (m : SpectralNorm K) (rsqrt : K → K) (init : List Nat → Arr K) (st : State K) (value : Arr K) (h : value.shape.length ≤ 1) (u e : Bool) : m.call rsqrt init st value u e = .error .value := by
  have : matrix value e = .error .value := by
    unfold matrix
    rw [if_pos h]
  exact bind_err this

example : (⟨1 / 10000, 1⟩ : SpectralNorm ℝ).call rs ones ⟨none, none⟩ ⟨[], fun _ => 3⟩ true false = .error .value := spectral_norm_scalar _ _ _ _ _ (by decide) _ _

/-- C80: with the flag, arrays with more than two axes are rejected. -/
theorem spectral_norm_flag (m : SpectralNorm K) (rsqrt : K → K) (init : List Nat → Arr K) (st : State K) (value : Arr K) (h : 2 < value.shape.length) (u : Bool) : m.call rsqrt init st value u true = .error .value := by
  have : matrix value true = .error .value := by
    unfold matrix
    rw [if_neg (by omega), if_pos h, if_pos rfl]
  exact bind_err this

example : (⟨1 / 10000, 1⟩ : SpectralNorm ℝ).call rs ones ⟨none, none⟩ ⟨[3, 3, 8, 16], fun _ => 3⟩ true true = .error .value := spectral_norm_flag _ _ _ _ _ (by decide) _

theorem matrix_ok {lead : List Nat} {n : Nat} {value : Arr K} (hs : value.shape = lead ++ [n]) (hl : lead ≠ []) (hn : 0 < n) {e : Bool} (he : e = true → lead.length = 1) : ∃ w, matrix value e = .ok w := by
  obtain ⟨h1, h2⟩ := snoc_length hs
  have : 0 < lead.length := List.length_pos_iff.mpr hl
  unfold matrix
  rw [if_neg (by omega)]
  split
  · rw [if_neg (fun k => by have := he k; omega), h2]
    obtain ⟨flat, hf, _⟩ := flat_eq hs hn
    exact ⟨flat, hf⟩
  · exact ⟨value, rfl⟩

/-- C80: every other array, of any rank above one with the flag off, of rank two with the flag on, is normalised, if the last axis is not empty, the state fits and there is a step to make;
without a step the call fails with a `NameError`. -/
theorem spectral_norm_accepts_partial (m : SpectralNorm K) (rsqrt : K → K) (init : List Nat → Arr K) (st : State K) (value : Arr K) {lead : List Nat} {n : Nat} (hs : value.shape = lead ++ [n]) (hl : lead ≠ [])
    (hn : 0 < n) {e : Bool} (he : e = true → lead.length = 1) (hu : (st.u0.getD (init [1, n])).shape = [1, n]) (u : Bool) :
    (0 < m.nSteps → ∃ out st', m.call rsqrt init st value u e = .ok (out, st')) ∧ (m.nSteps ≤ 0 → m.call rsqrt init st value u e = .error .name) := by
  obtain ⟨w, hm⟩ := matrix_ok hs hl hn he
  obtain ⟨hw, hv⟩ := matrix_inv hs hm
  unfold SpectralNorm.call
  rw [bind_eq hm]
  dsimp only
  rw [hw]
  simp only [List.headD_cons, List.getLastD_cons, List.getLastD_nil]
  rw [if_neg (not_not.mpr hu)]
  constructor
  · intro h
    obtain ⟨k, hk⟩ : ∃ k, m.nSteps.toNat = k + 1 := ⟨m.nSteps.toNat - 1, by omega⟩
    rw [hk, iterate_succ]
    dsimp only
    have hsz : size w.shape = size value.shape := by
      rw [hw, hs, size_append]
      simp [size]
    unfold reshapeTo
    rw [if_pos (show size (map _ w).shape = _ from hsz)]
    exact ⟨_, _, rfl⟩
  · intro h
    rw [show m.nSteps.toNat = 0 by omega]
    rfl

example : ∃ out st', (⟨1 / 10000, 1⟩ : SpectralNorm ℝ).call rs ones ⟨none, none⟩ ⟨[3, 3, 8, 16], fun i => i.length⟩ true false = .ok (out, st') :=
  (spectral_norm_accepts_partial _ _ _ _ _ (lead := [3, 3, 8]) (n := 16) rfl (by decide) (by decide) (by decide) rfl _).1 (by decide)

example : ∃ out st', (⟨1 / 10000, 1⟩ : SpectralNorm ℝ).call rs ones ⟨none, none⟩ diag true true = .ok (out, st') :=
  (spectral_norm_accepts_partial _ _ _ _ _ (lead := [2]) (n := 2) rfl (by decide) (by decide) (by decide) rfl _).1 (by decide)

end Verif.Props.Spectral
