import Mathlib.Analysis.SpecialFunctions.Log.Basic
import Verif.Model.Perplexity
import Verif.Props.VQEma

/-!
# Perplexity of the encodings (C75)
-/

set_option linter.unusedVariables false
set_option linter.unusedSectionVars false

namespace Verif.Props.VQ
open Verif.Shapes (Err size)
open Verif.Pool (Arr)
open Verif.Conv (indices)
open Verif.Nd
open Verif.VQ
open Verif.Props.Reset (Valid mem_indices)
open Verif.Props.Norm (bind_eq bind_err)

theorem card_indices (s : List Nat) : (indices s).toFinset.card = size s := by
  have := sum_rows (K := Nat) s fun _ => 1
  rw [Finset.sum_const, Finset.sum_const, Finset.card_range, smul_eq_mul, smul_eq_mul, Nat.mul_one, Nat.mul_one] at this
  exact this.symm

section
variable {K : Type} [Field K] [LinearOrder K] [IsStrictOrderedRing K]

theorem firstNearest_exists {n k : Nat} (hk : 0 < k) (e : Nat → Nat → K) (v : Nat → K) : ∃ j, FirstNearest n k e v j := by
  obtain ⟨h1, h2, h3⟩ := argmax_spec (fun j => -sqDist n v (e j)) (k - 1)
  exact ⟨argmax (fun j => -sqDist n v (e j)) (k - 1), by omega, fun l hl => neg_le_neg_iff.mp (h2 l (by omega)), fun l hl => neg_lt_neg_iff.mp (h3 l hl)⟩

/-- Every position is assigned to exactly one embedding. -/
theorem sum_assigned {ed ne : Nat} (hn : 0 < ne) (e : Nat → Nat → K) (x : Arr K) : ∑ j ∈ Finset.range ne, (assigned ed ne e x j).card = size x.shape.dropLast := by
  rw [← card_indices]
  unfold assigned
  rw [← Finset.card_biUnion]
  · congr 1
    ext p
    rw [Finset.mem_biUnion]
    constructor
    · rintro ⟨j, _, h⟩
      exact (Finset.mem_filter.mp h).1
    · intro h
      obtain ⟨j, hj⟩ := firstNearest_exists hn e (vec x p) (n := ed)
      exact ⟨j, Finset.mem_range.mpr hj.1, Finset.mem_filter.mpr ⟨h, hj⟩⟩
  · intro i _ j _ hij
    rw [Function.onFun, Finset.disjoint_left]
    intro p hi hj
    exact hij (firstNearest_unique (Finset.mem_filter.mp hi).2 (Finset.mem_filter.mp hj).2)

theorem avgProbs_eq {lead : List Nat} {ed ne : Nat} {β : K} {emb x : Arr K} {out : Out K} (hx : x.shape = lead ++ [ed]) (he : 0 < ed) (hn : 0 < ne) (h : VectorQuantizer.call ed ne β emb x = .ok out) (j : Nat) :
    out.avgProbs j = ((assigned ed ne (cols emb) x j).card : K) / (size lead : K) := by
  obtain ⟨e, idx, q, l, h1, h2, h3, h4, h5, h6, h7, h8, h9⟩ := forward_eq (emb := emb) hx he hn
  unfold VectorQuantizer.call at h
  rw [bind_eq h1, bind_eq h2, bind_eq h3] at h
  cases h
  obtain ⟨e', k1, k2, k3⟩ := encode_counts (emb := emb) ⟨lead, hx⟩ he hn
  rw [h1] at k1
  cases k1
  obtain ⟨e', k1, k5, _⟩ := encode_eq (emb := emb) hx he hn
  rw [h1] at k1
  cases k1
  have := k2 j
  rw [k5] at this
  unfold avgProbs
  dsimp only
  rw [h6]
  exact congrArg (· / _) this

end

/-! ### C75 -/

theorem sum_log_le {n : Nat} {p : Nat → ℝ} (hp : ∀ j, 0 ≤ p j) (h1 : ∑ j ∈ Finset.range n, p j = 1) : -∑ j ∈ Finset.range n, p j * Real.log (p j + 1e-10) ≤ Real.log n := by
  have hn : 0 < n := Nat.pos_of_ne_zero fun h => by
    rw [h, Finset.sum_range_zero] at h1
    exact zero_ne_one h1
  have hn' : (0 : ℝ) < n := Nat.cast_pos.mpr hn
  have key : ∀ j ∈ Finset.range n, -(p j * Real.log (p j + 1e-10)) ≤ p j * Real.log n + ((n : ℝ)⁻¹ - p j) := by
    intro j _
    rcases (hp j).eq_or_lt with h | h
    · rw [← h]
      simp
    · have hl : Real.log ((n : ℝ)⁻¹ / p j) ≤ (n : ℝ)⁻¹ / p j - 1 := Real.log_le_sub_one_of_pos (div_pos (inv_pos.mpr hn') h)
      rw [Real.log_div (ne_of_gt (inv_pos.mpr hn')) (ne_of_gt h), Real.log_inv] at hl
      have hm : Real.log (p j) ≤ Real.log (p j + 1e-10) := Real.log_le_log h (by norm_num)
      have := mul_le_mul_of_nonneg_left hl h.le
      have e : p j * ((n : ℝ)⁻¹ / p j - 1) = (n : ℝ)⁻¹ - p j := by
        field_simp
      rw [e] at this
      have := mul_le_mul_of_nonneg_left hm h.le
      linarith
  rw [← Finset.sum_neg_distrib]
  refine (Finset.sum_le_sum key).trans_eq ?_
  rw [Finset.sum_add_distrib, ← Finset.sum_mul, h1, one_mul, Finset.sum_sub_distrib, h1, Finset.sum_const, Finset.card_range, nsmul_eq_mul, mul_inv_cancel₀ (ne_of_gt hn')]
  ring

/-- C75 On inputs that are not empty the perplexity that `VectorQuantizer` reports is at least `1 / (1 + 1e-10)` and at most the number of embeddings; the probabilities it is computed from are the fractions of the vectors
assigned to each embedding and add up to 1. -/
theorem perplexity_bounds (lead : List Nat) (ed ne : Nat) (β : ℝ) (emb x : Arr ℝ) (out : Out ℝ) (hx : x.shape = lead ++ [ed]) (he : 0 < ed) (hn : 0 < ne) (hl : 0 < size lead) (h : VectorQuantizer.call ed ne β emb x = .ok out) :
    (∀ j, out.avgProbs j = ((assigned ed ne (cols emb) x j).card : ℝ) / (size lead : ℝ)) ∧ ∑ j ∈ Finset.range ne, out.avgProbs j = 1 ∧ 1 / (1 + 1e-10) ≤ perplexity ne out.avgProbs ∧ perplexity ne out.avgProbs ≤ ne := by
  have hp := avgProbs_eq hx he hn h
  have h0 : ∀ j, 0 ≤ out.avgProbs j := fun j => by
    rw [hp]
    exact div_nonneg (Nat.cast_nonneg _) (Nat.cast_nonneg _)
  have h1 : ∑ j ∈ Finset.range ne, out.avgProbs j = 1 := by
    rw [Finset.sum_congr rfl fun j _ => hp j, ← Finset.sum_div, ← Nat.cast_sum, sum_assigned hn, hx, List.dropLast_concat]
    exact div_self (Nat.cast_ne_zero.mpr (by omega))
  refine ⟨hp, h1, ?_, ?_⟩
  · have hle : ∑ j ∈ Finset.range ne, out.avgProbs j * Real.log (out.avgProbs j + 1e-10) ≤ Real.log (1 + 1e-10) := by
      have key : ∀ j ∈ Finset.range ne, out.avgProbs j * Real.log (out.avgProbs j + 1e-10) ≤ out.avgProbs j * Real.log (1 + 1e-10) := by
        intro j hj
        refine mul_le_mul_of_nonneg_left (Real.log_le_log (add_pos_of_nonneg_of_pos (h0 j) (by norm_num)) ?_) (h0 j)
        have : out.avgProbs j ≤ 1 := h1 ▸ Finset.single_le_sum (f := out.avgProbs) (fun k _ => h0 k) hj
        linarith
      refine (Finset.sum_le_sum key).trans_eq ?_
      rw [← Finset.sum_mul, h1, one_mul]
    unfold perplexity
    have : (1 : ℝ) / (1 + 1e-10) = Real.exp (-Real.log (1 + 1e-10)) := by
      rw [Real.exp_neg, Real.exp_log (by norm_num), one_div]
    rw [this]
    exact Real.exp_le_exp.mpr (neg_le_neg hle)
  · unfold perplexity
    calc _ ≤ Real.exp (Real.log ne) := Real.exp_le_exp.mpr (sum_log_le h0 h1)
      _ = ne := Real.exp_log (Nat.cast_pos.mpr hn)

/-- C75 The least perplexity is attained when all vectors are assigned to one embedding. -/
theorem perplexity_least (lead : List Nat) (ed ne : Nat) (β : ℝ) (emb x : Arr ℝ) (out : Out ℝ) (hx : x.shape = lead ++ [ed]) (he : 0 < ed) (hn : 0 < ne) (hl : 0 < size lead) (h : VectorQuantizer.call ed ne β emb x = .ok out)
    (j : Nat) (hj : ∀ p, Valid lead p → FirstNearest ed ne (cols emb) (vec x p) j) : perplexity ne out.avgProbs = 1 / (1 + 1e-10) := by
  have hp := avgProbs_eq hx he hn h
  have hd : x.shape.dropLast = lead := by rw [hx, List.dropLast_concat]
  have ha : ∀ k, (assigned ed ne (cols emb) x k).card = if k = j then size lead else 0 := by
    intro k
    unfold assigned
    rw [hd]
    by_cases e : k = j
    · rw [if_pos e, ← card_indices]
      congr 1
      refine Finset.filter_true_of_mem fun p hp => ?_
      rw [e]
      exact hj p (mem_indices.mp (List.mem_toFinset.mp hp))
    · rw [if_neg e, Finset.card_eq_zero]
      refine Finset.filter_false_of_mem fun p hp hk => ?_
      exact e (firstNearest_unique hk (hj p (mem_indices.mp (List.mem_toFinset.mp hp))))
  have hv : ∀ k, out.avgProbs k = if k = j then 1 else 0 := by
    intro k
    rw [hp, ha]
    by_cases e : k = j
    · rw [if_pos e, if_pos e]
      exact div_self (Nat.cast_ne_zero.mpr (by omega))
    · rw [if_neg e, if_neg e, Nat.cast_zero, zero_div]
  have hjn : j < ne := by
    have : 0 < (indices lead).toFinset.card := by rw [card_indices]; exact hl
    obtain ⟨p, hp⟩ := Finset.card_pos.mp this
    exact (hj p (mem_indices.mp (List.mem_toFinset.mp hp))).1
  unfold perplexity
  rw [Finset.sum_eq_single_of_mem j (Finset.mem_range.mpr hjn) fun k _ hk => by rw [hv, if_neg hk, zero_mul], hv, if_pos rfl, one_mul, Real.exp_neg, Real.exp_log (by norm_num), one_div]

/-- The vectors `1` and `3` of shape `(2, 1)`, with the embeddings `0` and `4`: the call succeeds, each embedding is used once. -/
example : ∃ out, VectorQuantizer.call 1 2 (1 : ℝ) ⟨[1, 2], fun i => 4 * (i.getD 1 0 : ℝ)⟩ ⟨[2, 1], fun i => 1 + 2 * (i.headD 0 : ℝ)⟩ = .ok out ∧ 0 < size [2] :=
  (vq_nearest [2] 1 2 1 _ _ rfl Nat.one_pos Nat.two_pos).imp fun out h => ⟨h.1, Nat.two_pos⟩

/-- The same with the vectors `1` and `1`: both are assigned to the embedding `0`. -/
example : ∀ p, Valid [2] p → FirstNearest 1 2 (cols ⟨[1, 2], fun i => 4 * (i.getD 1 0 : ℝ)⟩) (vec ⟨[2, 1], fun _ => (1 : ℝ)⟩ p) 0 := by
  refine fun p _ => ⟨Nat.two_pos, fun l hl => ?_, fun l hl => absurd hl (Nat.not_lt_zero _)⟩
  unfold sqDist
  rw [Finset.sum_range_one, Finset.sum_range_one]
  show (1 - 4 * ((0 : Nat) : ℝ)) ^ 2 ≤ (1 - 4 * ((l : Nat) : ℝ)) ^ 2
  rcases (show l = 0 ∨ l = 1 by omega) with rfl | rfl <;> norm_num

end Verif.Props.VQ
