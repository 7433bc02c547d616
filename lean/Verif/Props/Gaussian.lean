import Mathlib.InformationTheory.KullbackLeibler.ChainRule
import Mathlib.InformationTheory.KullbackLeibler.DataProcessing
import Mathlib.Probability.Distributions.Gaussian.Real
import Mathlib.MeasureTheory.Constructions.Pi

/-!
# Divergences of normal distributions

Facts about the Kullback-Leibler divergence that the theorems about the variational autoencoder (C157, C159) use.
-/

namespace Verif.Props.Gaussian
open MeasureTheory ProbabilityTheory InformationTheory Real
open scoped ENNReal NNReal

/-- The logarithm of the density of a normal distribution against the standard one. -/
theorem llr_gaussian (m : ℝ) {v : ℝ≥0} (hv : v ≠ 0) :
    llr (gaussianReal m v) (gaussianReal 0 1) =ᵐ[gaussianReal m v] fun x => -Real.log v / 2 - (x - m) ^ 2 / (2 * v) + x ^ 2 / 2 := by
  have h1 := rnDeriv_gaussianReal m v
  have h2 := rnDeriv_gaussianReal 0 1
  have hac := gaussianReal_absolutelyContinuous m hv
  have hdiv := Measure.rnDeriv_eq_div (μ := gaussianReal m v) (ν := gaussianReal 0 1) (ξ := volume) hac (gaussianReal_absolutelyContinuous 0 one_ne_zero)
  have hac2 : gaussianReal m v ≪ gaussianReal 0 1 := hac.trans (gaussianReal_absolutelyContinuous' 0 one_ne_zero)
  filter_upwards [hac h1, hac h2, hac2 hdiv] with x e1 e2 e3
  have hv' : (0 : ℝ) < v := by positivity
  rw [llr, e3, e1, e2, ENNReal.toReal_div, toReal_gaussianPDF, toReal_gaussianPDF, Real.log_div (gaussianPDFReal_pos m v x hv).ne' (gaussianPDFReal_pos 0 1 x one_ne_zero).ne']
  simp only [gaussianPDFReal]
  rw [Real.log_mul (by positivity) (by positivity), Real.log_mul (by positivity) (by positivity), Real.log_exp, Real.log_exp, Real.log_inv, Real.log_inv, Real.log_sqrt (by positivity), Real.log_sqrt (by positivity),
    Real.log_mul (by positivity) hv'.ne']
  simp
  ring

theorem integrable_sq (m : ℝ) (v : ℝ≥0) : Integrable (fun x : ℝ => x ^ 2) (gaussianReal m v) := by
  have := (memLp_id_gaussianReal (μ := m) (v := v) 2).integrable_sq
  simpa using this

theorem integrable_lin (m : ℝ) (v : ℝ≥0) : Integrable (fun x : ℝ => x) (gaussianReal m v) := by
  have := (memLp_id_gaussianReal (μ := m) (v := v) 1).integrable (by simp)
  exact this

theorem integral_sq (m : ℝ) (v : ℝ≥0) : ∫ x, x ^ 2 ∂gaussianReal m v = v + m ^ 2 := by
  have h := variance_id_gaussianReal (μ := m) (v := v)
  rw [variance_eq_sub (memLp_id_gaussianReal (μ := m) (v := v) 2)] at h
  have e : ∫ x, x ∂gaussianReal m v = m := integral_id_gaussianReal
  simp only [Pi.pow_apply, id_eq] at h
  rw [e] at h
  linarith

/-- The divergence of a normal distribution from the standard one. -/
theorem kl_normal (m : ℝ) {v : ℝ≥0} (hv : v ≠ 0) :
    Integrable (llr (gaussianReal m v) (gaussianReal 0 1)) (gaussianReal m v) ∧ klDiv (gaussianReal m v) (gaussianReal 0 1) = ENNReal.ofReal (1 / 2 * (-Real.log v - 1 + v + m ^ 2)) := by
  have hac : gaussianReal m v ≪ gaussianReal 0 1 := (gaussianReal_absolutelyContinuous m hv).trans (gaussianReal_absolutelyContinuous' 0 one_ne_zero)
  have hl := llr_gaussian m hv
  have hv' : (v : ℝ) ≠ 0 := by simpa using hv
  have e : (fun x : ℝ => -Real.log v / 2 - (x - m) ^ 2 / (2 * v) + x ^ 2 / 2) = fun x => (-Real.log v / 2 - m ^ 2 / (2 * v)) + (m / v) * x + (1 / 2 - 1 / (2 * v)) * x ^ 2 := by
    funext x
    field_simp
    ring
  have i0 : Integrable (fun _ : ℝ => -Real.log v / 2 - m ^ 2 / (2 * v)) (gaussianReal m v) := integrable_const _
  have i1 : Integrable (fun x : ℝ => (m / v) * x) (gaussianReal m v) := (integrable_lin m v).const_mul _
  have i2 : Integrable (fun x : ℝ => (1 / 2 - 1 / (2 * v)) * x ^ 2) (gaussianReal m v) := (integrable_sq m v).const_mul _
  have hint : Integrable (llr (gaussianReal m v) (gaussianReal 0 1)) (gaussianReal m v) := by
    rw [integrable_congr hl, e]
    exact (i0.add i1).add i2
  refine ⟨hint, ?_⟩
  rw [klDiv_of_ac_of_integrable hac hint]
  congr 1
  have i01 : Integrable (fun x : ℝ => (-Real.log v / 2 - m ^ 2 / (2 * v)) + (m / v) * x) (gaussianReal m v) := i0.add i1
  rw [integral_congr_ae hl, e, integral_add i01 i2, integral_add i0 i1, integral_const_mul, integral_const_mul, integral_sq]
  have e1 : ∫ x, x ∂gaussianReal m v = m := integral_id_gaussianReal
  rw [e1]
  simp
  field_simp
  ring

/-- A bijection does not change a divergence. -/
theorem kl_equiv {α β : Type*} [MeasurableSpace α] [MeasurableSpace β] (e : α ≃ᵐ β) (μ ν : Measure α) [IsFiniteMeasure μ] [IsFiniteMeasure ν] : klDiv (μ.map e) (ν.map e) = klDiv μ ν := by
  refine le_antisymm (klDiv_map_le μ ν e.measurable) ?_
  have := klDiv_map_le (μ.map e) (ν.map e) e.symm.measurable
  rwa [Measure.map_map e.symm.measurable e.measurable, Measure.map_map e.symm.measurable e.measurable, MeasurableEquiv.symm_comp_self, Measure.map_id, Measure.map_id] at this

/-- The divergence of products is the sum of the divergences. -/
theorem kl_prod {α β : Type*} [MeasurableSpace α] [MeasurableSpace β] (μ ν : Measure α) (μ' ν' : Measure β) [IsProbabilityMeasure μ] [IsProbabilityMeasure ν] [IsProbabilityMeasure μ'] [IsProbabilityMeasure ν'] :
    klDiv (μ.prod μ') (ν.prod ν') = klDiv μ ν + klDiv μ' ν' := by
  have h1 : klDiv (μ.prod μ') (ν.prod ν') = klDiv μ ν + klDiv (μ.prod μ') (μ.prod ν') := by
    have := klDiv_compProd_eq_add μ ν (Kernel.const α μ') (Kernel.const α ν')
    simpa only [Measure.compProd_const] using this
  have h2 : klDiv (μ.prod μ') (μ.prod ν') = klDiv (μ'.prod μ) (ν'.prod μ) := by
    rw [← kl_equiv MeasurableEquiv.prodComm (μ.prod μ') (μ.prod ν')]
    have e : (MeasurableEquiv.prodComm : α × β ≃ᵐ β × α) = (Prod.swap : α × β → β × α) := rfl
    rw [e, Measure.prod_swap, Measure.prod_swap]
  have h3 : klDiv (μ'.prod μ) (ν'.prod μ) = klDiv μ' ν' := by
    have := klDiv_compProd_left μ' ν' (Kernel.const β μ)
    simpa only [Measure.compProd_const] using this
  rw [h1, h2, h3]

theorem kl_pi : ∀ {n : Nat} (μ ν : Fin n → Measure ℝ) [∀ i, IsProbabilityMeasure (μ i)] [∀ i, IsProbabilityMeasure (ν i)], klDiv (Measure.pi μ) (Measure.pi ν) = ∑ i, klDiv (μ i) (ν i)
  | 0, μ, ν, _, _ => by
    have : Measure.pi μ = Measure.pi ν := by
      rw [Measure.pi_of_empty, Measure.pi_of_empty]
    rw [this, klDiv_self]
    simp
  | n + 1, μ, ν, _, _ => by
    have e1 := (measurePreserving_piFinSuccAbove μ 0).map_eq
    have e2 := (measurePreserving_piFinSuccAbove ν 0).map_eq
    rw [← kl_equiv (MeasurableEquiv.piFinSuccAbove (fun _ => ℝ) 0), e1, e2, kl_prod, kl_pi, Fin.sum_univ_succ]
    rfl

/-- The evidence lower bound: for any likelihood `exp f` of what was observed, its expected logarithm under `μ`, less the divergence of `μ` from the prior `ν`, is at most the logarithm of its mean under the prior. -/
theorem evidence_bound {α : Type*} [MeasurableSpace α] (μ ν : Measure α) [IsProbabilityMeasure μ] [IsProbabilityMeasure ν] (hkl : klDiv μ ν ≠ ∞) (f : α → ℝ) (hfμ : Integrable f μ) (hfν : Integrable (fun x => Real.exp (f x)) ν) :
    ∫ x, f x ∂μ - (klDiv μ ν).toReal ≤ Real.log (∫ x, Real.exp (f x) ∂ν) := by
  obtain ⟨hac, hint⟩ := klDiv_ne_top_iff.mp hkl
  have hprob : IsProbabilityMeasure (ν.tilted f) := isProbabilityMeasure_tilted hfν
  have hac' : μ ≪ ν.tilted f := hac.trans (absolutelyContinuous_tilted hfν)
  have h1 := integral_llr_tilted_right hac hfμ hfν hint
  have h2 := toReal_klDiv_of_measure_eq hac' (by simp)
  have h3 := toReal_klDiv_of_measure_eq hac (by simp)
  have h4 : 0 ≤ (klDiv μ (ν.tilted f)).toReal := ENNReal.toReal_nonneg
  rw [h2, h1] at h4
  rw [h3]
  linarith

/-- Independent normal numbers. -/
noncomputable def normals {n : Nat} (m : Fin n → ℝ) (s : Fin n → ℝ) : Measure (Fin n → ℝ) := Measure.pi fun i => gaussianReal (m i) (.mk (s i ^ 2) (sq_nonneg _))

instance {n : Nat} (m s : Fin n → ℝ) : IsProbabilityMeasure (normals m s) := by unfold normals; infer_instance

/-- The divergence of independent normal numbers from standard ones. -/
theorem kl_normals {n : Nat} (m s : Fin n → ℝ) (hs : ∀ i, s i ≠ 0) :
    klDiv (normals m s) (normals 0 1) = ENNReal.ofReal (∑ i, 1 / 2 * (-Real.log (s i ^ 2) - 1 + s i ^ 2 + m i ^ 2)) := by
  have hone : (normals (n := n) 0 1) = Measure.pi fun _ => gaussianReal 0 1 := by
    unfold normals
    congr 1
    funext i
    congr 1
    ext
    simp
  have hpos : ∀ i, 0 ≤ 1 / 2 * (-Real.log (s i ^ 2) - 1 + s i ^ 2 + m i ^ 2) := by
    intro i
    have := Real.log_le_sub_one_of_pos (show (0 : ℝ) < s i ^ 2 from by have := hs i; positivity)
    have := sq_nonneg (m i)
    linarith
  rw [hone, normals, kl_pi, ENNReal.ofReal_sum_of_nonneg fun i _ => hpos i]
  refine Finset.sum_congr rfl fun i _ => ?_
  rw [(kl_normal (m i) (v := .mk (s i ^ 2) (sq_nonneg _)) (by intro e; have := congrArg NNReal.toReal e; simp at this; exact hs i this)).2]
  rfl

/-- Scaled and shifted standard normal numbers. -/
theorem normals_map {n : Nat} (m s : Fin n → ℝ) : (normals 0 1).map (fun (e : Fin n → ℝ) i => m i + s i * e i) = normals m s := by
  have one : ∀ i, (gaussianReal ((0 : Fin n → ℝ) i) (.mk ((1 : Fin n → ℝ) i ^ 2) (sq_nonneg _))).map (fun x => m i + s i * x) = gaussianReal (m i) (.mk (s i ^ 2) (sq_nonneg _)) := by
    intro i
    have hc : (fun x : ℝ => m i + s i * x) = (fun x => m i + x) ∘ (fun x => s i * x) := rfl
    rw [hc, ← Measure.map_map (by fun_prop) (by fun_prop), gaussianReal_map_const_mul, gaussianReal_map_const_add]
    congr 1
    · simp
    · ext
      simp
  have hsf : ∀ i, SigmaFinite ((gaussianReal ((0 : Fin n → ℝ) i) (.mk ((1 : Fin n → ℝ) i ^ 2) (sq_nonneg _))).map (fun x => m i + s i * x)) := fun i => by rw [one i]; infer_instance
  have h := Measure.pi_map_pi (μ := fun i => gaussianReal ((0 : Fin n → ℝ) i) (.mk ((1 : Fin n → ℝ) i ^ 2) (sq_nonneg _))) (f := fun i x => m i + s i * x) (fun i => by fun_prop)
  unfold normals
  rw [h]
  congr 1
  funext i
  exact one i

/-- A function of linear growth has an expectation. -/
theorem integrable_growth {n : Nat} (m s : Fin n → ℝ) (f : (Fin n → ℝ) → ℝ) (hf : Measurable f) (a b : ℝ) (h : ∀ z, |f z| ≤ a + b * ∑ i, |z i|) : Integrable f (normals m s) := by
  have hi : ∀ i, Integrable (fun z : Fin n → ℝ => |z i|) (normals m s) := by
    intro i
    have hp := measurePreserving_eval (fun i => gaussianReal (m i) (.mk (s i ^ 2) (sq_nonneg _))) i
    have := hp.integrable_comp_of_integrable (integrable_lin (m i) (.mk (s i ^ 2) (sq_nonneg _)))
    exact this.abs
  have hsum : Integrable (fun z : Fin n → ℝ => a + b * ∑ i, |z i|) (normals m s) := (integrable_const a).add ((integrable_finsetSum _ fun i _ => hi i).const_mul b)
  exact hsum.mono' hf.aestronglyMeasurable (Filter.Eventually.of_forall fun z => by rw [Real.norm_eq_abs]; exact h z)

end Verif.Props.Gaussian
