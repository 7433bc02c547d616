import Mathlib.Analysis.SpecialFunctions.Log.Basic
import Mathlib.MeasureTheory.Measure.Lebesgue.Basic
import Mathlib.Probability.Independence.InfinitePi
import Verif.Props.CharRnn

/-!
# The character model example: its loss, the probabilities of its samples and its data (C160, C161, C162, C163)
-/

set_option linter.unusedVariables false
set_option linter.unusedSectionVars false

namespace Verif.Props.CharRnn
open Verif.Shapes (Err)
open Verif.Pool (Arr)
open Verif.Mlp (ParamFn MLP Linear)
open Verif.Nd (zip map)
open Verif.Recurrent (Nest)
open Verif.Transformer (logSoftmax)
open Verif.Conv (indices)
open Verif.Props.Reset (Valid)
open Verif.Props.Cores (Has)
open Verif.Props.Norm (bind_eq bind_err)
open Verif.Props.Attention (IsExp weight stable stable_weight real_exp)
open Verif.Attention (maximum)
open Verif.Props.Transformer (IsLog real_log)
open Verif.CharRnn

variable {K : Type}

/-! ### Specification -/

/-- The probability of a character after a text. -/
def Params.prob [Field K] [LinearOrder K] (P : Params K) (S : Setting K) (hs : Nat) (txt : List Nat) (c : Nat) : K := weight S.exp 128 (P.logit hs (P.after S hs txt)) c

/-- The probability that a text is continued in a certain way. -/
def Params.chain [Field K] [LinearOrder K] (P : Params K) (S : Setting K) (hs : Nat) (txt more : List Nat) : K := ∏ t ∈ Finset.range more.length, P.prob S hs (txt ++ more.take t) (more.getD t 0)

/-! ### C160: the loss -/

theorem total_cube [AddCommMonoid K] (x : Arr K) {T B n : Nat} (hx : x.shape = [T, B, n]) : total x = ∑ t ∈ Finset.range T, ∑ b ∈ Finset.range B, ∑ k ∈ Finset.range n, x.val [t, b, k] := by
  have key : ∀ (m : Nat) (ms : List Nat) (f : List Nat → K), ((indices (m :: ms)).map f).sum = ∑ i ∈ Finset.range m, ((indices ms).map fun p => f (i :: p)).sum := by
    intro m ms f
    show ((List.flatMap (fun i => (indices ms).map (i :: ·)) (List.range m)).map f).sum = _
    induction m with
    | zero => rfl
    | succ m ih =>
      rw [List.range_succ, List.flatMap_append, List.map_append, List.sum_append, ih, Finset.sum_range_succ]
      congr 1
      simp [List.map_map, Function.comp_def]
  unfold total
  rw [hx, key]
  refine Finset.sum_congr rfl fun t _ => ?_
  rw [key]
  refine Finset.sum_congr rfl fun b _ => ?_
  rw [key]
  exact Finset.sum_congr rfl fun k _ => by simp [indices]

variable [Field K] [LinearOrder K]

/-- What a target adds to the loss: minus the logarithm of its probability, and nothing if it is no character. -/
def Params.surprise (P : Params K) (S : Setting K) (hs : Nat) (txt : List Nat) (c : Nat) : K := if c < 128 then -S.log (P.prob S hs txt c) else 0

/-- C160: the loss is the mean, over all positions of all texts of the batch, of minus the logarithm of the probability of the target after the text up to this position; targets that are no characters count as 0. -/
theorem loss_value [IsStrictOrderedRing K] [Inhabited K] {S : Setting K} (he : IsExp S.exp) (hl : IsLog S.exp S.log) {P : Params K} {hs : Nat} (hP : P.Of S hs) {input target : Arr Nat} {T B : Nat} (hT : 0 < T) (hB : 0 < B)
    (hx : input.shape = [T, B]) (hy : target.shape = [T, B]) :
    sequenceLoss S hs input target = .ok ((∑ t ∈ Finset.range T, ∑ b ∈ Finset.range B, P.surprise S hs (text input [b] (t + 1)) (target.val [t, b])) / (T * B)) := by
  obtain ⟨y, st, e, ys, _, yv⟩ := unroll_run hP (b := some B) hT hx
  have ys' : y.shape = [T, B, 128] := ys
  obtain ⟨z, hz, zs, zv⟩ := Verif.Props.Cores.zip_same (f := (· * ·)) (x := oneHot 128 (numbers (K := K) target)) (y := logSoftmax S.exp S.log 128 y) (s := [T, B, 128]) (by show target.shape ++ [128] = _; rw [hy]; rfl) ys'
  unfold sequenceLoss
  split
  · rename_i T' B' h
    rw [hx] at h
    cases h
    rw [bind_eq e]
    dsimp only
    rw [ys']
    show ((zip (· * ·) (oneHot 128 (numbers (K := K) target)) (logSoftmax S.exp S.log 128 y)) >>= _) = _
    rw [bind_eq hz, total_cube _ zs, ← Finset.sum_neg_distrib, Nat.cast_mul]
    congr 2
    refine Finset.sum_congr rfl fun t ht => ?_
    rw [← Finset.sum_neg_distrib]
    refine Finset.sum_congr rfl fun b hb => ?_
    rw [Finset.mem_range] at ht hb
    have cell : ∀ k, k < 128 → z.val [t, b, k] = (oneHot 128 (numbers (K := K) target)).val [t, b, k] * (logSoftmax S.exp S.log 128 y).val [t, b, k] := fun k hk => zv _ (.cons ht (.cons hb (.cons hk .nil)))
    have row : ∀ j, y.val [t, b, j] = P.logit hs (P.after S hs (text input [b] (t + 1))) j := fun j => yv t ht [b] (.cons hb .nil) j
    unfold Params.surprise
    by_cases hc : target.val [t, b] < 128
    · rw [if_pos hc, Finset.sum_eq_single (target.val [t, b])]
      · congr 1
        rw [cell _ hc]
        show (if ((target.val [t, b] : Nat) : K) = ((target.val [t, b] : Nat) : K) then (1 : K) else 0) *
          (y.val [t, b, target.val [t, b]] - maximum 128 (fun j => y.val [t, b, j]) - S.log (∑ j ∈ Finset.range 128, S.exp (y.val [t, b, j] - maximum 128 fun j => y.val [t, b, j]))) = _
        rw [if_pos rfl, one_mul]
        unfold Params.prob
        rw [← stable_weight he]
        unfold stable
        rw [hl.div _ _ (he.pos _) (Finset.sum_pos (fun j _ => he.pos _) ⟨0, Finset.mem_range.mpr (by omega)⟩), hl.exp]
        simp only [row]
      · intro k hr hk
        rw [cell k (Finset.mem_range.mp hr)]
        show (if ((target.val [t, b] : Nat) : K) = ((k : Nat) : K) then (1 : K) else 0) * _ = 0
        rw [if_neg (fun h => hk (Nat.cast_injective h).symm), zero_mul]
      · exact fun h => absurd (Finset.mem_range.mpr hc) h
    · rw [if_neg hc, neg_eq_zero]
      refine Finset.sum_eq_zero fun k hk => ?_
      rw [Finset.mem_range] at hk
      rw [cell k hk]
      show (if ((target.val [t, b] : Nat) : K) = ((k : Nat) : K) then (1 : K) else 0) * _ = 0
      rw [if_neg (fun h => hc (by rw [Nat.cast_injective h]; exact hk)), zero_mul]
  · rename_i h
    exact absurd hx (h T B)

/-- C160: inputs that are not of rank 2 are a `ValueError`. -/
theorem loss_rejects [Inhabited K] (S : Setting K) (hs : Nat) (input target : Arr Nat) (h : input.shape.length ≠ 2) : sequenceLoss S hs input target = .error .value := by
  unfold sequenceLoss
  split
  · rename_i T B e
    rw [e] at h
    exact absurd rfl h
  · rfl

/-- C160: the loss at the targets up to a position does not depend on what comes after it: inputs that agree up to a position, have the same probabilities there. -/
theorem prob_causal (P : Params K) (S : Setting K) (hs : Nat) {input input' : Arr Nat} {q : List Nat} {t : Nat} (h : ∀ i, i ≤ t → input.val (i :: q) = input'.val (i :: q)) (c : Nat) :
    P.surprise S hs (text input q (t + 1)) c = P.surprise S hs (text input' q (t + 1)) c := by
  have : text input q (t + 1) = text input' q (t + 1) := List.map_congr_left fun i hi => h i (by rw [List.mem_range] at hi; omega)
  rw [this]

/-! ### C161: the probabilities of texts -/

theorem prob_pos [IsStrictOrderedRing K] {S : Setting K} (he : IsExp S.exp) (P : Params K) (hs : Nat) (txt : List Nat) (c : Nat) : 0 < P.prob S hs txt c :=
  div_pos (he.pos _) (Finset.sum_pos (fun j _ => he.pos _) ⟨0, Finset.mem_range.mpr (by omega)⟩)

/-- C161: after each text the probabilities of the characters are positive and sum to 1. -/
theorem prob_sum [IsStrictOrderedRing K] {S : Setting K} (he : IsExp S.exp) (P : Params K) (hs : Nat) (txt : List Nat) : (∀ c, 0 < P.prob S hs txt c) ∧ ∑ c ∈ Finset.range 128, P.prob S hs txt c = 1 := by
  refine ⟨prob_pos he P hs txt, ?_⟩
  unfold Params.prob weight
  rw [← Finset.sum_div]
  exact div_self (Finset.sum_pos (fun j _ => he.pos _) ⟨0, Finset.mem_range.mpr (by omega)⟩).ne'

theorem chain_cons (P : Params K) (S : Setting K) (hs : Nat) (txt : List Nat) (c : Nat) (more : List Nat) : P.chain S hs txt (c :: more) = P.prob S hs txt c * P.chain S hs (txt ++ [c]) more := by
  unfold Params.chain
  rw [List.length_cons, Finset.prod_range_succ', mul_comm]
  congr 1
  · rw [List.take_zero, List.append_nil]
    rfl
  · refine Finset.prod_congr rfl fun t _ => ?_
    rw [List.take_succ_cons, List.append_assoc]
    rfl

/-- C161: the probability of a continuation is that of its first part times that of its second part after the first. -/
theorem chain_append (P : Params K) (S : Setting K) (hs : Nat) : ∀ (txt a b : List Nat), P.chain S hs txt (a ++ b) = P.chain S hs txt a * P.chain S hs (txt ++ a) b
  | txt, [], b => by
    rw [List.nil_append, List.append_nil]
    exact (one_mul _).symm
  | txt, c :: a, b => by rw [List.cons_append, chain_cons, chain_append, chain_cons, mul_assoc, List.append_assoc]; rfl

/-- C161: the continuations of each length have probabilities that sum to 1. -/
theorem chain_sum [IsStrictOrderedRing K] {S : Setting K} (he : IsExp S.exp) (P : Params K) (hs : Nat) : ∀ (n : Nat) (txt : List Nat), ∑ f : Fin n → Fin 128, P.chain S hs txt (List.ofFn fun i => (f i).val) = 1
  | 0, txt => by simp [Params.chain]
  | n + 1, txt => by
    rw [← (Fin.consEquiv fun _ => Fin 128).sum_comp, Fintype.sum_prod_type]
    have h : ∀ (c : Fin 128) (g : Fin n → Fin 128), P.chain S hs txt (List.ofFn fun i => ((Fin.consEquiv fun _ => Fin 128) (c, g) i).val) = P.prob S hs txt c * P.chain S hs (txt ++ [c.val]) (List.ofFn fun i => (g i).val) := by
      intro c g
      rw [List.ofFn_succ, ← chain_cons]
      rfl
    simp only [h]
    simp only [← Finset.mul_sum, chain_sum he P hs n, mul_one]
    rw [Fin.sum_univ_eq_sum_range (fun c => P.prob S hs txt c) 128]
    exact (prob_sum he P hs txt).2

/-- The characters of text `b` from its second one on, the targets. -/
def column (target : Arr Nat) (b T : Nat) : List Nat := text target [b] T

theorem chain_column (P : Params K) (S : Setting K) (hs : Nat) {input target : Arr Nat} {b T : Nat} (hshift : ∀ t, t + 1 < T → input.val [t + 1, b] = target.val [t, b]) :
    P.chain S hs [input.val [0, b]] (column target b T) = ∏ t ∈ Finset.range T, P.prob S hs (text input [b] (t + 1)) (target.val [t, b]) := by
  unfold Params.chain column
  have hlen : (text target [b] T).length = T := by unfold text; rw [List.length_map, List.length_range]
  rw [hlen]
  refine Finset.prod_congr rfl fun t ht => ?_
  rw [Finset.mem_range] at ht
  congr 1
  · have : ∀ m, m ≤ t → [input.val [0, b]] ++ (text target [b] T).take m = text input [b] (m + 1) := by
      intro m
      induction m with
      | zero => exact fun _ => rfl
      | succ m ih =>
        intro hm
        rw [text_succ, ← ih (by omega), List.take_add_one, ← List.append_assoc, List.getElem?_eq_getElem (by omega)]
        congr 1
        show [(text target [b] T)[m]] = _
        rw [hshift m (by omega)]
        simp [text]
    exact this t le_rfl
  · rw [List.getD_eq_getElem?_getD, List.getElem?_eq_getElem (by omega)]
    simp [text]

/-- C161: if the targets are the inputs one step later, and are characters, the exponential of minus the loss times the number of targets is the product, over the texts of the batch, of the probability of continuing the first
character of the text with the others. -/
theorem loss_likelihood {S : Setting ℝ} (he : S.exp = Real.exp) (hl : S.log = Real.log) {P : Params ℝ} {hs : Nat} (hP : P.Of S hs) {input target : Arr Nat} {T B : Nat} (hT : 0 < T) (hB : 0 < B) (hx : input.shape = [T, B])
    (hy : target.shape = [T, B]) (hshift : ∀ b, b < B → ∀ t, t + 1 < T → input.val [t + 1, b] = target.val [t, b]) (hc : ∀ b, b < B → ∀ t, t < T → target.val [t, b] < 128) :
    ∃ loss, sequenceLoss S hs input target = .ok loss ∧ Real.exp (-(loss * (T * B))) = ∏ b ∈ Finset.range B, P.chain S hs [input.val [0, b]] (column target b T) := by
  have hie : IsExp S.exp := he ▸ real_exp
  have hil : IsLog S.exp S.log := by rw [he, hl]; exact real_log
  refine ⟨_, loss_value hie hil hP hT hB hx hy, ?_⟩
  rw [div_mul_cancel₀ _ (by positivity), Finset.sum_comm, ← Finset.sum_neg_distrib, Real.exp_sum]
  refine Finset.prod_congr rfl fun b hb => ?_
  rw [Finset.mem_range] at hb
  rw [chain_column P S hs (hshift b hb), ← Finset.sum_neg_distrib, Real.exp_sum]
  refine Finset.prod_congr rfl fun t ht => ?_
  rw [Finset.mem_range] at ht
  unfold Params.surprise
  rw [if_pos (hc b hb t ht), neg_neg, hl, Real.exp_log (prob_pos hie P hs _ _)]

/-! ### C162: the probabilities of samples -/

open MeasureTheory ProbabilityTheory

/-- Draws from the softmax of a vector of logits, given noise. -/
def Exact {U : Type} [MeasurableSpace U] (μ : Measure U) (draw : U → List ℝ → Nat) : Prop :=
  ∀ l : List ℝ, ∀ c, c < l.length → MeasurableSet {u | draw u l = c} ∧ μ {u | draw u l = c} = ENNReal.ofReal (weight Real.exp l.length (fun j => l.getD j 0) c)

/-- The setting in which `jax.random.categorical` draws with the noise of its key. -/
def withNoise {U Ω : Type} (S : Setting ℝ) (draw : U → List ℝ → Nat) (noise : Key → Ω → U) (ω : Ω) : Setting ℝ := { S with categorical := fun k l => draw (noise k ω) l }

/-- C162: if the noise of different keys is independent, and drawing is exact, then the probability that `sample` returns certain characters is the probability that the model gives to this continuation of the context. -/
theorem sample_law {U Ω : Type} [MeasurableSpace U] [MeasurableSpace Ω] {μ : Measure U} {pr : Measure Ω} {draw : U → List ℝ → Nat} (hd : Exact μ draw) {noise : Key → Ω → U} (hm : ∀ k, Measurable (noise k))
    (hlaw : ∀ k, pr.map (noise k) = μ) (hind : iIndepFun noise pr) {S : Setting ℝ} (he : S.exp = Real.exp) {P : Params ℝ} {hs : Nat} (hP : P.Of S hs) (key : Key) {context : Arr Nat} {T : Nat} (hT : 0 < T) (hx : context.shape = [T])
    {tokens : List Nat} (hc : ∀ c ∈ tokens, c < 128) :
    pr {ω | sample (withNoise S draw noise ω) hs key context tokens.length = .ok tokens} = ENNReal.ofReal (P.chain S hs (text context [] T) tokens) := by
  have hie : IsExp S.exp := he ▸ real_exp
  have hlen : ∀ txt, (P.predict S hs txt).length = 128 := fun txt => by unfold Params.predict; rw [List.length_map, List.length_range]
  have hset : {ω | sample (withNoise S draw noise ω) hs key context tokens.length = .ok tokens} =
      ⋂ t ∈ Finset.range tokens.length, (fun t => noise (subkey key t)) t ⁻¹' (fun t => {u | draw u (P.predict S hs (text context [] T ++ tokens.take t)) = tokens.getD t 0}) t := by
    ext ω
    rw [Set.mem_ofPred_eq, sample_iff (P := P) (S := withNoise S draw noise ω) ⟨hP.w1, hP.b1, hP.w2, hP.b2, hP.u0, hP.a0, hP.u1, hP.a1⟩ key hT hx]
    simp only [Set.mem_iInter, Finset.mem_range]
    exact ⟨fun h t ht => (h.2 t ht).symm, fun h => ⟨rfl, fun t ht => (h t ht).symm⟩⟩
  have hex : ∀ t, t < tokens.length → MeasurableSet {u | draw u (P.predict S hs (text context [] T ++ tokens.take t)) = tokens.getD t 0} ∧
      μ {u | draw u (P.predict S hs (text context [] T ++ tokens.take t)) = tokens.getD t 0} = ENNReal.ofReal (P.prob S hs (text context [] T ++ tokens.take t) (tokens.getD t 0)) := by
    intro t ht
    have hb : tokens.getD t 0 < 128 := by
      rw [List.getD_eq_getElem?_getD, List.getElem?_eq_getElem ht]
      exact hc _ (List.getElem_mem _)
    obtain ⟨h1, h2⟩ := hd (P.predict S hs (text context [] T ++ tokens.take t)) (tokens.getD t 0) (by rw [hlen]; exact hb)
    refine ⟨h1, h2.trans (congrArg _ ?_)⟩
    have hg : ∀ j, j < 128 → (P.predict S hs (text context [] T ++ tokens.take t)).getD j 0 = P.logit hs (P.after S hs (text context [] T ++ tokens.take t)) j := by
      intro j hj
      unfold Params.predict
      rw [List.getD_eq_getElem?_getD, List.getElem?_eq_getElem (by simpa using hj)]
      simp
    rw [hlen]
    unfold Params.prob weight
    dsimp only
    rw [he, hg _ hb]
    rw [Finset.sum_congr rfl fun j hj => congrArg Real.exp (hg j (Finset.mem_range.mp hj))]
  rw [hset, (hind.precomp (subkeys_distinct key)).measure_inter_preimage_eq_mul (Finset.range tokens.length) (fun t ht => (hex t (Finset.mem_range.mp ht)).1)]
  unfold Params.chain
  rw [ENNReal.ofReal_prod_of_nonneg fun t _ => (prob_pos hie P hs _ _).le]
  refine Finset.prod_congr rfl fun t ht => ?_
  rw [← Measure.map_apply (hm _) (hex t (Finset.mem_range.mp ht)).1, hlaw]
  exact (hex t (Finset.mem_range.mp ht)).2

/-- The sum of the first probabilities. -/
noncomputable def cum (l : List ℝ) (c : Nat) : ℝ := ∑ j ∈ Finset.range c, weight Real.exp l.length (fun j => l.getD j 0) j

/-- Drawing by the inverse of the cumulative probabilities. -/
noncomputable def inverse (u : ℝ) (l : List ℝ) : Nat := (List.range l.length).findIdx fun c => decide (u ≤ cum l (c + 1))

/-- Uniform noise. -/
noncomputable def uniform : Measure ℝ := volume.restrict (Set.Ioc 0 1)

instance : IsProbabilityMeasure uniform := ⟨by unfold uniform; simp⟩

theorem cum_mono (l : List ℝ) : Monotone (cum l) := fun a b h => Finset.sum_le_sum_of_subset_of_nonneg (Finset.range_subset_range.mpr h) fun j _ _ => div_nonneg (Real.exp_pos _).le (Finset.sum_nonneg fun _ _ => (Real.exp_pos _).le)

theorem cum_last {l : List ℝ} (h : 0 < l.length) : cum l l.length = 1 := by
  unfold cum weight
  rw [← Finset.sum_div]
  exact div_self (Finset.sum_pos (fun j _ => Real.exp_pos _) ⟨0, Finset.mem_range.mpr h⟩).ne'

/-- C162: drawing by the inverse of the cumulative probabilities, from uniform noise, is exact. -/
theorem inverse_exact : Exact uniform inverse := by
  intro l c hc
  have hset : {u | inverse u l = c} = Set.Iic (cum l (c + 1)) ∩ (if c = 0 then Set.univ else Set.Ioi (cum l c)) := by
    ext u
    have hiff : inverse u l = c ↔ u ≤ cum l (c + 1) ∧ ∀ j, j < c → cum l (j + 1) < u := by
      unfold inverse
      rw [List.findIdx_eq (by simpa using hc)]
      simp
    rw [Set.mem_ofPred_eq, hiff]
    refine and_congr Iff.rfl ?_
    by_cases h0 : c = 0
    · subst h0
      simp
    · rw [if_neg h0]
      refine ⟨fun h => ?_, fun h j hj => lt_of_le_of_lt (cum_mono l (show j + 1 ≤ c by omega)) h⟩
      have := h (c - 1) (by omega)
      rwa [show c - 1 + 1 = c by omega] at this
  have hmeas : MeasurableSet {u | inverse u l = c} := by
    rw [hset]
    refine measurableSet_Iic.inter ?_
    split
    · exact MeasurableSet.univ
    · exact measurableSet_Ioi
  refine ⟨hmeas, ?_⟩
  have h0 : 0 ≤ cum l c := by
    have := cum_mono l (Nat.zero_le c)
    simpa [cum] using this
  have h1 : cum l (c + 1) ≤ 1 := by
    rw [← cum_last (by omega : 0 < l.length)]
    exact cum_mono l hc
  unfold uniform
  rw [Measure.restrict_apply hmeas, hset]
  have hi : Set.Iic (cum l (c + 1)) ∩ (if c = 0 then Set.univ else Set.Ioi (cum l c)) ∩ Set.Ioc 0 1 = Set.Ioc (cum l c) (cum l (c + 1)) := by
    ext u
    by_cases hz : c = 0
    · subst hz
      simp only [if_pos, Set.mem_inter_iff, Set.mem_Iic, Set.mem_univ, Set.mem_Ioc, and_true]
      have : cum l 0 = 0 := by simp [cum]
      rw [this]
      constructor
      · rintro ⟨a, b, d⟩
        exact ⟨b, a⟩
      · rintro ⟨a, b⟩
        exact ⟨b, a, b.trans h1⟩
    · simp only [if_neg hz, Set.mem_inter_iff, Set.mem_Iic, Set.mem_Ioi, Set.mem_Ioc]
      constructor
      · rintro ⟨⟨a, b⟩, d⟩
        exact ⟨b, a⟩
      · rintro ⟨a, b⟩
        exact ⟨⟨b, a⟩, lt_of_le_of_lt h0 a, b.trans h1⟩
  rw [hi, Real.volume_Ioc]
  congr 1
  unfold cum
  rw [Finset.sum_range_succ, add_sub_cancel_left]

theorem noise_independent : iIndepFun (fun (k : Key) (ω : Key → ℝ) => ω k) (Measure.infinitePi fun _ => uniform) := iIndepFun_infinitePi (X := fun _ u => u) fun _ => measurable_id

theorem noise_uniform (k : Key) : (Measure.infinitePi fun _ : Key => uniform).map (fun ω => ω k) = uniform := Measure.infinitePi_map_eval (fun _ => uniform) k

theorem noise_measurable (k : Key) : Measurable fun ω : Key → ℝ => ω k := measurable_pi_apply k

/-- C162: such noise exists, so the law of the samples is that of the model for an actual way of drawing. -/
theorem sample_law_inverse {S : Setting ℝ} (he : S.exp = Real.exp) {P : Params ℝ} {hs : Nat} (hP : P.Of S hs) (key : Key) {context : Arr Nat} {T : Nat} (hT : 0 < T) (hx : context.shape = [T]) {tokens : List Nat}
    (hc : ∀ c ∈ tokens, c < 128) :
    Measure.infinitePi (fun _ : Key => uniform) {ω | sample (withNoise S inverse (fun k ω => ω k) ω) hs key context tokens.length = .ok tokens} = ENNReal.ofReal (P.chain S hs (text context [] T) tokens) :=
  sample_law inverse_exact noise_measurable noise_uniform noise_independent he hP key hT hx hc

/-- C161: the loss and the sampling belong to the same model: the exponential of minus the loss, times the number of targets, is the product over the texts of the batch of the probabilities that `sample`, given their first characters,
returns the others. -/
theorem loss_is_sampling {U Ω : Type} [MeasurableSpace U] [MeasurableSpace Ω] {μ : Measure U} {pr : Measure Ω} {draw : U → List ℝ → Nat} (hd : Exact μ draw) {noise : Key → Ω → U} (hm : ∀ k, Measurable (noise k))
    (hlaw : ∀ k, pr.map (noise k) = μ) (hind : iIndepFun noise pr) {S : Setting ℝ} (he : S.exp = Real.exp) (hl : S.log = Real.log) {P : Params ℝ} {hs : Nat} (hP : P.Of S hs) (key : Key) {input target : Arr Nat} {T B : Nat} (hT : 0 < T)
    (hB : 0 < B) (hx : input.shape = [T, B]) (hy : target.shape = [T, B]) (hshift : ∀ b, b < B → ∀ t, t + 1 < T → input.val [t + 1, b] = target.val [t, b]) (hc : ∀ b, b < B → ∀ t, t < T → target.val [t, b] < 128) :
    ∃ loss, sequenceLoss S hs input target = .ok loss ∧
      ENNReal.ofReal (Real.exp (-(loss * (T * B)))) = ∏ b ∈ Finset.range B, pr {ω | sample (withNoise S draw noise ω) hs key ⟨[1], fun _ => input.val [0, b]⟩ T = .ok ((List.range T).map fun t => target.val [t, b])} := by
  obtain ⟨loss, e, h⟩ := loss_likelihood he hl hP hT hB hx hy hshift hc
  refine ⟨loss, e, ?_⟩
  have hie : IsExp S.exp := he ▸ real_exp
  have hnn : ∀ b ∈ Finset.range B, 0 ≤ P.chain S hs [input.val [0, b]] (column target b T) := fun b _ => Finset.prod_nonneg fun t _ => (prob_pos hie P hs _ _).le
  rw [h, ENNReal.ofReal_prod_of_nonneg hnn]
  refine Finset.prod_congr rfl fun b hb => ?_
  rw [Finset.mem_range] at hb
  have hlen : (column target b T).length = T := by unfold column text; rw [List.length_map, List.length_range]
  have := sample_law hd hm hlaw hind he hP key (context := ⟨[1], fun _ => input.val [0, b]⟩) (T := 1) (by decide) rfl (tokens := column target b T) (by
    intro c hcm
    unfold column text at hcm
    obtain ⟨t, ht, rfl⟩ := List.mem_map.mp hcm
    exact hc b hb t (List.mem_range.mp ht))
  rw [hlen] at this
  exact this.symm

/-! ### C163: the data -/

theorem chunks_eq {α : Type} {n : Nat} (hn : 0 < n) : ∀ (count : Nat) (xs : List α), xs.length ≤ count → chunks n count xs = (List.range (xs.length / n)).map fun c => (xs.drop (c * n)).take n
  | 0, xs, h => by
    obtain rfl : xs = [] := List.eq_nil_of_length_eq_zero (by omega)
    simp [chunks]
  | count + 1, xs, h => by
    unfold chunks
    by_cases hl : xs.length < n
    · rw [if_pos (.inl hl), Nat.div_eq_of_lt hl]
      rfl
    · rw [if_neg (by omega), chunks_eq hn count (xs.drop n) (by rw [List.length_drop]; omega), List.length_drop]
      obtain ⟨m, hm⟩ : ∃ m, xs.length / n = m + 1 := ⟨xs.length / n - 1, by have := Nat.div_pos (by omega : n ≤ xs.length) hn; omega⟩
      have hm' : (xs.length - n) / n = m := by
        have : xs.length / n = (xs.length - n) / n + 1 := by rw [Nat.div_eq_sub_div hn (by omega)]
        omega
      rw [hm, hm', List.range_succ_eq_map, List.map_cons, List.map_map, Nat.zero_mul, List.drop_zero]
      congr 1
      refine List.map_congr_left fun c _ => ?_
      rw [Function.comp, List.drop_drop, Nat.succ_mul, Nat.add_comm]

theorem mapM_bytes : ∀ bytes : List Nat, ((bytes.map fun b => [b]).mapM fun bs => match bs with | [b] => (.ok b : Except Err Nat) | _ => .error .value) = .ok bytes
  | [] => rfl
  | b :: bytes => by
    rw [List.map_cons, Verif.Props.Recurrent.mapM_cons, mapM_bytes bytes]
    rfl

theorem preprocess_ok (bytes : List Nat) : preprocess (bytes.map fun b => [b]) = .ok (bytes.dropLast.zip bytes.tail) := by
  unfold preprocess
  exact bind_eq (mapM_bytes bytes)

/-- C163: a text with a character that is not a single byte is an error. -/
theorem preprocess_rejects {txt : List (List Nat)} (h : ∃ bs ∈ txt, bs.length ≠ 1) : preprocess txt = .error .value := by
  unfold preprocess
  refine bind_err ?_
  induction txt with
  | nil => obtain ⟨bs, hb, _⟩ := h; cases hb
  | cons b txt ih =>
    rw [Verif.Props.Recurrent.mapM_cons]
    by_cases hb : b.length = 1
    · obtain ⟨x, rfl⟩ := List.length_eq_one_iff.mp hb
      obtain ⟨bs, hm, hl⟩ := h
      rcases List.mem_cons.mp hm with rfl | hm
      · exact absurd hb hl
      · rw [ih ⟨bs, hm, hl⟩]
        rfl
    · match b, hb with
      | [], _ => rfl
      | [x], hb => exact absurd rfl hb
      | _ :: _ :: _, _ => rfl

example : preprocess [[72], [195, 169]] = .error .value := preprocess_rejects ⟨[195, 169], by simp, by decide⟩

/-- C163: a text of `n` characters gives `(n - 1) / L` chunks of `L` inputs and targets.  Chunk `c` has the characters from `c * L` on as inputs, and each target is the character after its input. -/
theorem chunks_tile (bytes : List Nat) {L : Nat} (hL : 0 < L) :
    ∃ cs, examples [bytes.map fun b => [b]] L = .ok cs ∧ cs.length = (bytes.length - 1) / L ∧
      ∀ c, c < (bytes.length - 1) / L → (cs.getD c []).length = L ∧ ∀ i, i < L → (cs.getD c []).getD i (0, 0) = (bytes.getD (c * L + i) 0, bytes.getD (c * L + i + 1) 0) := by
  have hlen : (bytes.dropLast.zip bytes.tail).length = bytes.length - 1 := by simp
  refine ⟨(List.range ((bytes.length - 1) / L)).map fun c => ((bytes.dropLast.zip bytes.tail).drop (c * L)).take L, ?_, by simp, fun c hc => ?_⟩
  · unfold examples
    have : [bytes.map fun b => [b]].mapM preprocess = .ok [bytes.dropLast.zip bytes.tail] := by
      rw [Verif.Props.Recurrent.mapM_cons, preprocess_ok]
      rfl
    rw [bind_eq this]
    show Except.ok (chunks L ([bytes.dropLast.zip bytes.tail].flatten).length [bytes.dropLast.zip bytes.tail].flatten) = _
    rw [List.flatten_singleton, chunks_eq hL _ _ le_rfl, hlen]
  · have hcL : c * L + L ≤ bytes.length - 1 := by
      have := Nat.div_mul_le_self (bytes.length - 1) L
      have h2 : (c + 1) * L ≤ (bytes.length - 1) / L * L := Nat.mul_le_mul_right L hc
      rw [Nat.succ_mul] at h2
      omega
    have hget : ((List.range ((bytes.length - 1) / L)).map fun c => ((bytes.dropLast.zip bytes.tail).drop (c * L)).take L).getD c [] = ((bytes.dropLast.zip bytes.tail).drop (c * L)).take L := by
      rw [List.getD_eq_getElem?_getD, List.getElem?_eq_getElem (by simpa using hc)]
      simp
    rw [hget]
    refine ⟨by rw [List.length_take, List.length_drop, hlen]; omega, fun i hi => ?_⟩
    rw [List.getD_eq_getElem?_getD, List.getElem?_take_of_lt hi, List.getElem?_drop, List.getElem?_eq_getElem (by omega), Option.getD_some, List.getElem_zip, List.getElem_dropLast, List.getElem_tail,
      List.getD_eq_getElem?_getD, List.getElem?_eq_getElem (by omega), List.getD_eq_getElem?_getD, List.getElem?_eq_getElem (by omega)]
    rfl

example : examples [[72, 101, 108, 108, 111, 33].map fun b => [b]] 2 = .ok [[(72, 101), (101, 108)], [(108, 108), (108, 111)]] := by decide +kernel

theorem range_mul {α : Type} (f : Nat → α) (B : Nat) : ∀ m, ((List.range m).flatMap fun k => (List.range B).map fun j => f (k * B + j)) = (List.range (m * B)).map f
  | 0 => by simp
  | m + 1 => by
    rw [List.range_succ, List.flatMap_append, range_mul f B m, Nat.succ_mul, List.range_add, List.map_append]
    congr 1
    simp [Function.comp_def]

/-- C163: the batches one after the other are the epochs one after the other: no chunk is lost, repeated or moved where an epoch ends in the middle of a batch. -/
theorem batches_stream {α : Type} [Inhabited α] {n : Nat} {order : Nat → List α} (ho : ∀ e, (order e).length = n) (B m E : Nat) (h : m * B ≤ E * n) :
    (List.range m).flatMap (batch n order B) = ((List.range E).flatMap order).take (m * B) := by
  have h1 : (List.range m).flatMap (batch n order B) = (List.range (m * B)).map fun i => (order (i / n)).getD (i % n) default := range_mul (fun i => (order (i / n)).getD (i % n) default) B m
  have h2 : (List.range E).flatMap order = (List.range (E * n)).map fun i => (order (i / n)).getD (i % n) default := by
    rw [← range_mul]
    refine List.flatMap_congr fun e _ => ?_
    refine List.ext_getElem (by simp [ho]) fun i hi hi' => ?_
    have hin : i < n := by rw [ho] at hi; exact hi
    rw [List.getElem_map, List.getElem_range, Nat.mul_comm e n, Nat.mul_add_div (by omega), Nat.div_eq_of_lt hin, Nat.add_zero, Nat.mul_add_mod, Nat.mod_eq_of_lt hin, List.getD_eq_getElem?_getD, List.getElem?_eq_getElem hi]
    rfl
  rw [h1, h2, ← List.map_take, List.take_range, Nat.min_eq_left h]

/-- C163: if each epoch is the chunks in some order, then batches that make up whole epochs contain each chunk once per epoch. -/
theorem batches_epochs {α : Type} [Inhabited α] {cs : List α} {order : Nat → List α} (ho : ∀ e, (order e).Perm cs) (B m E : Nat) (h : m * B = E * cs.length) :
    ((List.range m).flatMap (batch cs.length order B)).Perm (List.replicate E cs).flatten := by
  rw [batches_stream (fun e => (ho e).length_eq) B m E h.le, List.take_of_length_le (by simp [List.length_flatMap, (fun e => (ho e).length_eq), h])]
  clear h
  induction E with
  | zero => simp
  | succ E ih =>
    rw [List.range_succ, List.flatMap_append, List.replicate_succ', List.flatten_append]
    exact ih.append (by simpa using ho E)

/-- An order for three chunks: they are rotated. -/
def rotated (e : Nat) : List Nat := [10, 20, 30].rotate e

example : ((List.range 3).flatMap (batch 3 rotated 2)).Perm (List.replicate 2 [10, 20, 30]).flatten := batches_epochs (cs := [10, 20, 30]) (fun e => List.rotate_perm _ e) 2 3 2 rfl

example : (List.range 3).map (batch 3 rotated 2) = [[10, 20], [30, 20], [30, 10]] := by decide +kernel

/-- C163: the arrays of a batch of chunks are time major: text `b` of the batch is its chunk number `b`, and each target is the next input. -/
theorem batch_arrays (bytes : List Nat) {L : Nat} (hL : 0 < L) {cs : List (List (Nat × Nat))} (hcs : examples [bytes.map fun b => [b]] L = .ok cs) (idx : List Nat) (hidx : ∀ c ∈ idx, c < cs.length) :
    let b := timeMajor L (idx.map fun c => cs.getD c [])
    b.1.shape = [L, idx.length] ∧ b.2.shape = [L, idx.length] ∧
      ∀ j, j < idx.length → ∀ t, t < L → b.1.val [t, j] = bytes.getD (idx.getD j 0 * L + t) 0 ∧ b.2.val [t, j] = bytes.getD (idx.getD j 0 * L + t + 1) 0 := by
  obtain ⟨cs', e, hl, h⟩ := chunks_tile bytes hL
  rw [e] at hcs
  cases hcs
  refine ⟨by simp [timeMajor], by simp [timeMajor], fun j hj t ht => ?_⟩
  have hmem : idx.getD j 0 ∈ idx := by
    rw [List.getD_eq_getElem?_getD, List.getElem?_eq_getElem hj]
    exact List.getElem_mem _
  have hv := (h (idx.getD j 0) (by rw [← hl]; exact hidx _ hmem)).2 t ht
  have hg : (idx.map fun c => cs.getD c []).getD j [] = cs.getD (idx.getD j 0) [] := by
    rw [List.getD_eq_getElem?_getD, List.getElem?_map, List.getElem?_eq_getElem hj, List.getD_eq_getElem?_getD (l := idx), List.getElem?_eq_getElem hj]
    rfl
  constructor
  · show (((idx.map fun c => cs.getD c []).getD j []).getD t (0, 0)).1 = _
    rw [hg, hv]
  · show (((idx.map fun c => cs.getD c []).getD j []).getD t (0, 0)).2 = _
    rw [hg, hv]

theorem list_prod {M : Type} [CommMonoid M] (f : Nat → M) : ∀ l : List Nat, (l.map f).prod = ∏ j ∈ Finset.range l.length, f (l.getD j 0)
  | [] => rfl
  | a :: l => by
    rw [List.map_cons, List.prod_cons, List.length_cons, Finset.prod_range_succ', list_prod f l, mul_comm]
    rfl

/-- C161: training on a batch of chunks of a text: the exponential of minus the loss, times the number of targets, is the product over the chunks of the probability of continuing the first character of the chunk with the `L` characters
that follow it in the text. -/
theorem data_likelihood {S : Setting ℝ} (he : S.exp = Real.exp) (hl : S.log = Real.log) {P : Params ℝ} {hs : Nat} (hP : P.Of S hs) {bytes : List Nat} (hb : ∀ c ∈ bytes, c < 128) {L : Nat} (hL : 0 < L) {cs : List (List (Nat × Nat))}
    (hcs : examples [bytes.map fun b => [b]] L = .ok cs) (idx : List Nat) (hidx : ∀ c ∈ idx, c < cs.length) (hne : idx ≠ []) :
    ∃ loss, sequenceLoss S hs (timeMajor L (idx.map fun c => cs.getD c [])).1 (timeMajor L (idx.map fun c => cs.getD c [])).2 = .ok loss ∧
      Real.exp (-(loss * (L * idx.length))) = (idx.map fun c => P.chain S hs [bytes.getD (c * L) 0] ((bytes.drop (c * L + 1)).take L)).prod := by
  obtain ⟨s1, s2, hv⟩ := batch_arrays bytes hL hcs idx hidx
  obtain ⟨cs', e, hlen, h⟩ := chunks_tile bytes hL
  have hpos : 0 < idx.length := List.length_pos_of_ne_nil hne
  obtain ⟨loss, e1, h1⟩ := loss_likelihood he hl hP hL hpos s1 s2 (fun j hj t ht => by rw [(hv j hj (t + 1) ht).1, (hv j hj t (by omega)).2]; rfl) (fun j hj t ht => by
    rw [(hv j hj t ht).2, List.getD_eq_getElem?_getD]
    cases hg : bytes[idx.getD j 0 * L + t + 1]? with
    | none => decide
    | some c => exact hb c (List.mem_of_getElem? hg))
  refine ⟨loss, e1, h1.trans ?_⟩
  rw [list_prod]
  refine Finset.prod_congr rfl fun j hj => ?_
  rw [Finset.mem_range] at hj
  have hmem : idx.getD j 0 ∈ idx := by
    rw [List.getD_eq_getElem?_getD, List.getElem?_eq_getElem hj]
    exact List.getElem_mem _
  have hlt := hidx _ hmem
  rw [e] at hcs
  cases hcs
  rw [hlen] at hlt
  have hcL : idx.getD j 0 * L + L ≤ bytes.length - 1 := by
    have := Nat.div_mul_le_self (bytes.length - 1) L
    have h2 : (idx.getD j 0 + 1) * L ≤ (bytes.length - 1) / L * L := Nat.mul_le_mul_right L hlt
    rw [Nat.succ_mul] at h2
    omega
  rw [(hv j hj 0 hL).1, Nat.add_zero]
  congr 1
  unfold column text
  refine List.ext_getElem (by rw [List.length_map, List.length_range, List.length_take, List.length_drop]; omega) fun i hi hi' => ?_
  have hiL : i < L := by rw [List.length_map, List.length_range] at hi; exact hi
  rw [List.getElem_map, List.getElem_range, (hv j hj i hiL).2, List.getElem_take, List.getElem_drop, List.getD_eq_getElem?_getD (l := bytes), List.getElem?_eq_getElem (by omega)]
  simp only [Option.getD_some]
  congr 1
  omega

/-! ### Examples -/

/-- Real parameters. -/
noncomputable def realGet : ParamFn ℝ := fun md nm s => .ok ⟨s, fun i => ((md.length + nm.length + i.sum : Nat) : ℝ)⟩

/-- Their arrays. -/
noncomputable def realParams (hs : Nat) : Params ℝ :=
  ⟨⟨[128 + hs, 4 * hs], fun i => (("lstm/linear".length + "w".length + i.sum : Nat) : ℝ)⟩, ⟨[4 * hs], fun i => (("lstm/linear".length + "b".length + i.sum : Nat) : ℝ)⟩,
   ⟨[hs + hs, 4 * hs], fun i => (("lstm_1/linear".length + "w".length + i.sum : Nat) : ℝ)⟩, ⟨[4 * hs], fun i => (("lstm_1/linear".length + "b".length + i.sum : Nat) : ℝ)⟩,
   ⟨[hs, hs], fun i => (("mlp/~/linear_0".length + "w".length + i.sum : Nat) : ℝ)⟩, ⟨[hs], fun i => (("mlp/~/linear_0".length + "b".length + i.sum : Nat) : ℝ)⟩,
   ⟨[hs, 128], fun i => (("mlp/~/linear_1".length + "w".length + i.sum : Nat) : ℝ)⟩, ⟨[128], fun i => (("mlp/~/linear_1".length + "b".length + i.sum : Nat) : ℝ)⟩⟩

/-- Real functions. -/
noncomputable def real : Setting ℝ := ⟨realGet, fun x => 1 / (1 + Real.exp (-x)), fun x => x / (1 + |x|), Real.exp, Real.log, fun _ _ => 0⟩

theorem real_params (hs : Nat) : (realParams hs).Of real hs := ⟨⟨rfl, rfl⟩, ⟨rfl, rfl⟩, ⟨rfl, rfl⟩, ⟨rfl, rfl⟩, ⟨rfl, rfl⟩, ⟨rfl, rfl⟩, ⟨rfl, rfl⟩, ⟨rfl, rfl⟩⟩

example : sequenceLoss real 3 ⟨[2, 2], fun i => 65 + i.sum⟩ ⟨[2, 2], fun i => 66 + i.sum⟩ = .ok ((∑ t ∈ Finset.range 2, ∑ b ∈ Finset.range 2, (realParams 3).surprise real 3 (text ⟨[2, 2], fun i => 65 + i.sum⟩ [b] (t + 1)) (66 + (t + (b + 0)))) / ((2 : Nat) * (2 : Nat))) :=
  loss_value real_exp real_log (real_params 3) (T := 2) (B := 2) (by decide) (by decide) rfl rfl

example : sequenceLoss real 3 ⟨[2], fun i => 65 + i.sum⟩ ⟨[2], fun i => 66 + i.sum⟩ = .error .value := loss_rejects _ _ _ _ (by decide)

example : ∃ loss, sequenceLoss real 3 ⟨[2, 2], fun i => 65 + i.sum⟩ ⟨[2, 2], fun i => 66 + i.sum⟩ = .ok loss ∧
    Real.exp (-(loss * ((2 : Nat) * (2 : Nat)))) = ∏ b ∈ Finset.range 2, (realParams 3).chain real 3 [65 + (0 + (b + 0))] (column ⟨[2, 2], fun i => 66 + i.sum⟩ b 2) :=
  loss_likelihood rfl rfl (real_params 3) (T := 2) (B := 2) (by decide) (by decide) rfl rfl (fun b _ t _ => by simp only [List.sum_cons, List.sum_nil]; omega) (fun b hb t ht => by simp only [List.sum_cons, List.sum_nil]; omega)

example : ∑ f : Fin 3 → Fin 128, (realParams 3).chain real 3 [72] (List.ofFn fun i => (f i).val) = 1 := chain_sum real_exp (realParams 3) 3 3 [72]

example : Measure.infinitePi (fun _ : Key => uniform) {ω | sample (withNoise real inverse (fun k ω => ω k) ω) 3 (.root 42) ⟨[1], fun _ => 72⟩ 3 = .ok [105, 33, 10]} = ENNReal.ofReal ((realParams 3).chain real 3 [72] [105, 33, 10]) :=
  sample_law_inverse rfl (real_params 3) (.root 42) (T := 1) (by decide) rfl (tokens := [105, 33, 10]) (by decide)

example : ∃ loss, sequenceLoss real 3 (timeMajor 2 ([1, 0].map fun c => [[(72, 101), (101, 108)], [(108, 108), (108, 111)]].getD c [])).1 (timeMajor 2 ([1, 0].map fun c => [[(72, 101), (101, 108)], [(108, 108), (108, 111)]].getD c [])).2 = .ok loss ∧
    Real.exp (-(loss * ((2 : Nat) * (2 : Nat)))) = ([1, 0].map fun c => (realParams 3).chain real 3 [[72, 101, 108, 108, 111, 33].getD (c * 2) 0] (([72, 101, 108, 108, 111, 33].drop (c * 2 + 1)).take 2)).prod :=
  data_likelihood rfl rfl (real_params 3) (bytes := [72, 101, 108, 108, 111, 33]) (by decide) (L := 2) (by decide) (by decide +kernel) [1, 0] (by decide) (by decide)

example : ∃ loss, sequenceLoss real 3 ⟨[2, 2], fun i => 65 + i.sum⟩ ⟨[2, 2], fun i => 66 + i.sum⟩ = .ok loss ∧
    ENNReal.ofReal (Real.exp (-(loss * ((2 : Nat) * (2 : Nat))))) = ∏ b ∈ Finset.range 2, Measure.infinitePi (fun _ : Key => uniform)
      {ω | sample (withNoise real inverse (fun k ω => ω k) ω) 3 (.root 42) ⟨[1], fun _ => 65 + (0 + (b + 0))⟩ 2 = .ok ((List.range 2).map fun t => 66 + (t + (b + 0)))} :=
  loss_is_sampling inverse_exact noise_measurable noise_uniform noise_independent rfl rfl (real_params 3) (.root 42) (T := 2) (B := 2) (by decide) (by decide) rfl rfl
    (fun b _ t _ => by simp only [List.sum_cons, List.sum_nil]; omega) (fun b hb t ht => by simp only [List.sum_cons, List.sum_nil]; omega)

example : (realParams 3).surprise real 3 (text ⟨[3, 1], fun i => 65 + i.sum⟩ [0] 2) 70 = (realParams 3).surprise real 3 (text ⟨[3, 1], fun i => if i.headD 0 = 2 then 99 else 65 + i.sum⟩ [0] 2) 70 :=
  prob_causal _ _ _ (t := 1) (fun i hi => by
    have : ¬ i = 2 := by omega
    simp [this]) 70

example : (realParams 3).chain real 3 [72] ([105] ++ [33]) = (realParams 3).chain real 3 [72] [105] * (realParams 3).chain real 3 [72, 105] [33] := chain_append _ _ _ _ _ _

end Verif.Props.CharRnn
