import Mathlib.Analysis.SpecialFunctions.Log.Basic
import Mathlib.Algebra.BigOperators.Intervals
import Mathlib.Algebra.Order.Field.Basic
import Verif.Model.Mnist
import Verif.Props.Transformer

/-!
# The MNIST example (C177, C178)
-/

set_option linter.unusedVariables false
set_option linter.unusedSectionVars false

namespace Verif.Props.Mnist
open Verif.Pool (Arr)
open Verif.Transformer (logSoftmax)
open Verif.Props.Attention (IsExp weight stable stable_weight real_exp)
open Verif.Mnist

variable {K I O : Type}

/-! ### C177: the data and the loss -/

/-- C177 a batch for evaluation is the next section of the data, which starts again after the last. -/
theorem batch_section {α : Type} [Inhabited α] {data : List α} {b m : Nat} (hm : 0 < m) (h : data.length = m * b) (k : Nat) : evalBatch data b k = (data.drop (k % m * b)).take b := by
  unfold evalBatch repeated
  refine List.ext_getElem? fun j => ?_
  rw [List.getElem?_map, List.getElem?_take]
  by_cases hj : j < b
  · rw [if_pos hj, List.getElem?_range hj, List.getElem?_drop]
    have hk : k % m < m := Nat.mod_lt _ hm
    have hlt : k % m * b + j < data.length := by
      rw [h]
      calc k % m * b + j < k % m * b + b := by omega
        _ = (k % m + 1) * b := by rw [Nat.add_mul, Nat.one_mul]
        _ ≤ m * b := Nat.mul_le_mul_right _ hk
    have e : (k * b + j) % data.length = k % m * b + j := by
      have : k * b + j = (k % m * b + j) + m * b * (k / m) := by
        conv_lhs => rw [← Nat.mod_add_div k m]
        rw [Nat.add_mul, Nat.mul_right_comm]
        omega
      rw [h] at hlt ⊢
      rw [this, Nat.add_mul_mod_self_left, Nat.mod_eq_of_lt hlt]
    show some (data.getD ((k * b + j) % data.length) default) = _
    rw [e, List.getD_eq_getElem?_getD, List.getElem?_eq_getElem hlt]
    rfl
  · rw [if_neg hj, List.getElem?_eq_none (by simpa using hj)]
    rfl

/-- C177 if the data is one batch, each batch is the data. -/
theorem batch_whole {α : Type} [Inhabited α] (data : List α) (k : Nat) : evalBatch data data.length k = data := by
  rw [batch_section (m := 1) Nat.one_pos (Nat.one_mul _).symm, Nat.mod_one, Nat.zero_mul, List.drop_zero, List.take_length]

/-- C177 as many batches in a row as the data has sections contain each element of the data exactly as often as the data. -/
theorem batches_cover {α : Type} [Inhabited α] {data : List α} {b m : Nat} (hm : 0 < m) (h : data.length = m * b) : ((List.range m).map (evalBatch data b)).flatten = data := by
  have key : ∀ n ≤ m, ((List.range n).map (evalBatch data b)).flatten = data.take (n * b) := by
    intro n
    induction n with
    | zero => intro _; simp
    | succ n ih =>
      intro hn
      rw [List.range_succ, List.map_append, List.flatten_append, ih (by omega), List.map_singleton, List.flatten_singleton, batch_section hm h, Nat.mod_eq_of_lt (by omega), Nat.add_mul, Nat.one_mul, List.take_add]
  rw [key m le_rfl, ← h, List.take_length]

/-- The probability of a class under logits. -/
noncomputable def prob (logits : Arr ℝ) (b c : Nat) : ℝ := Real.exp (logits.val [b, c]) / ∑ j ∈ Finset.range 10, Real.exp (logits.val [b, j])

theorem sum_exp_pos (l : Nat → ℝ) : 0 < ∑ i ∈ Finset.range 10, Real.exp (l i) := Finset.sum_pos (fun i _ => Real.exp_pos _) ⟨0, Finset.mem_range.mpr (by norm_num)⟩

theorem logSoftmax_eq (logits : Arr ℝ) (b c : Nat) : (logSoftmax Real.exp Real.log 10 logits).val [b, c] = Real.log (prob logits b c) := by
  have : prob logits b c = weight Real.exp 10 (fun j => logits.val [b, j]) c := rfl
  rw [this, ← stable_weight real_exp]
  unfold stable
  rw [Real.log_div (Real.exp_pos _).ne' (sum_exp_pos _).ne', Real.log_exp]
  rfl

/-- The sum of the squares of all elements of the parameters. -/
noncomputable def squares : Params ℝ → ℝ
  | [] => 0
  | p :: ps => (p.map fun x => x * x).sum + squares ps

/-- C177 the loss is the mean over the batch of the negative logarithm of the probability of the label, plus a twenty thousandth of the sum of squares of the parameters. -/
theorem loss_eq (logits : Arr ℝ) (labels : List Nat) (params : Params ℝ) (hl : ∀ y ∈ labels, y < 10) :
    loss Real.exp Real.log logits labels params = (∑ b ∈ Finset.range labels.length, -Real.log (prob logits b (labels.getD b 0))) / labels.length + squares params / 20000 := by
  have hsq : ∀ ps : Params ℝ, (ps.map fun p => (p.map fun x => x ^ 2).sum).sum = squares ps := by
    intro ps
    induction ps with
    | nil => rfl
    | cons p ps ih =>
      rw [List.map_cons, List.sum_cons, ih]
      show _ = (p.map fun x => x * x).sum + squares ps
      simp only [sq]
  unfold loss
  dsimp only
  rw [hsq, ← Finset.sum_neg_distrib]
  have : ∀ b ∈ Finset.range labels.length, -∑ c ∈ Finset.range 10, (oneHot labels).val [b, c] * (logSoftmax Real.exp Real.log 10 logits).val [b, c] = -Real.log (prob logits b (labels.getD b 0)) := by
    intro b hb
    rw [Finset.mem_range] at hb
    have hy : labels.getD b 0 < 10 := by
      rw [List.getD_eq_getElem?_getD, List.getElem?_eq_getElem hb]
      exact hl _ (List.getElem_mem hb)
    congr 1
    rw [Finset.sum_eq_single_of_mem (labels.getD b 0) (Finset.mem_range.2 hy)]
    · rw [logSoftmax_eq]
      show (if labels.getD b 0 = labels.getD b 0 then (1 : ℝ) else 0) * _ = _
      rw [if_pos rfl, one_mul]
    · intro c _ hc
      show (if labels.getD b 0 = c then (1 : ℝ) else 0) * _ = _
      rw [if_neg (Ne.symm hc), zero_mul]
  rw [Finset.sum_congr rfl this]
  ring

/-- C177 the loss is never negative. -/
theorem loss_nonneg (logits : Arr ℝ) (labels : List Nat) (params : Params ℝ) (hl : ∀ y ∈ labels, y < 10) : 0 ≤ loss Real.exp Real.log logits labels params := by
  rw [loss_eq logits labels params hl]
  have hs : 0 ≤ squares params := by
    induction params with
    | nil => exact le_rfl
    | cons p ps ih =>
      unfold squares
      refine add_nonneg (List.sum_nonneg fun x hx => ?_) ih
      obtain ⟨y, -, rfl⟩ := List.mem_map.1 hx
      exact mul_self_nonneg y
  refine add_nonneg (div_nonneg (Finset.sum_nonneg fun b hb => ?_) (Nat.cast_nonneg _)) (div_nonneg hs (by norm_num))
  have hy : labels.getD b 0 < 10 := by
    rw [List.getD_eq_getElem?_getD, List.getElem?_eq_getElem (Finset.mem_range.1 hb)]
    exact hl _ (List.getElem_mem _)
  refine neg_nonneg.2 (Real.log_nonpos (div_nonneg (Real.exp_pos _).le (sum_exp_pos _).le) ((div_le_one (sum_exp_pos _)).2 ?_))
  exact Finset.single_le_sum (f := fun j => Real.exp (logits.val [b, j])) (fun j _ => (Real.exp_pos _).le) (Finset.mem_range.2 hy)

/-- A class is predicted: it is the first of those with the largest logit. -/
def Predicted [LinearOrder K] (f : Nat → K) (c : Nat) : Prop := c < 10 ∧ (∀ j < 10, f j ≤ f c) ∧ ∀ j < c, f j < f c

theorem argmax_predicted [LinearOrder K] (f : Nat → K) : Predicted f (argmax f) := by
  have key : ∀ n, let m := (List.range (n + 1)).foldl (fun best j => if f best < f j then j else best) 0
      m < n + 1 ∧ (∀ j < n + 1, f j ≤ f m) ∧ ∀ j < m, f j < f m := by
    intro n
    induction n with
    | zero =>
      refine ⟨by simp, fun j hj => ?_, fun j hj => ?_⟩
      · have : j = 0 := by omega
        subst this
        simp
      · simp at hj
    | succ n ih =>
      dsimp only at ih ⊢
      rw [List.range_succ, List.foldl_append, List.foldl_cons, List.foldl_nil]
      generalize (List.range (n + 1)).foldl (fun best j => if f best < f j then j else best) 0 = m at ih ⊢
      obtain ⟨h1, h2, h3⟩ := ih
      by_cases h : f m < f (n + 1)
      · rw [if_pos h]
        refine ⟨by omega, fun j hj => ?_, fun j hj => lt_of_le_of_lt (h2 j hj) h⟩
        rcases Nat.lt_succ_iff_lt_or_eq.1 hj with hj | rfl
        · exact (lt_of_le_of_lt (h2 j hj) h).le
        · exact le_rfl
      · rw [if_neg h]
        refine ⟨by omega, fun j hj => ?_, h3⟩
        rcases Nat.lt_succ_iff_lt_or_eq.1 hj with hj | rfl
        · exact h2 j hj
        · exact not_lt.1 h
  exact key 9

theorem predicted_unique [LinearOrder K] {f : Nat → K} {a b : Nat} (ha : Predicted f a) (hb : Predicted f b) : a = b := by
  rcases Nat.lt_trichotomy a b with h | h | h
  · exact absurd (ha.2.1 b hb.1) (not_le.2 (hb.2.2 a h))
  · exact h
  · exact absurd (hb.2.1 a ha.1) (not_le.2 (ha.2.2 b h))

open Classical in
/-- The fraction of the examples whose class is predicted. -/
noncomputable def fraction [Field K] [LinearOrder K] (logits : I → Nat → K) (data : List (I × Nat)) : K := ((data.filter fun p => decide (Predicted (logits p.1) p.2)).length : K) / (data.length : K)

/-- C177 the accuracy is the fraction of the examples whose label is the first of the most probable classes. -/
theorem accuracy_eq [Field K] [LinearOrder K] (logits : I → Nat → K) (batch : List (I × Nat)) : accuracy logits batch = fraction logits batch := by
  unfold accuracy fraction
  congr 1
  induction batch with
  | nil => simp
  | cons p l ih =>
    rw [List.map_cons, List.sum_cons, ih, List.filter_cons]
    by_cases h : argmax (logits p.1) = p.2
    · rw [if_pos (by simpa using h), if_pos (by simpa using h ▸ argmax_predicted (logits p.1)), List.length_cons]
      push_cast
      ring
    · rw [if_neg (by simpa using h), if_neg (by simpa using fun h' => h (predicted_unique (argmax_predicted _) h'))]
      ring

/-! ### C178: training -/

/-- Training alone: the parameters and the state of the optimiser after some updates, on the batches after the first. -/
def trained (L : Learner K I O) (train : Nat → List (I × Nat)) : Nat → Params K × O
  | 0 => (L.init (train 0), L.optInit (L.init (train 0)))
  | n + 1 => L.update (trained L train n).1 (trained L train n).2 (train (n + 1))

/-- The average alone. -/
def averaged [Field K] (L : Learner K I O) (epsilon : K) (train : Nat → List (I × Nat)) : Nat → Params K
  | 0 => (trained L train 0).1
  | n + 1 => emaUpdate epsilon (averaged L epsilon train n) (trained L train (n + 1)).1

section
variable [Field K] [LinearOrder K] [Inhabited I] (L : Learner K I O) (every evalSize : Nat) (epsilon : K) (train : Nat → List (I × Nat)) (trainSet testSet : List (I × Nat))

theorem run_succ (n : Nat) : run L every evalSize epsilon train trainSet testSet (n + 1) = body L every evalSize epsilon train trainSet testSet (run L every evalSize epsilon train trainSet testSet n) n := by
  unfold run
  rw [List.range_succ, List.foldl_append]
  rfl

/-- How many evaluations there are before a step. -/
def evaluations (every n : Nat) : Nat := ((List.range n).filter fun t => t % every == 0).length

/-- C178 whatever is evaluated, the parameters are those of training alone: each update takes the next batch, the first of which is used for the initial parameters only, and the average has no influence. -/
theorem run_state (n : Nat) : let s := run L every evalSize epsilon train trainSet testSet n
    s.params = (trained L train n).1 ∧ s.optState = (trained L train n).2 ∧ s.trainPos = n + 1 ∧ s.avgParams = averaged L epsilon train n ∧ s.evalPos = evaluations every n := by
  induction n with
  | zero => exact ⟨rfl, rfl, rfl, rfl, rfl⟩
  | succ n ih =>
    dsimp only at ih ⊢
    rw [run_succ]
    generalize run L every evalSize epsilon train trainSet testSet n = s at ih ⊢
    obtain ⟨h1, h2, h3, h4, h5⟩ := ih
    unfold body
    have he : evaluations every (n + 1) = evaluations every n + if n % every == 0 then 1 else 0 := by
      unfold evaluations
      rw [List.range_succ, List.filter_append, List.length_append]
      by_cases h : (n % every == 0) = true
      · simp [h]
      · simp [h]
    rw [he]
    by_cases h : (n % every == 0) = true
    · rw [if_pos h, if_pos h]
      dsimp only
      rw [h1, h2, h3, h4, h5]
      exact ⟨rfl, rfl, rfl, rfl, rfl⟩
    · rw [if_neg h, if_neg h]
      dsimp only
      rw [h1, h2, h3, h4, h5]
      exact ⟨rfl, rfl, rfl, rfl, rfl⟩

/-- C178 what is printed: at every step that is a multiple of the period, the accuracy of the average at this step on the next section of the training set and on the test set. -/
theorem run_printed (n : Nat) : (run L every evalSize epsilon train trainSet testSet n).printed =
    ((List.range n).filter fun t => t % every == 0).map fun t =>
      (t, fraction (L.net (averaged L epsilon train t)) (evalBatch trainSet evalSize (evaluations every t)), fraction (L.net (averaged L epsilon train t)) (evalBatch testSet evalSize (evaluations every t))) := by
  induction n with
  | zero => rfl
  | succ n ih =>
    obtain ⟨-, -, -, h4, h5⟩ := run_state L every evalSize epsilon train trainSet testSet n
    rw [run_succ, List.range_succ, List.filter_append, List.map_append, ← ih]
    generalize run L every evalSize epsilon train trainSet testSet n = s at h4 h5 ⊢
    unfold body
    by_cases h : (n % every == 0) = true
    · rw [if_pos h, List.filter_cons, if_pos h]
      dsimp only
      rw [h4, h5, accuracy_eq, accuracy_eq]
      rfl
    · rw [if_neg h, List.filter_cons, if_neg h]
      dsimp only
      simp
end

theorem multiples {e : Nat} (he : 0 < e) (k : Nat) : (List.range (k * e)).filter (fun t => t % e == 0) = (List.range k).map (· * e) := by
  induction k with
  | zero => simp
  | succ k ih =>
    rw [Nat.add_mul, Nat.one_mul, List.range_add, List.filter_append, ih, List.range_succ, List.map_append]
    congr 1
    rw [List.filter_map]
    have : (List.range e).filter ((fun t => t % e == 0) ∘ fun x => k * e + x) = [0] := by
      obtain ⟨e', rfl⟩ : ∃ e', e = e' + 1 := ⟨e - 1, by omega⟩
      rw [List.range_succ_eq_map, List.filter_cons, if_pos (by simp)]
      congr 1
      refine List.filter_eq_nil_iff.2 fun x hx => ?_
      obtain ⟨y, hy, rfl⟩ := List.mem_map.1 hx
      rw [List.mem_range] at hy
      simp only [Function.comp_apply, Nat.mul_add_mod_self_right, beq_iff_eq]
      rw [Nat.mod_eq_of_lt (by omega)]
      omega
    rw [this]
    simp

theorem evaluations_eq {e : Nat} (he : 0 < e) (k : Nat) : evaluations e (k * e) = k := by
  unfold evaluations
  rw [multiples he, List.length_map, List.length_range]

/-- C178 the example prints eleven times, at the steps 0, 1000, …, 10000.  Each time it prints the accuracy of the average of this step on the whole test set of 10000 images, and that on one sixth of the training set of 60000
images, in turn. -/
theorem main_printed [Field K] [LinearOrder K] [Inhabited I] (L : Learner K I O) (train : Nat → List (I × Nat)) {trainSet testSet : List (I × Nat)} (h1 : trainSet.length = 60000) (h2 : testSet.length = 10000) :
    (main L train trainSet testSet).printed = (List.range 11).map fun k =>
      (k * 1000, fraction (L.net (averaged L (1 / 1000) train (k * 1000))) ((trainSet.drop (k % 6 * 10000)).take 10000), fraction (L.net (averaged L (1 / 1000) train (k * 1000))) testSet) := by
  unfold main
  rw [run_printed, show (10001 : Nat) = 10 * 1000 + 1 from rfl, List.range_succ, List.filter_append, multiples (by norm_num), List.filter_cons, if_pos (by decide), List.filter_nil]
  rw [show (List.range 10).map (· * 1000) ++ [10 * 1000] = (List.range 11).map (· * 1000) from rfl, List.map_map]
  refine List.map_congr_left fun k _ => ?_
  dsimp only [Function.comp_apply]
  rw [evaluations_eq (by norm_num), batch_section (m := 6) (by norm_num) (by rw [h1])]
  have := batch_whole testSet k
  rw [h2] at this
  rw [this]

/-- An element of the parameters. -/
def entry [Zero K] (p : Params K) (i j : Nat) : K := (p.getD i []).getD j 0

theorem entry_ema [Field K] (epsilon : K) {a b : Params K} (h : a.map List.length = b.map List.length) (i j : Nat) : entry (emaUpdate epsilon a b) i j = (1 - epsilon) * entry a i j + epsilon * entry b i j := by
  have key : ∀ (x y : List K) (j : Nat), x.length = y.length → (List.zipWith (fun p1 p2 => (1 - epsilon) * p1 + epsilon * p2) x y).getD j 0 = (1 - epsilon) * x.getD j 0 + epsilon * y.getD j 0 := by
    intro x
    induction x with
    | nil =>
      intro y j h
      rw [List.eq_nil_of_length_eq_zero h.symm]
      simp
    | cons p x ih =>
      intro y j h
      cases y with
      | nil => simp at h
      | cons q y =>
        cases j with
        | zero => simp
        | succ j =>
          have := ih y j (by simpa using h)
          simpa using this
  unfold entry emaUpdate
  induction a generalizing b i with
  | nil =>
    cases b with
    | nil => simp
    | cons y b => simp at h
  | cons x a ih =>
    cases b with
    | nil => simp at h
    | cons y b =>
      rw [List.map_cons, List.map_cons, List.cons.injEq] at h
      cases i with
      | zero => simpa using key x y j h.1
      | succ i => simpa using ih h.2 i

theorem shape_ema [Field K] (epsilon : K) {a b : Params K} (h : a.map List.length = b.map List.length) : (emaUpdate epsilon a b).map List.length = b.map List.length := by
  unfold emaUpdate
  induction a generalizing b with
  | nil =>
    cases b with
    | nil => rfl
    | cons y b => simp at h
  | cons x a ih =>
    cases b with
    | nil => simp at h
    | cons y b =>
      rw [List.map_cons, List.map_cons, List.cons.injEq] at h
      rw [List.zipWith_cons_cons, List.map_cons, List.map_cons, ih h.2, List.length_zipWith, h.1, Nat.min_self]

/-- The optimiser keeps the shapes of the parameters. -/
def Shaped (L : Learner K I O) (train : Nat → List (I × Nat)) : Prop := ∀ n, (trained L train n).1.map List.length = (trained L train 0).1.map List.length

theorem averaged_shape [Field K] {L : Learner K I O} {train : Nat → List (I × Nat)} (h : Shaped L train) (epsilon : K) (n : Nat) : (averaged L epsilon train n).map List.length = (trained L train 0).1.map List.length := by
  induction n with
  | zero => rfl
  | succ n ih =>
    show (emaUpdate epsilon _ _).map _ = _
    rw [shape_ema epsilon (by rw [ih, h (n + 1)]), h (n + 1)]

/-- C178 the parameters that are evaluated are a weighted sum of those of all steps: the weight of a step falls by the factor `1 - epsilon` with each later one, and is `epsilon` for the last. -/
theorem averaged_eq [Field K] {L : Learner K I O} {train : Nat → List (I × Nat)} (h : Shaped L train) (epsilon : K) (i j n : Nat) :
    entry (averaged L epsilon train n) i j = (1 - epsilon) ^ n * entry (trained L train 0).1 i j + ∑ t ∈ Finset.range n, epsilon * (1 - epsilon) ^ (n - 1 - t) * entry (trained L train (t + 1)).1 i j := by
  induction n with
  | zero => simp [averaged]
  | succ n ih =>
    show entry (emaUpdate epsilon _ _) i j = _
    rw [entry_ema epsilon (by rw [averaged_shape h, h (n + 1)]), ih, Finset.sum_range_succ, Nat.add_sub_cancel, Nat.sub_self, pow_zero, mul_one, mul_add, Finset.mul_sum, add_assoc, ← mul_assoc, ← pow_succ']
    congr 2
    refine Finset.sum_congr rfl fun t ht => ?_
    rw [Finset.mem_range] at ht
    rw [show n - t = n - 1 - t + 1 by omega, pow_succ]
    ring

/-- C178 the weights sum to 1. -/
theorem weights_sum [Field K] (epsilon : K) (n : Nat) : (1 - epsilon) ^ n + ∑ t ∈ Finset.range n, epsilon * (1 - epsilon) ^ (n - 1 - t) = 1 := by
  induction n with
  | zero => simp
  | succ n ih =>
    rw [Finset.sum_range_succ, Nat.add_sub_cancel, Nat.sub_self, pow_zero, mul_one]
    have : ∑ t ∈ Finset.range n, epsilon * (1 - epsilon) ^ (n - t) = (1 - epsilon) * ∑ t ∈ Finset.range n, epsilon * (1 - epsilon) ^ (n - 1 - t) := by
      rw [Finset.mul_sum]
      refine Finset.sum_congr rfl fun t ht => ?_
      rw [Finset.mem_range] at ht
      rw [show n - t = n - 1 - t + 1 by omega, pow_succ]
      ring
    rw [this, pow_succ']
    linear_combination (1 - epsilon) * ih

/-- C178 so each stays between bounds that it had in all steps. -/
theorem averaged_between [Field K] [LinearOrder K] [IsStrictOrderedRing K] {L : Learner K I O} {train : Nat → List (I × Nat)} (h : Shaped L train) {epsilon : K} (h0 : 0 ≤ epsilon) (h1 : epsilon ≤ 1) {i j n : Nat} {lo hi : K}
    (hb : ∀ t ≤ n, lo ≤ entry (trained L train t).1 i j ∧ entry (trained L train t).1 i j ≤ hi) : lo ≤ entry (averaged L epsilon train n) i j ∧ entry (averaged L epsilon train n) i j ≤ hi := by
  induction n with
  | zero => exact hb 0 le_rfl
  | succ n ih =>
    obtain ⟨a1, a2⟩ := ih fun t ht => hb t (by omega)
    obtain ⟨b1, b2⟩ := hb (n + 1) le_rfl
    have e : entry (averaged L epsilon train (n + 1)) i j = (1 - epsilon) * entry (averaged L epsilon train n) i j + epsilon * entry (trained L train (n + 1)).1 i j := entry_ema epsilon (by rw [averaged_shape h, h (n + 1)]) i j
    rw [e]
    constructor <;> nlinarith

/-! ### Examples -/

/-- A learner with one parameter, to which each update adds the number of examples; it predicts class 3 for images above the parameter. -/
def demo : Learner ℚ Nat Unit := ⟨fun p x c => if entry p 0 0 < x ∧ c = 3 then 1 else 0, fun _ => [[0]], fun _ => (), fun p _ b => ([[entry p 0 0 + b.length]], ())⟩

example : Shaped demo fun _ => [(0, 0)] := by
  intro n
  cases n with
  | zero => rfl
  | succ n => rfl

example : entry (averaged demo (1 / 2) (fun _ => [(0, 0)]) 3) 0 0 = 17 / 8 := by
  rw [averaged_eq (by intro n; cases n <;> rfl)]
  norm_num [Finset.sum_range_succ, trained, demo, entry]

example : evalBatch [10, 11, 12, 13] 2 3 = [12, 13] ∧ evalBatch [10, 11, 12] 2 1 = [12, 10] := by decide

example : (run demo 2 2 (1 / 2) (fun _ => [(0, 0)]) [(1, 3), (0, 0), (5, 3), (7, 1)] [(9, 3), (9, 1)] 3).printed.map Prod.fst = [0, 2] := by decide

example : Predicted (fun c => if c = 3 then (1 : ℚ) else 0) 3 := by
  refine ⟨by norm_num, fun j _ => ?_, fun j hj => ?_⟩
  · dsimp only
    split <;> norm_num
  · dsimp only
    rw [if_neg (by omega), if_pos rfl]
    norm_num

example : ∀ y ∈ [3, 9, 0], y < 10 := by decide

end Verif.Props.Mnist
