import Mathlib.Analysis.SpecialFunctions.Trigonometric.Basic
import Mathlib.Analysis.SpecialFunctions.Log.Basic
import Verif.Model.ImageNet
import Verif.Props.Transformer

/-!
# The ImageNet example (C164, C165, C166, C167, C168, C169)
-/

set_option linter.unusedVariables false
set_option linter.unusedSectionVars false

namespace Verif.Props.ImageNet
open Verif.Shapes (Err)
open Verif.Pool (Arr)
open Verif.Transformer (logSoftmax)
open Verif.Attention (maximum)
open Verif.Props.Attention (IsExp weight stable stable_weight real_exp)
open Verif.Props.Transformer (IsLog real_log)
open Verif.ImageNet

variable {K : Type}

/-! ### C164: the shards -/

/-- The first position of a split in the split of `tfds` that it is taken from: the first 10000 images for training are those for validation. -/
def offset (split : Split) : Nat := if split = .train then 10000 else 0

theorem section_eq {n k i : Nat} : section_ n k i = List.range' (i * (n / k) + min i (n % k)) (n / k + if i < n % k then 1 else 0) := by
  unfold section_
  dsimp only
  rw [Nat.succ_mul]
  generalize n / k = q
  generalize n % k = r
  generalize i * q = m
  congr 1
  split <;> omega

theorem shard_eq (split : Split) {i k : Nat} (hi : i < k) :
    shard split i k = if split.numExamples / k + (if i < split.numExamples % k then 1 else 0) = 0 then .error .index else
      .ok (offset split + (i * (split.numExamples / k) + min i (split.numExamples % k)), offset split + ((i + 1) * (split.numExamples / k) + min (i + 1) (split.numExamples % k))) := by
  unfold shard
  rw [if_neg (by omega), if_neg (by omega), if_neg (by omega), if_neg (by omega : ¬ (i : Int) < 0)]
  dsimp only
  rw [Int.toNat_natCast, Int.toNat_natCast, section_eq]
  have hp : (i + 1) * (split.numExamples / k) + min (i + 1) (split.numExamples % k) = i * (split.numExamples / k) + min i (split.numExamples % k) + (split.numExamples / k + if i < split.numExamples % k then 1 else 0) := by
    rw [Nat.succ_mul]
    generalize split.numExamples / k = q
    generalize split.numExamples % k = r
    generalize i * q = m
    split <;> omega
  rw [hp]
  generalize i * (split.numExamples / k) + min i (split.numExamples % k) = a
  generalize (split.numExamples / k + if i < split.numExamples % k then 1 else 0) = n
  cases n with
  | zero => rfl
  | succ n =>
    rw [if_neg (by omega)]
    have h1 : (List.range' a (n + 1)).head? = some a := rfl
    have h2 : (List.range' a (n + 1)).getLast? = some (a + n) := by rw [List.range'_concat]; simp
    rw [h1, h2]
    dsimp only
    unfold offset
    by_cases h : split = .train
    · rw [if_pos h, if_pos h]
      show Except.ok (a + 10000, a + n + 1 + 10000) = _
      congr 2 <;> omega
    · rw [if_neg h, if_neg h]
      congr 2 <;> omega

/-- C164: for at least one and at most as many shards as examples, the shards are consecutive, not empty, differ in length by at most one, and go from the first to the last position of the split. -/
theorem shards_tile (split : Split) {k : Nat} (hk : 0 < k) (hN : k ≤ split.numExamples) :
    ∃ s : Nat → Nat, s 0 = offset split ∧ s k = offset split + split.numExamples ∧
      ∀ i, i < k → shard split i k = .ok (s i, s (i + 1)) ∧ s i < s (i + 1) ∧ (s (i + 1) = s i + split.numExamples / k ∨ s (i + 1) = s i + split.numExamples / k + 1) := by
  refine ⟨fun i => offset split + (i * (split.numExamples / k) + min i (split.numExamples % k)), by simp, ?_, fun i hi => ?_⟩
  · dsimp only
    rw [Nat.min_eq_right (Nat.mod_lt _ hk).le, Nat.div_add_mod]
  · have hq : 0 < split.numExamples / k := Nat.div_pos hN hk
    refine ⟨?_, ?_, ?_⟩
    · rw [shard_eq split hi, if_neg (by omega)]
    · dsimp only
      rw [Nat.succ_mul]
      omega
    · dsimp only
      rw [Nat.succ_mul]
      omega

/-- C164: so each example of the split is in exactly one shard. -/
theorem shards_partition (split : Split) {k : Nat} (hk : 0 < k) (hN : k ≤ split.numExamples) {p : Nat} (h1 : offset split ≤ p) (h2 : p < offset split + split.numExamples) :
    ∃! i, i < k ∧ ∃ a b, shard split i k = .ok (a, b) ∧ a ≤ p ∧ p < b := by
  obtain ⟨s, s0, sk, hs⟩ := shards_tile split hk hN
  have mono : ∀ i j, i ≤ j → j ≤ k → s i ≤ s j := by
    intro i j hij
    induction j with
    | zero => intro _; rw [Nat.le_zero.mp hij]
    | succ j ih =>
      intro hj
      rcases Nat.lt_or_eq_of_le hij with h | rfl
      · exact (ih (by omega) (by omega)).trans (hs j (by omega)).2.1.le
      · exact le_rfl
  have ex : ∀ n, n ≤ k → p < s n → ∃ i, i < n ∧ s i ≤ p ∧ p < s (i + 1) := by
    intro n
    induction n with
    | zero => intro _ h; omega
    | succ n ih =>
      intro hn h
      by_cases hc : s n ≤ p
      · exact ⟨n, by omega, hc, h⟩
      · obtain ⟨i, hi, h'⟩ := ih (by omega) (by omega)
        exact ⟨i, by omega, h'⟩
  obtain ⟨i, hi, ha, hb⟩ := ex k le_rfl (by omega)
  refine ⟨i, ⟨hi, s i, s (i + 1), (hs i hi).1, ha, hb⟩, ?_⟩
  rintro j ⟨hj, a, b, e, ha', hb'⟩
  rw [(hs j hj).1] at e
  cases e
  rcases Nat.lt_trichotomy j i with h | h | h
  · have := mono (j + 1) i h (by omega)
    omega
  · exact h
  · have := mono (i + 1) j h (by omega)
    omega

example : shard .train 2 3 = .ok (857445, 1281167) := by
  refine (shard_eq .train (i := 2) (k := 3) (by decide)).trans ?_
  rw [if_neg (by decide)]
  rfl

/-- C164: with more shards than examples, exactly the shards beyond the number of examples are an `IndexError`. -/
theorem shards_too_many (split : Split) {k i : Nat} (hi : i < k) (hk : split.numExamples < k) : shard split i k = .error .index ↔ split.numExamples ≤ i := by
  rw [shard_eq split hi, Nat.div_eq_of_lt hk, Nat.mod_eq_of_lt hk]
  by_cases h : i < split.numExamples
  · rw [if_pos h, if_neg (by omega)]
    exact ⟨fun h => (by cases h), fun h' => by omega⟩
  · rw [if_neg h, if_pos rfl]
    exact ⟨fun _ => by omega, fun _ => rfl⟩

example : shard .valid 10000 10001 = .error .index := (shards_too_many .valid (by decide) (by decide)).mpr (by decide)

/-- C164: a negative index counts from the end, an index that is too large is an `AssertionError`. -/
theorem shard_index (split : Split) (i : Int) (k : Nat) : (k ≤ i → shard split i k = .error .assertion) ∧ (-k ≤ i → i < 0 → shard split i k = shard split (i + k) k) ∧ (i < -k → shard split i k = if k = 0 then .error .value else .error .index) := by
  refine ⟨fun h => ?_, fun h1 h2 => ?_, fun h => ?_⟩
  · unfold shard
    exact if_pos (by omega)
  · unfold shard
    rw [if_neg (by omega : ¬ ¬ i < (k : Int)), if_neg (by omega : ¬ (k : Int) ≤ 0), if_neg (by omega : ¬ i < -(k : Int)), if_pos h2, if_neg (by omega : ¬ ¬ i + (k : Int) < k), if_neg (by omega : ¬ (k : Int) ≤ 0), if_neg (by omega : ¬ i + (k : Int) < -k),
      if_neg (by omega : ¬ i + (k : Int) < 0)]
  · unfold shard
    rw [if_neg (by omega)]
    by_cases hk : k = 0
    · rw [if_pos (by omega), if_pos hk]
    · rw [if_neg (by omega), if_pos h, if_neg hk]

/-- C164: the splits for training and for validation have no example in common, and together they are the split for both; all three are in the training split of `tfds`, the test split is not. -/
theorem splits_apart : (∀ p, (offset .train ≤ p ∧ p < offset .train + Split.numExamples .train) → ¬ (offset .valid ≤ p ∧ p < offset .valid + Split.numExamples .valid)) ∧
    (∀ p, (offset .trainAndValid ≤ p ∧ p < offset .trainAndValid + Split.numExamples .trainAndValid) ↔
      (offset .train ≤ p ∧ p < offset .train + Split.numExamples .train) ∨ (offset .valid ≤ p ∧ p < offset .valid + Split.numExamples .valid)) ∧
    toTfdsSplit .train = toTfdsSplit .valid ∧ toTfdsSplit .train = toTfdsSplit .trainAndValid ∧ toTfdsSplit .test ≠ toTfdsSplit .train := by
  refine ⟨fun p h h' => ?_, fun p => ?_, rfl, rfl, by decide⟩
  · simp only [offset, Split.numExamples] at h h'
    simp at h h'
    omega
  · simp only [offset, Split.numExamples]
    simp
    omega

/-! ### C165: the learning rate -/

/-- The steps of an epoch. -/
noncomputable def perEpoch (F : Flags ℝ) : ℝ := F.numExamples / (F.deviceBatchSize * F.deviceCount)

/-- The number of steps until the rate is highest. -/
noncomputable def warmup (F : Flags ℝ) : ℝ := F.warmupEpochs * perEpoch F

/-- The number of steps until the rate is zero. -/
noncomputable def last (F : Flags ℝ) : ℝ := F.epochs * perEpoch F

/-- The highest rate. -/
noncomputable def peak (F : Flags ℝ) : ℝ := F.lrInit * (F.deviceBatchSize * F.deviceCount) / 256

/-- Flags that make sense: there are devices and examples, and more epochs than those for the warm up. -/
structure Sane (F : Flags ℝ) : Prop where
  batch : 0 < F.deviceBatchSize
  devices : 0 < F.deviceCount
  examples : 0 < F.numExamples
  epochs : F.warmupEpochs < F.epochs
  rate : 0 < F.lrInit

theorem perEpoch_pos {F : Flags ℝ} (h : Sane F) : 0 < perEpoch F := by
  have h1 := h.batch
  have h2 := h.devices
  have h3 := h.examples
  unfold perEpoch
  positivity

theorem warmup_lt {F : Flags ℝ} (h : Sane F) : warmup F < last F := by
  have : (F.warmupEpochs : ℝ) < F.epochs := by exact_mod_cast h.epochs
  exact mul_lt_mul_of_pos_right this (perEpoch_pos h)

theorem peak_pos {F : Flags ℝ} (h : Sane F) : 0 < peak F := by
  have h1 := h.batch
  have h2 := h.devices
  have h3 := h.rate
  unfold peak
  positivity

theorem lr_unfold (F : Flags ℝ) (step : ℝ) : lrSchedule Real.cos Real.pi F step =
    if warmup F ≠ 0 then peak F * (1 / 2 * (1 + Real.cos (Real.pi * (max (step - warmup F) 0 / (last F - warmup F))))) * min (step / warmup F) 1
    else peak F * (1 / 2 * (1 + Real.cos (Real.pi * (max (step - warmup F) 0 / (last F - warmup F))))) := by
  unfold lrSchedule warmup last peak perEpoch Flags.totalBatchSize
  push_cast
  rfl

/-- C165: in the warm up the rate grows linearly from 0 to its peak. -/
theorem lr_warmup {F : Flags ℝ} {step : ℝ} (hw : 0 < warmup F) (h : step ≤ warmup F) : lrSchedule Real.cos Real.pi F step = peak F * (step / warmup F) := by
  rw [lr_unfold, if_pos hw.ne', max_eq_right (by linarith), zero_div, mul_zero, Real.cos_zero, min_eq_left ((div_le_one hw).mpr h)]
  ring

/-- C165: after the warm up the rate is half a cosine wave. -/
theorem lr_cosine {F : Flags ℝ} {step : ℝ} (hw : 0 ≤ warmup F) (h : warmup F ≤ step) :
    lrSchedule Real.cos Real.pi F step = peak F * ((1 + Real.cos (Real.pi * ((step - warmup F) / (last F - warmup F)))) / 2) := by
  rw [lr_unfold, max_eq_left (by linarith)]
  by_cases h0 : warmup F = 0
  · rw [if_neg (by simpa using h0)]
    ring
  · rw [if_pos h0, min_eq_right ((one_le_div (lt_of_le_of_ne hw (Ne.symm h0))).mpr h)]
    ring

theorem warmup_nonneg {F : Flags ℝ} (h : Sane F) : 0 ≤ warmup F := mul_nonneg (Nat.cast_nonneg _) (perEpoch_pos h).le

/-- C165: the rate is its peak at the end of the warm up and 0 at the end of training; until then it is never negative and at most its peak; it grows strictly in the warm up and falls strictly after it. -/
theorem lr_shape {F : Flags ℝ} (hF : Sane F) :
    lrSchedule Real.cos Real.pi F (warmup F) = peak F ∧ lrSchedule Real.cos Real.pi F (last F) = 0 ∧ (∀ s, 0 ≤ s → 0 ≤ lrSchedule Real.cos Real.pi F s ∧ lrSchedule Real.cos Real.pi F s ≤ peak F) ∧
      StrictMonoOn (lrSchedule Real.cos Real.pi F) (Set.Icc 0 (warmup F)) ∧ StrictAntiOn (lrSchedule Real.cos Real.pi F) (Set.Icc (warmup F) (last F)) := by
  have hw := warmup_nonneg hF
  have hl := warmup_lt hF
  have hp := peak_pos hF
  have hd : 0 < last F - warmup F := by linarith
  refine ⟨?_, ?_, fun s hs => ?_, fun a ha b hb hab => ?_, fun a ha b hb hab => ?_⟩
  · rw [lr_cosine hw le_rfl, sub_self, zero_div, mul_zero, Real.cos_zero]
    ring
  · rw [lr_cosine hw hl.le, div_self hd.ne', mul_one, Real.cos_pi]
    ring
  · rcases le_total s (warmup F) with h | h
    · rcases eq_or_lt_of_le hw with h0 | h0
      · have : s = warmup F := by linarith
        rw [this, lr_cosine hw le_rfl, sub_self, zero_div, mul_zero, Real.cos_zero]
        constructor <;> linarith
      · rw [lr_warmup h0 h]
        have h1 : 0 ≤ s / warmup F := div_nonneg hs hw
        have h2 : s / warmup F ≤ 1 := (div_le_one h0).mpr h
        exact ⟨mul_nonneg hp.le h1, by nlinarith⟩
    · rw [lr_cosine hw h]
      have h1 := Real.neg_one_le_cos (Real.pi * ((s - warmup F) / (last F - warmup F)))
      have h2 := Real.cos_le_one (Real.pi * ((s - warmup F) / (last F - warmup F)))
      exact ⟨mul_nonneg hp.le (by linarith), by nlinarith⟩
  · have h0 : 0 < warmup F := lt_of_le_of_lt ha.1 (lt_of_lt_of_le hab hb.2)
    rw [lr_warmup h0 ha.2, lr_warmup h0 hb.2]
    exact mul_lt_mul_of_pos_left (div_lt_div_of_pos_right hab h0) hp
  · rw [lr_cosine hw ha.1, lr_cosine hw hb.1]
    refine mul_lt_mul_of_pos_left ?_ hp
    have hc : Real.cos (Real.pi * ((b - warmup F) / (last F - warmup F))) < Real.cos (Real.pi * ((a - warmup F) / (last F - warmup F))) := by
      refine Real.strictAntiOn_cos ⟨?_, ?_⟩ ⟨?_, ?_⟩ ?_
      · exact mul_nonneg Real.pi_pos.le (div_nonneg (by linarith [ha.1]) hd.le)
      · exact mul_le_of_le_one_right Real.pi_pos.le ((div_le_one hd).mpr (by linarith [ha.2]))
      · exact mul_nonneg Real.pi_pos.le (div_nonneg (by linarith [hb.1]) hd.le)
      · exact mul_le_of_le_one_right Real.pi_pos.le ((div_le_one hd).mpr (by linarith [hb.2]))
      · exact mul_lt_mul_of_pos_left (div_lt_div_of_pos_right (by linarith) hd) Real.pi_pos
    linarith

/-- C165: all steps of the training loop are before the end, so their rates are not negative and, but for the first one in a warm up, positive. -/
theorem lr_training {F : Flags ℝ} (hF : Sane F) {step : Nat} (h : step < F.numTrainSteps) :
    (step : ℝ) < last F ∧ (0 < lrSchedule Real.cos Real.pi F step ↔ 0 < step ∨ F.warmupEpochs = 0) := by
  have hb : 0 < F.totalBatchSize := Nat.mul_pos hF.batch hF.devices
  have hlast : last F = (F.numExamples * F.epochs : Nat) / (F.totalBatchSize : ℝ) := by
    unfold last perEpoch Flags.totalBatchSize
    push_cast
    ring
  have hlt : (step : ℝ) < last F := by
    rw [hlast, lt_div_iff₀ (by exact_mod_cast hb)]
    have h1 : (step + 1) * F.totalBatchSize ≤ F.numExamples * F.epochs := (Nat.mul_le_mul_right _ h).trans (Nat.div_mul_le_self _ _)
    have h2 : step * F.totalBatchSize < F.numExamples * F.epochs := by nlinarith
    exact_mod_cast h2
  refine ⟨hlt, ?_⟩
  obtain ⟨_, h0, _, hm, ha⟩ := lr_shape hF
  have hw := warmup_nonneg hF
  have hl := warmup_lt hF
  have hpos : 0 < warmup F ↔ F.warmupEpochs ≠ 0 := by
    unfold warmup
    have := perEpoch_pos hF
    constructor
    · intro h h0
      rw [h0] at h
      simp at h
    · intro h
      have : 0 < F.warmupEpochs := Nat.pos_of_ne_zero h
      positivity
  rcases le_total (warmup F) step with hs | hs
  · have h1 : 0 < lrSchedule Real.cos Real.pi F step := by
      have := ha ⟨hs, hlt.le⟩ ⟨hl.le, le_rfl⟩ hlt
      rwa [h0] at this
    refine ⟨fun _ => ?_, fun _ => h1⟩
    by_cases hz : F.warmupEpochs = 0
    · exact .inr hz
    · refine .inl ?_
      have : (0 : ℝ) < step := lt_of_lt_of_le (hpos.mpr hz) hs
      exact_mod_cast this
  · rcases eq_or_lt_of_le hw with hz | hz
    · have hs0 : (step : ℝ) = warmup F := le_antisymm hs (by rw [← hz]; positivity)
      have h1 : 0 < lrSchedule Real.cos Real.pi F step := by
        rw [hs0, lr_cosine hw le_rfl, sub_self, zero_div, mul_zero, Real.cos_zero]
        have := peak_pos hF
        linarith
      refine ⟨fun _ => .inr ?_, fun _ => h1⟩
      by_contra hne
      exact absurd (hpos.mpr hne) (by rw [← hz]; exact lt_irrefl _)
    · rw [lr_warmup hz hs]
      have hp := peak_pos hF
      constructor
      · intro h1
        refine .inl ?_
        by_contra hn
        have : step = 0 := by omega
        rw [this] at h1
        simp at h1
      · rintro (h1 | h1)
        · have : (0 : ℝ) < step := by exact_mod_cast h1
          positivity
        · exact absurd h1 (hpos.mp hz)

/-- The flags as they are by default, on 8 devices. -/
noncomputable def flags : Flags ℝ := ⟨128, 8, 1281167, 5, 90, 1 / 10⟩

theorem flags_sane : Sane flags := ⟨by norm_num [flags], by norm_num [flags], by norm_num [flags], by norm_num [flags], by norm_num [flags]⟩

theorem flags_steps : flags.numTrainSteps = 112602 := by norm_num [flags, Flags.numTrainSteps, Flags.totalBatchSize]

example : lrSchedule Real.cos Real.pi flags 0 = 0 ∧ 0 < lrSchedule Real.cos Real.pi flags (1 : Nat) := by
  refine ⟨?_, (lr_training flags_sane (by rw [flags_steps]; norm_num)).2.mpr (.inl (by decide))⟩
  have : 0 < warmup flags := by unfold warmup perEpoch flags; norm_num
  rw [lr_warmup this this.le, zero_div, mul_zero]

/-! ### C166: the loss -/

/-- What the smoothed label asks for: with label `y`, class `c` has this probability. -/
noncomputable def asked (smoothing : ℝ) (y c : Nat) : ℝ := (1 - smoothing) * (if y = c then 1 else 0) + smoothing / 1000

/-- The probability of a class under logits. -/
noncomputable def prob (logits : Arr ℝ) (b c : Nat) : ℝ := weight Real.exp 1000 (fun j => logits.val [b, j]) c

/-- What is wrong with the parameters: half the sum of squares over the modules without `batchnorm` in their name. -/
noncomputable def decay : List (List Char × List ℝ) → ℝ
  | [] => 0
  | p :: ps => open Classical in (if "batchnorm".toList <:+: p.1 then 0 else (p.2.map fun x => x * x).sum / 2) + decay ps

/-- A string is in another one exactly if the other one is it with something before and after. -/
theorem isIn_iff (s t : List Char) : isIn s t = true ↔ s <:+: t := by
  induction t with
  | nil =>
    rw [List.infix_nil]
    show s.isEmpty = true ↔ _
    rw [List.isEmpty_iff]
  | cons c t ih =>
    show (s.isPrefixOf (c :: t) || isIn s t) = true ↔ _
    rw [Bool.or_eq_true, ih, List.infix_cons_iff, List.isPrefixOf_iff_prefix]

theorem sum_exp_pos {n : Nat} (hn : 0 < n) (l : Nat → ℝ) : 0 < ∑ i ∈ Finset.range n, Real.exp (l i) :=
  Finset.sum_pos (fun i _ => Real.exp_pos _) ⟨0, Finset.mem_range.mpr hn⟩

theorem logSoftmax_eq (logits : Arr ℝ) (b c : Nat) : (logSoftmax Real.exp Real.log 1000 logits).val [b, c] = Real.log (prob logits b c) := by
  unfold prob
  rw [← stable_weight real_exp]
  unfold stable
  rw [Real.log_div (Real.exp_pos _).ne' (sum_exp_pos (by norm_num) _).ne', Real.log_exp]
  rfl

theorem prob_pos (logits : Arr ℝ) (b c : Nat) : 0 < prob logits b c := div_pos (Real.exp_pos _) (sum_exp_pos (by norm_num) _)

theorem prob_sum (logits : Arr ℝ) (b : Nat) : ∑ c ∈ Finset.range 1000, prob logits b c = 1 := by
  unfold prob weight
  rw [← Finset.sum_div]
  exact div_self (sum_exp_pos (by norm_num) _).ne'

/-- C166: a smoothed label is a distribution over the classes, and if there is smoothing all classes have positive probability. -/
theorem asked_distribution {e : ℝ} {y : Nat} (hy : y < 1000) (h0 : 0 ≤ e) (h1 : e ≤ 1) : ∑ c ∈ Finset.range 1000, asked e y c = 1 ∧ (∀ c, 0 ≤ asked e y c) ∧ (0 < e → ∀ c, 0 < asked e y c) := by
  refine ⟨?_, fun c => ?_, fun h c => ?_⟩
  · unfold asked
    rw [Finset.sum_add_distrib, ← Finset.mul_sum, Finset.sum_ite_eq, if_pos (Finset.mem_range.mpr hy), Finset.sum_const, Finset.card_range]
    rw [nsmul_eq_mul]
    push_cast
    ring
  · unfold asked
    split <;> nlinarith
  · unfold asked
    split <;> nlinarith

theorem l2_eq (params : List (List Char × List ℝ)) : l2Loss ((params.filter fun p => !isIn "batchnorm".toList p.1).map Prod.snd) = decay params := by
  induction params with
  | nil => simp [l2Loss, decay]
  | cons p ps ih =>
    have hc : ∀ (q : List ℝ) qs, l2Loss (q :: qs) = (q.map fun x => x * x).sum / 2 + l2Loss qs := by
      intro q qs
      unfold l2Loss
      rw [List.map_cons, List.sum_cons]
      simp only [sq]
      ring
    unfold decay
    by_cases h : "batchnorm".toList <:+: p.1
    · rw [if_pos h, List.filter_cons_of_neg (by rw [(isIn_iff _ _).mpr h]; decide), ih, zero_add]
    · have hf : isIn "batchnorm".toList p.1 = false := by
        rw [← Bool.not_eq_true]
        exact fun h' => h ((isIn_iff _ _).mp h')
      rw [if_neg h, List.filter_cons_of_pos (by rw [hf]; rfl), List.map_cons, hc, ih]

/-- C166: the loss is the mean over the batch of the cross entropy between smoothed labels and predicted probabilities, plus the weight decay times half the sum of squares of the parameters of all modules but batch norms. -/
theorem loss_eq {e : ℝ} (wd : ℝ) (params : List (List Char × List ℝ)) {logits : Arr ℝ} {labels : List Nat} (hs : logits.shape = [labels.length, 1000]) :
    lossOf Real.exp Real.log e wd params logits labels =
      .ok ((∑ b ∈ Finset.range labels.length, ∑ c ∈ Finset.range 1000, asked e (labels.getD b 0) c * -Real.log (prob logits b c)) / labels.length + wd * decay params) := by
  unfold lossOf
  rw [if_neg (by rw [hs]; simp)]
  dsimp only
  rw [l2_eq]
  refine congrArg (fun t => Except.ok (t / (labels.length : ℝ) + wd * decay params)) (Finset.sum_congr rfl fun b _ => ?_)
  unfold softmaxCrossEntropy
  rw [← Finset.sum_neg_distrib]
  refine Finset.sum_congr rfl fun c _ => ?_
  rw [logSoftmax_eq]
  have : (if e ≠ 0 then smoothLabels (oneHot labels) e else oneHot (K := ℝ) labels).val [b, c] = asked e (labels.getD b 0) c := by
    unfold asked
    by_cases h : e = 0
    · rw [if_neg (by simpa using h), h]
      show (if labels.getD b 0 = c then (1 : ℝ) else 0) = _
      ring
    · rw [if_pos h]
      rfl
  rw [this]
  ring

/-- C166: in other words, an example costs the negative logarithm of the probability of its class, but for a fraction of it that is spread over all classes. -/
theorem loss_smoothing {e : ℝ} (wd : ℝ) (params : List (List Char × List ℝ)) {logits : Arr ℝ} {labels : List Nat} (hs : logits.shape = [labels.length, 1000]) (hl : ∀ y ∈ labels, y < 1000) :
    lossOf Real.exp Real.log e wd params logits labels =
      .ok ((∑ b ∈ Finset.range labels.length, ((1 - e) * -Real.log (prob logits b (labels.getD b 0)) + e * ((∑ c ∈ Finset.range 1000, -Real.log (prob logits b c)) / 1000))) / labels.length + wd * decay params) := by
  rw [loss_eq wd params hs]
  refine congrArg (fun t => Except.ok (t / (labels.length : ℝ) + wd * decay params)) (Finset.sum_congr rfl fun b hb => ?_)
  have hb' := Finset.mem_range.mp hb
  have hy : labels.getD b 0 < 1000 := by
    rw [List.getD_eq_getElem _ _ hb']
    exact hl _ (List.getElem_mem hb')
  unfold asked
  have h1 : ∀ c, ((1 - e) * (if labels.getD b 0 = c then 1 else 0) + e / 1000) * -Real.log (prob logits b c) =
      (1 - e) * (if labels.getD b 0 = c then -Real.log (prob logits b c) else 0) + e * (-Real.log (prob logits b c) / 1000) := by
    intro c
    split <;> ring
  simp only [h1]
  rw [Finset.sum_add_distrib, ← Finset.mul_sum, ← Finset.mul_sum, Finset.sum_ite_eq, if_pos (Finset.mem_range.mpr hy), Finset.sum_div]

/-- Gibbs' inequality for positive distributions on a finite set. -/
theorem gibbs {n : Nat} {p q : Nat → ℝ} (hp : ∀ c < n, 0 < p c) (hq : ∀ c < n, 0 < q c) (sp : ∑ c ∈ Finset.range n, p c = 1) (sq : ∑ c ∈ Finset.range n, q c = 1) :
    ∑ c ∈ Finset.range n, q c * -Real.log (q c) ≤ ∑ c ∈ Finset.range n, q c * -Real.log (p c) ∧
      (∑ c ∈ Finset.range n, q c * -Real.log (q c) = ∑ c ∈ Finset.range n, q c * -Real.log (p c) ↔ ∀ c < n, p c = q c) := by
  have key : ∀ c < n, 0 ≤ (p c - q c) - (q c * -Real.log (q c) - q c * -Real.log (p c)) ∧ ((p c - q c) - (q c * -Real.log (q c) - q c * -Real.log (p c)) = 0 → p c = q c) := by
    intro c hc
    have hpc := hp c hc
    have hqc := hq c hc
    have e : q c * -Real.log (q c) - q c * -Real.log (p c) = q c * Real.log (p c / q c) := by
      rw [Real.log_div hpc.ne' hqc.ne']
      ring
    have e2 : p c - q c = q c * (p c / q c - 1) := by field_simp
    rw [e]
    constructor
    · have := Real.log_le_sub_one_of_pos (div_pos hpc hqc)
      rw [e2]
      nlinarith
    · intro h
      by_contra hne
      have h1 : p c / q c ≠ 1 := fun h' => hne ((div_eq_one_iff_eq hqc.ne').mp h')
      have := Real.log_lt_sub_one_of_pos (div_pos hpc hqc) h1
      have h2 : q c * Real.log (p c / q c) < q c * (p c / q c - 1) := mul_lt_mul_of_pos_left this hqc
      rw [← e2] at h2
      linarith
  have hsum : ∑ c ∈ Finset.range n, ((p c - q c) - (q c * -Real.log (q c) - q c * -Real.log (p c))) = ∑ c ∈ Finset.range n, q c * -Real.log (p c) - ∑ c ∈ Finset.range n, q c * -Real.log (q c) := by
    rw [Finset.sum_sub_distrib, Finset.sum_sub_distrib, Finset.sum_sub_distrib, sp, sq]
    ring
  have hnn : ∀ c ∈ Finset.range n, 0 ≤ (p c - q c) - (q c * -Real.log (q c) - q c * -Real.log (p c)) := fun c hc => (key c (Finset.mem_range.mp hc)).1
  refine ⟨?_, ?_, ?_⟩
  · have := Finset.sum_nonneg hnn
    rw [hsum] at this
    linarith
  · intro h
    have h0 : ∑ c ∈ Finset.range n, ((p c - q c) - (q c * -Real.log (q c) - q c * -Real.log (p c))) = 0 := by rw [hsum, h, sub_self]
    intro c hc
    exact (key c hc).2 ((Finset.sum_eq_zero_iff_of_nonneg hnn).mp h0 c (Finset.mem_range.mpr hc))
  · intro h
    exact Finset.sum_congr rfl fun c hc => by rw [h c (Finset.mem_range.mp hc)]

/-- The least cross entropy for a smoothing: the entropy of a smoothed label. -/
noncomputable def floor (e : ℝ) : ℝ := (1 - e + e / 1000) * -Real.log (1 - e + e / 1000) + 999 * (e / 1000 * -Real.log (e / 1000))

theorem asked_entropy {e : ℝ} {y : Nat} (hy : y < 1000) : ∑ c ∈ Finset.range 1000, asked e y c * -Real.log (asked e y c) = floor e := by
  have h1 : ∀ c, asked e y c * -Real.log (asked e y c) =
      (if y = c then (1 - e + e / 1000) * -Real.log (1 - e + e / 1000) - e / 1000 * -Real.log (e / 1000) else 0) + e / 1000 * -Real.log (e / 1000) := by
    intro c
    unfold asked
    split
    · rw [mul_one]
      ring
    · rw [mul_zero, zero_add, zero_add]
  simp only [h1]
  rw [Finset.sum_add_distrib, Finset.sum_ite_eq, if_pos (Finset.mem_range.mpr hy), Finset.sum_const, Finset.card_range, nsmul_eq_mul]
  unfold floor
  push_cast
  ring

/-- C166: with smoothing the loss cannot go below the entropy of a smoothed label plus the decay, and it gets there exactly if the network predicts the smoothed labels: not by ever larger logits. -/
theorem loss_least {e : ℝ} (h0 : 0 < e) (h1 : e ≤ 1) (wd : ℝ) (params : List (List Char × List ℝ)) {logits : Arr ℝ} {labels : List Nat} (hs : logits.shape = [labels.length, 1000]) (hl : ∀ y ∈ labels, y < 1000) (hn : labels ≠ []) :
    ∃ loss, lossOf Real.exp Real.log e wd params logits labels = .ok loss ∧ floor e + wd * decay params ≤ loss ∧
      (loss = floor e + wd * decay params ↔ ∀ b < labels.length, ∀ c < 1000, prob logits b c = asked e (labels.getD b 0) c) := by
  refine ⟨_, loss_eq wd params hs, ?_⟩
  have hN : (0 : ℝ) < labels.length := by exact_mod_cast List.length_pos_iff.mpr hn
  have hy : ∀ b < labels.length, labels.getD b 0 < 1000 := by
    intro b hb
    rw [List.getD_eq_getElem _ _ hb]
    exact hl _ (List.getElem_mem hb)
  have g : ∀ b < labels.length, floor e ≤ ∑ c ∈ Finset.range 1000, asked e (labels.getD b 0) c * -Real.log (prob logits b c) ∧
      (floor e = ∑ c ∈ Finset.range 1000, asked e (labels.getD b 0) c * -Real.log (prob logits b c) ↔ ∀ c < 1000, prob logits b c = asked e (labels.getD b 0) c) := by
    intro b hb
    rw [← asked_entropy (hy b hb)]
    obtain ⟨a1, a2, a3⟩ := asked_distribution (hy b hb) h0.le h1
    exact gibbs (fun c _ => prob_pos _ _ _) (fun c _ => a3 h0 c) (prob_sum _ _) a1
  have hc : floor e = (∑ b ∈ Finset.range labels.length, floor e) / labels.length := by
    rw [Finset.sum_const, Finset.card_range, nsmul_eq_mul]
    field_simp
  have hle : ∀ b ∈ Finset.range labels.length, floor e ≤ ∑ c ∈ Finset.range 1000, asked e (labels.getD b 0) c * -Real.log (prob logits b c) := fun b hb => (g b (Finset.mem_range.mp hb)).1
  constructor
  · have := Finset.sum_le_sum hle
    have h2 := div_le_div_of_nonneg_right this hN.le
    rw [← hc] at h2
    linarith
  · rw [add_left_inj]
    conv_lhs => rw [hc]
    rw [div_left_inj' hN.ne', eq_comm, Finset.sum_eq_sum_iff_of_le hle]
    exact ⟨fun h b hb => (g b hb).2.mp (h b (Finset.mem_range.mpr hb)), fun h b hb => (g b (Finset.mem_range.mp hb)).2.mpr (h b (Finset.mem_range.mp hb))⟩

/-- C166: and some logits do: the logarithms of the smoothed labels. -/
theorem loss_reached {e : ℝ} (h0 : 0 < e) (h1 : e ≤ 1) (wd : ℝ) (params : List (List Char × List ℝ)) {labels : List Nat} (hl : ∀ y ∈ labels, y < 1000) (hn : labels ≠ []) :
    lossOf Real.exp Real.log e wd params ⟨[labels.length, 1000], fun i => Real.log (asked e (labels.getD (i.getD 0 0) 0) (i.getD 1 0))⟩ labels = .ok (floor e + wd * decay params) := by
  obtain ⟨loss, h, _, hiff⟩ := loss_least h0 h1 wd params (logits := ⟨[labels.length, 1000], fun i => Real.log (asked e (labels.getD (i.getD 0 0) 0) (i.getD 1 0))⟩) rfl hl hn
  rw [h, hiff.mpr]
  intro b hb c hc
  have hy : labels.getD b 0 < 1000 := by
    rw [List.getD_eq_getElem _ _ hb]
    exact hl _ (List.getElem_mem hb)
  obtain ⟨a1, _, a3⟩ := asked_distribution hy h0.le h1
  have hx : ∀ c, Real.exp (Real.log (asked e (labels.getD b 0) c)) = asked e (labels.getD b 0) c := fun c => Real.exp_log (a3 h0 c)
  show Real.exp (Real.log (asked e (labels.getD b 0) c)) / ∑ i ∈ Finset.range 1000, Real.exp (Real.log (asked e (labels.getD b 0) i)) = _
  simp only [hx]
  rw [a1, div_one]

example : decay [("res_net50/batchnorm".toList, [3, 4]), ("res_net50/logits".toList, [1, 2])] = 5 / 2 := by
  rw [← l2_eq, List.filter_cons_of_neg (by decide), List.filter_cons_of_pos (by decide)]
  norm_num [l2Loss]

example : lossOf Real.exp Real.log (1 / 10) 0 [] ⟨[2, 1000], fun i => Real.log (asked (1 / 10) ([7, 9].getD (i.getD 0 0) 0) (i.getD 1 0))⟩ [7, 9] = .ok (floor (1 / 10) + 0 * decay []) :=
  loss_reached (by norm_num) (by norm_num) 0 [] (labels := [7, 9]) (by decide) (by decide)

/-! ### C167: the replicas -/

section Replicas
variable [Field K] {P S O B : Type} [AddCommGroup P] [Module K P]

/-- All devices have these parameters and this state of the optimiser. -/
def Agree (replicas : List (Replica P S O)) (p : P) (o : O) : Prop := ∀ r ∈ replicas, r.params = p ∧ r.optState = o

theorem step_length (L : Learner K P S O B) (replicas : List (Replica P S O)) {batches : List B} (hb : batches.length = replicas.length) : (trainStep L replicas batches).1.length = replicas.length := by
  simp [trainStep, hb]

/-- The mean gradient over devices with the same parameters: each device has its own network state. -/
def meanGrad (L : Learner K P S O B) (p : P) (replicas : List (Replica P S O)) (batches : List B) : P :=
  (replicas.length : K)⁻¹ • ((replicas.zip batches).map fun x => (L.valueAndGrad p x.1.state x.2).2).sum

/-- The mean loss over devices with the same parameters. -/
def meanLoss (L : Learner K P S O B) (p : P) (replicas : List (Replica P S O)) (batches : List B) : K :=
  (replicas.length : K)⁻¹ * ((replicas.zip batches).map fun x => (L.valueAndGrad p x.1.state x.2).1.1).sum

theorem local_eq (L : Learner K P S O B) {replicas : List (Replica P S O)} {p : P} {o : O} (h : Agree replicas p o) (batches : List B) :
    replicas.zipWith (fun r b => L.valueAndGrad r.params r.state b) batches = (replicas.zip batches).map fun x => L.valueAndGrad p x.1.state x.2 := by
  induction replicas generalizing batches with
  | nil => rfl
  | cons r rs ih =>
    cases batches with
    | nil => rfl
    | cons b bs =>
      rw [List.zipWith_cons_cons, List.zip_cons_cons, List.map_cons, ih (fun r' hr' => h r' (List.mem_cons_of_mem _ hr')), (h r List.mem_cons_self).1]

/-- C167: one step of all devices: with equal parameters and equal states of the optimiser, each device applies the optimiser to the mean of the gradients of all devices, and keeps its own network state. -/
theorem step_eq (L : Learner K P S O B) {replicas : List (Replica P S O)} {p : P} {o : O} (h : Agree replicas p o) {batches : List B} (hb : batches.length = replicas.length) :
    (trainStep L replicas batches).1 = (replicas.zip batches).map (fun x => ⟨p + (L.update (meanGrad L p replicas batches) o).1, (L.valueAndGrad p x.1.state x.2).1.2, (L.update (meanGrad L p replicas batches) o).2⟩) ∧
      (trainStep L replicas batches).2 = meanLoss L p replicas batches := by
  have hl : (replicas.zip batches).length = replicas.length := by rw [List.length_zip, hb, Nat.min_self]
  unfold trainStep
  dsimp only
  rw [local_eq L h]
  unfold pmean
  rw [List.map_map, List.map_map, List.length_map, List.length_map, hl]
  constructor
  · show List.zipWith (fun (r : Replica P S O) (x : (K × S) × P) => (⟨r.params + (L.update (meanGrad L p replicas batches) r.optState).1, x.1.2, (L.update (meanGrad L p replicas batches) r.optState).2⟩ : Replica P S O)) replicas _ = _
    generalize meanGrad L p replicas batches = g
    clear hl
    induction replicas generalizing batches with
    | nil => rfl
    | cons r rs ih =>
      cases batches with
      | nil => simp at hb
      | cons b bs =>
        rw [List.zip_cons_cons, List.map_cons, List.map_cons, List.zipWith_cons_cons, ih (fun r' hr' => h r' (List.mem_cons_of_mem _ hr')) (by simpa using hb), (h r List.mem_cons_self).1, (h r List.mem_cons_self).2]
  · rw [smul_eq_mul]
    rfl

/-- C167: parameters and states of the optimiser stay equal on all devices, after any number of steps and whatever the devices are given. -/
theorem loop_agree (L : Learner K P S O B) (data : Nat → List B) {replicas : List (Replica P S O)} {p : P} {o : O} (h : Agree replicas p o) (hd : ∀ k, (data k).length = replicas.length) (n : Nat) :
    (trainLoop L data replicas n).length = replicas.length ∧ ∃ p' o', Agree (trainLoop L data replicas n) p' o' := by
  induction n with
  | zero => exact ⟨rfl, p, o, h⟩
  | succ n ih =>
    obtain ⟨hl, p', o', ha⟩ := ih
    have hb : (data n).length = (trainLoop L data replicas n).length := by rw [hl, hd n]
    refine ⟨?_, p' + (L.update (meanGrad L p' (trainLoop L data replicas n) (data n)) o').1, (L.update (meanGrad L p' (trainLoop L data replicas n) (data n)) o').2, ?_⟩
    · exact (step_length L _ hb).trans hl
    · intro r hr
      have hr' : r ∈ (trainStep L (trainLoop L data replicas n) (data n)).1 := hr
      rw [(step_eq L ha hb).1] at hr'
      obtain ⟨x, _, rfl⟩ := List.mem_map.mp hr'
      exact ⟨rfl, rfl⟩

/-- C167: the gradient all devices use does not depend on how the examples are spread: if the gradient on a batch is the mean over its examples (no batch norm), it is the mean over all examples of all devices. -/
theorem step_mean [CharZero K] {X : Type} (L : Learner K P S O (List X)) (g : P → X → P) {size : Nat} (hg : ∀ p s b, b.length = size → (L.valueAndGrad p s b).2 = (size : K)⁻¹ • (b.map (g p)).sum)
    {replicas : List (Replica P S O)} {p : P} {batches : List (List X)} (hb : batches.length = replicas.length) (hs : ∀ b ∈ batches, b.length = size) :
    meanGrad L p replicas batches = (batches.flatten.length : K)⁻¹ • (batches.flatten.map (g p)).sum := by
  have hlen : batches.flatten.length = replicas.length * size := by
    rw [List.length_flatten, List.map_congr_left hs, List.map_const', List.sum_replicate, hb, smul_eq_mul]
  unfold meanGrad
  rw [hlen]
  push_cast
  rw [mul_inv, mul_smul]
  congr 1
  clear hlen
  induction replicas generalizing batches with
  | nil =>
    rw [List.length_nil, List.length_eq_zero_iff] at hb
    rw [hb]
    simp
  | cons r rs ih =>
    cases batches with
    | nil => simp at hb
    | cons b bs =>
      rw [List.zip_cons_cons, List.map_cons, List.sum_cons, ih (by simpa using hb) (fun b' hb' => hs b' (List.mem_cons_of_mem _ hb')), hg _ _ _ (hs b List.mem_cons_self), List.flatten_cons, List.map_append, List.sum_append, smul_add]

end Replicas

/-- A learner of a mean that keeps the last example that it saw, with steps of size one. -/
def meanLearner : Learner Rat Rat Rat Unit (List Rat) := ⟨fun p _ b => ((0, b.getLastD 0), (b.length : Rat)⁻¹ • (b.map fun x => p - x).sum), fun g o => (-g, o)⟩

/-- C167, and only these stay equal: the network states, such as the moving averages of batch norms, go apart, and evaluation takes those of the first device. -/
theorem states_differ : ∃ replicas, trainLoop meanLearner (fun _ => [[1, 2], [3, 6]]) [⟨0, 0, ()⟩, ⟨0, 0, ()⟩] 1 = replicas ∧ replicas.map Replica.params = [3, 3] ∧ replicas.map Replica.state = [2, 6] :=
  ⟨_, rfl, by decide +kernel, by decide +kernel⟩

example : meanGrad meanLearner 0 [⟨0, 0, ()⟩, ⟨0, 0, ()⟩] [[1, 2], [3, 6]] = ((4 : Nat) : Rat)⁻¹ • ([1, 2, 3, 6].map fun x => (0 : Rat) - x).sum :=
  step_mean meanLearner (fun p x => p - x) (size := 2) (fun p s b hb => by show (b.length : Rat)⁻¹ • _ = _; rw [hb]) rfl (by decide)

/-! ### C168: evaluation -/

/-- C168: the predicted label is the first class with the largest logit. -/
theorem argmax_spec [LinearOrder K] {n : Nat} (hn : 0 < n) (f : Nat → K) : argmax n f < n ∧ (∀ j < n, f j ≤ f (argmax n f)) ∧ ∀ j < argmax n f, f j < f (argmax n f) := by
  induction n with
  | zero => omega
  | succ n ih =>
    have hs : argmax (n + 1) f = if f (argmax n f) < f n then n else argmax n f := by
      unfold argmax
      rw [List.range_succ, List.foldl_append]
      rfl
    rcases Nat.eq_zero_or_pos n with rfl | hn'
    · have : argmax 1 f = 0 := by
        show (if f 0 < f 0 then 0 else 0) = 0
        split <;> rfl
      rw [this]
      exact ⟨by omega, fun j hj => by rw [show j = 0 by omega], fun j hj => by omega⟩
    · obtain ⟨h1, h2, h3⟩ := ih hn'
      rw [hs]
      by_cases hc : f (argmax n f) < f n
      · rw [if_pos hc]
        refine ⟨by omega, fun j hj => ?_, fun j hj => lt_of_le_of_lt (h2 j hj) hc⟩
        rcases Nat.lt_or_eq_of_le (Nat.lt_succ_iff.mp hj) with h | rfl
        · exact (h2 j h).trans hc.le
        · exact le_rfl
      · rw [if_neg hc]
        refine ⟨by omega, fun j hj => ?_, h3⟩
        rcases Nat.lt_or_eq_of_le (Nat.lt_succ_iff.mp hj) with h | rfl
        · exact h2 j h
        · exact not_lt.mp hc

theorem batchList_flatten {α : Type} {size : Nat} (hs : 0 < size) {count : Nat} {xs : List α} (h : xs.length ≤ count) : (batchList size count xs).flatten = xs := by
  induction count generalizing xs with
  | zero =>
    rw [Nat.le_zero, List.length_eq_zero_iff] at h
    rw [h]
    rfl
  | succ n ih =>
    cases xs with
    | nil => rfl
    | cons x xs =>
      show (_ :: _).flatten = _
      rw [List.flatten_cons, ih (by simp at h ⊢; omega), List.take_append_drop]

/-- C168: the data set is cut into batches of the asked size in order, without losing any example, and only the last batch may be shorter. -/
theorem batches_spec {α : Type} {size : Nat} (hs : 0 < size) (xs : List α) : (batchList size xs.length xs).flatten = xs ∧ (∀ b ∈ batchList size xs.length xs, 0 < b.length ∧ b.length ≤ size) ∧
    (size ∣ xs.length → ∀ b ∈ batchList size xs.length xs, b.length = size) := by
  refine ⟨batchList_flatten hs le_rfl, ?_, ?_⟩
  · have : ∀ count (xs : List α), ∀ b ∈ batchList size count xs, 0 < b.length ∧ b.length ≤ size := by
      intro count
      induction count with
      | zero => intro xs b hb; cases hb
      | succ n ih =>
        intro xs b hb
        cases xs with
        | nil => cases hb
        | cons x xs =>
          rcases List.mem_cons.mp hb with rfl | h
          · rw [List.length_take, List.length_cons]
            omega
          · exact ih _ _ h
    exact this _ _
  · have : ∀ count (xs : List α), size ∣ xs.length → ∀ b ∈ batchList size count xs, b.length = size := by
      intro count
      induction count with
      | zero => intro xs _ b hb; cases hb
      | succ n ih =>
        intro xs hd b hb
        cases xs with
        | nil => cases hb
        | cons x xs =>
          have hle : size ≤ (x :: xs).length := Nat.le_of_dvd (by simp) hd
          rcases List.mem_cons.mp hb with rfl | h
          · rw [List.length_take]
            omega
          · refine ih _ ?_ _ h
            rw [List.length_drop]
            exact Nat.dvd_sub hd (dvd_refl _)
    exact this _ _

/-- What the network predicts for one example, if it treats the examples of a batch on their own, as it does in evaluation. -/
def predicts [LinearOrder K] {α : Type} (net : α → Nat → K) (x : α × Nat) : Bool := argmax 1000 (net x.1) == x.2

theorem evalBatch_eq [LinearOrder K] {α : Type} (net : α → Nat → K) {logits : List α → Nat → Nat → K} (h : ∀ xs b (hb : b < xs.length) c, logits xs b c = net xs[b] c) (batch : List (α × Nat)) :
    evalBatch logits batch = (batch.filter (predicts net)).length := by
  have h1 : ((List.range batch.length).filter fun b => argmax 1000 (logits (batch.map Prod.fst) b) == ((batch.map Prod.snd).getD b 0)) =
      (List.range batch.length).filter fun b => (batch[b]?.map (predicts net)).getD false := by
    refine List.filter_congr fun b hb => ?_
    have hb' := List.mem_range.mp hb
    have e1 : logits (batch.map Prod.fst) b = net batch[b].1 := by
      funext c
      rw [h _ b (by simpa using hb') c, List.getElem_map]
    rw [e1, List.getD_eq_getElem _ _ (by simpa using hb'), List.getElem_map, List.getElem?_eq_getElem hb']
    rfl
  unfold evalBatch
  rw [h1]
  clear h1
  induction batch using List.reverseRecOn with
  | nil => rfl
  | append_singleton xs x ih =>
    rw [List.length_append, List.length_singleton, List.range_succ, List.filter_append, List.filter_append, List.length_append, List.length_append, ← ih]
    refine congrArg₂ (· + ·) (congrArg List.length ?_) ?_
    · refine List.filter_congr fun b hb => ?_
      rw [List.getElem?_append_left (List.mem_range.mp hb)]
    · have : (xs ++ [x])[xs.length]? = some x := by simp
      rw [List.filter_cons, List.filter_cons, this]
      show (if predicts net x = true then _ else _ : List _).length = _
      split <;> rfl

/-- C168: if the batch size divides the number of examples of the split, and the data set has all of them, the accuracy is the number of examples whose label is predicted over the number of examples: each example counts once, whatever the batch size. -/
theorem evaluate_eq [Field K] [LinearOrder K] {α : Type} (net : α → Nat → K) {logits : List α → Nat → Nat → K} (h : ∀ xs b (hb : b < xs.length) c, logits xs b c = net xs[b] c) {split : Split} {size : Nat} (hs : 0 < size)
    (hd : size ∣ split.numExamples) {examples : List (α × Nat)} (hn : examples.length = split.numExamples) :
    evaluate logits split size examples = .ok (((examples.filter (predicts net)).length : K) / (split.numExamples : K)) := by
  have hf := batchList_flatten hs (le_refl examples.length)
  have ht : ((batchList size examples.length examples).map List.length).sum = examples.length := by rw [← List.length_flatten, hf]
  have hc : ((batchList size examples.length examples).map (evalBatch logits)).sum = (examples.filter (predicts net)).length := by
    conv_rhs => rw [← hf]
    rw [List.filter_flatten, List.length_flatten, List.map_map]
    congr 1
    exact List.map_congr_left fun b _ => evalBatch_eq net h b
  unfold evaluate
  rw [if_neg (by omega), if_neg (by rw [Nat.mod_eq_zero_of_dvd hd]; simp)]
  dsimp only
  rw [ht, hc, if_neg (by rw [hn]; simp), hn]

/-- C168: a batch size that does not divide the number of examples is a `ValueError`, a data set of another length an `AssertionError`. -/
theorem evaluate_error [Field K] [LinearOrder K] {α : Type} (logits : List α → Nat → Nat → K) {split : Split} {size : Nat} (hs : 0 < size) (examples : List (α × Nat)) :
    (¬ size ∣ split.numExamples → evaluate logits split size examples = .error .value) ∧ (size ∣ split.numExamples → examples.length ≠ split.numExamples → evaluate logits split size examples = .error .assertion) := by
  have ht : ((batchList size examples.length examples).map List.length).sum = examples.length := by rw [← List.length_flatten, batchList_flatten hs le_rfl]
  refine ⟨fun h => ?_, fun h hn => ?_⟩
  · unfold evaluate
    rw [if_neg (by omega), if_pos (fun h' => h (Nat.dvd_of_mod_eq_zero h'))]
  · unfold evaluate
    rw [if_neg (by omega), if_neg (by rw [Nat.mod_eq_zero_of_dvd h]; simp)]
    dsimp only
    rw [ht, if_pos hn]

example (examples : List (Nat × Nat)) (hn : examples.length = 50000) :
    evaluate (K := Rat) (fun xs b c => if xs.getD b 0 = c then 1 else 0) .test 1000 examples = .ok (((examples.filter (predicts fun x c => if x = c then (1 : Rat) else 0)).length : Rat) / ((50000 : Nat) : Rat)) :=
  evaluate_eq (fun x c => if x = c then 1 else 0) (fun xs b hb c => by rw [List.getD_eq_getElem _ _ hb]) (by decide) ⟨50, rfl⟩ hn

example : evaluate (K := Rat) (α := Nat) (fun _ _ _ => 0) .test 1024 [] = .error .value := (evaluate_error _ (by decide) _).1 (by show ¬ 1024 ∣ 50000; decide)

/-! ### C169: crops, transposes and batches -/

/-- C169: the centre crop is a square inside the image of 7/8 of its shorter side, rounded down, and its margins on opposite sides differ by at most one. -/
theorem centerCrop_spec {h w : Nat} : ∃ y x size : Nat, centerCrop h w = ((y : Int), (x : Int), (size : Int), (size : Int)) ∧ 8 * size ≤ 7 * min h w ∧ 7 * min h w < 8 * (size + 1) ∧
    y + size ≤ h ∧ x + size ≤ w ∧ (h - size - y = y ∨ h - size - y + 1 = y) ∧ (w - size - x = x ∨ w - size - x + 1 = x) := by
  refine ⟨(h - 7 * min h w / 8 + 1) / 2, (w - 7 * min h w / 8 + 1) / 2, 7 * min h w / 8, ?_, by omega, by omega, by omega, by omega, by omega, by omega⟩
  unfold centerCrop
  simp only [Prod.mk.injEq]
  refine ⟨?_, ?_, ?_, ?_⟩ <;> omega

example : centerCrop 500 375 = (86, 24, 328, 328) := by decide

/-- C169: the transpose in the network undoes that of the data set. -/
theorem transpose_inverse {n h w c : Nat} (x : Arr K) (hx : x.shape = [n, h, w, c]) : ∃ y, transposeFn x = .ok y ∧ y.shape = [h, w, c, n] ∧ (∀ b i j k, y.val [i, j, k, b] = x.val [b, i, j, k]) ∧
    ∃ z, transposeBack y = .ok z ∧ z.shape = x.shape ∧ ∀ b i j k, z.val [b, i, j, k] = x.val [b, i, j, k] := by
  refine ⟨⟨[h, w, c, n], fun i => x.val [i.getD 3 0, i.getD 0 0, i.getD 1 0, i.getD 2 0]⟩, ?_, rfl, fun _ _ _ _ => rfl, ⟨[n, h, w, c], _⟩, rfl, hx.symm, fun _ _ _ _ => rfl⟩
  unfold transposeFn
  rw [hx]

example : ∃ y, transposeFn (⟨[2, 224, 224, 3], fun i => i⟩ : Arr (List Nat)) = .ok y ∧ y.val [5, 6, 2, 1] = [1, 5, 6, 2] := ⟨_, rfl, rfl⟩

/-- C169: step `k` gives each device its batch; example `j` of device `d` is example number `(k * devices + d) * size + j` of the data set. -/
theorem trainBatches_get {α : Type} (devices size : Nat) (s : Nat → α) (k : Nat) : (trainBatches devices size s k).length = devices ∧ (∀ b ∈ trainBatches devices size s k, b.length = size) ∧
    ∀ d j, d < devices → j < size → ((trainBatches devices size s k)[d]?.bind fun b => b[j]?) = some (s ((k * devices + d) * size + j)) := by
  refine ⟨by simp [trainBatches, batchStream], fun b hb => ?_, fun d j hd hj => ?_⟩
  · obtain ⟨d, _, rfl⟩ := List.mem_map.mp hb
    simp [batchStream]
  · have e1 : (trainBatches devices size s k)[d]? = some (batchStream size s (k * devices + d)) := by
      unfold trainBatches
      conv_lhs => unfold batchStream
      rw [List.getElem?_map, List.getElem?_range hd]
      rfl
    rw [e1]
    show (batchStream size s (k * devices + d))[j]? = _
    unfold batchStream
    rw [List.getElem?_map, List.getElem?_range hj]
    rfl

/-- C169: so in training each example of the (repeated) data set goes to one place. -/
theorem trainBatches_once {devices size : Nat} (hd : 0 < devices) (hs : 0 < size) (p : Nat) : ∃! q : Nat × Nat × Nat, q.2.1 < devices ∧ q.2.2 < size ∧ (q.1 * devices + q.2.1) * size + q.2.2 = p := by
  refine ⟨(p / size / devices, p / size % devices, p % size), ⟨Nat.mod_lt _ hd, Nat.mod_lt _ hs, ?_⟩, ?_⟩
  · show (p / size / devices * devices + p / size % devices) * size + p % size = p
    rw [Nat.div_add_mod', Nat.div_add_mod']
  · rintro ⟨k, d, j⟩ ⟨h1, h2, h3⟩
    dsimp only at h1 h2 h3
    have e1 : p / size = k * devices + d := by
      rw [← h3, Nat.mul_comm, Nat.mul_add_div hs, Nat.div_eq_of_lt h2, Nat.add_zero]
    have e2 : p % size = j := by
      rw [← h3, Nat.mul_comm, Nat.mul_add_mod, Nat.mod_eq_of_lt h2]
    have e3 : p / size / devices = k := by
      rw [e1, Nat.mul_comm, Nat.mul_add_div hd, Nat.div_eq_of_lt h1, Nat.add_zero]
    have e4 : p / size % devices = d := by
      rw [e1, Nat.mul_comm, Nat.mul_add_mod, Nat.mod_eq_of_lt h1]
    rw [e2, e3, e4]

example : trainBatches 2 3 id 1 = [[6, 7, 8], [9, 10, 11]] := by decide

end Verif.Props.ImageNet
