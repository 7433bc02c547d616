import Verif.Model.RnnTrain
import Verif.Props.Mnist

/-!
# The training of `examples/rnn` (C189)

Specification: the training is the sequence `trained` of states, one for every batch after the first; the keys are the sequence `keyAt`; the log is made of the lines of the steps.
-/

namespace Verif.Props.RnnTrain
open Verif.Shapes (Err)
open Verif.RnnTrain

variable {P O G U B C S L : Type}

/-- The key a sequence holds after handing out `n`. -/
def held (seed : Int) : Nat → Key
  | 0 => .root seed
  | n + 1 => .child (held seed n) 2 0

/-- The keys a sequence hands out. -/
def keyAt (seed : Int) (n : Nat) : Key := .child (held seed n) 2 1

/-- The parameters and the state of the optimiser after `n` steps: batch 0 only makes the parameters, batch `n` is that of step `n`. -/
def trained (T : Task P O G U B C S L) (seed : Int) (batches : Nat → B) : Nat → P × O
  | 0 => (T.paramsInit (keyAt seed 0) (batches 0), T.optInit (T.paramsInit (keyAt seed 0) (batches 0)))
  | n + 1 =>
    let p := trained T seed batches n
    let u := T.optimizer (T.grad p.1 (batches (n + 1))) p.2
    (T.applyUpdates p.1 u.1, u.2)

/-- What the step number `t` logs: with the parameters after the step. -/
def lines (T : Task P O G U B C S L) (F : Flags) (batches : Nat → B) (eval : Split → Nat → B) (t : Nat) : List (Line C S L) :=
  let p := (trained T F.seed batches (t + 1)).1
  (if F.samplingInterval ∣ t then [.sampled (T.context (batches (t + 1))) (T.sampleFn p (keyAt F.seed (t / F.samplingInterval + 1)) (T.context (batches (t + 1))) F.sampleLength)] else []) ++
  (if F.evaluationInterval ∣ t then [.evaluated t (T.lossFn p (eval .train (t / F.evaluationInterval))) .train, .evaluated t (T.lossFn p (eval .test (t / F.evaluationInterval))) .test] else [])

/-- How many multiples of `e` there are below `n`. -/
def below (e n : Nat) : Nat := Mnist.evaluations e n

theorem below_succ (e n : Nat) : below e (n + 1) = below e n + if e ∣ n then 1 else 0 := by
  unfold below Mnist.evaluations
  rw [List.range_succ, List.filter_append, List.length_append]
  congr 1
  by_cases h : e ∣ n
  · rw [if_pos h, List.filter_cons, if_pos (by simpa using Nat.mod_eq_zero_of_dvd h)]
    rfl
  · rw [if_neg h, List.filter_cons, if_neg (by simpa using fun h' => h (Nat.dvd_of_mod_eq_zero h'))]
    rfl

theorem below_eq {e n : Nat} (he : 0 < e) (h : e ∣ n) : below e n = n / e := by
  obtain ⟨k, rfl⟩ := h
  unfold below
  rw [Nat.mul_comm, Mnist.evaluations_eq he, Nat.mul_div_cancel _ he]

theorem nextKey_held (seed : Int) (n : Nat) : nextKey ⟨held seed n, []⟩ = .ok (keyAt seed n, ⟨held seed (n + 1), []⟩) := rfl

theorem due_pos {e : Nat} (he : 0 < e) (t : Nat) : due t e = .ok (decide (e ∣ t)) := by
  unfold due
  rw [if_neg (by omega)]
  congr 1
  by_cases h : e ∣ t
  · rw [decide_eq_true h]
    simpa using Nat.mod_eq_zero_of_dvd h
  · rw [decide_eq_false h]
    simpa using fun h' => h (Nat.dvd_of_mod_eq_zero h')

/-- The variables before the step number `n`. -/
def varsAt (T : Task P O G U B C S L) (F : Flags) (batches : Nat → B) (eval : Split → Nat → B) (n : Nat) : Vars P O C S L :=
  ⟨⟨(trained T F.seed batches n).1, (trained T F.seed batches n).2⟩, ⟨held F.seed (below F.samplingInterval n + 1), []⟩, n + 1, below F.evaluationInterval n,
    (List.range n).flatMap (lines T F batches eval)⟩

theorem body_at (T : Task P O G U B C S L) {F : Flags} (hs : 0 < F.samplingInterval) (he : 0 < F.evaluationInterval) (batches : Nat → B) (eval : Split → Nat → B) (n : Nat) :
    body T F batches eval n (varsAt T F batches eval n) = .ok (varsAt T F batches eval (n + 1)) := by
  unfold body sampling evaluation
  rw [due_pos hs]
  simp only [due_pos he]
  have hl : (List.range (n + 1)).flatMap (lines T F batches eval) = (List.range n).flatMap (lines T F batches eval) ++ lines T F batches eval n := by
    rw [List.range_succ, List.flatMap_append]
    simp
  unfold varsAt
  rw [hl, below_succ, below_succ]
  unfold lines
  by_cases h1 : F.samplingInterval ∣ n <;> by_cases h2 : F.evaluationInterval ∣ n
  · have e1 := below_eq hs h1
    have e2 := below_eq he h2
    simp [h1, h2, e1, e2, bind, Except.bind, nextKey_held, update, trained]
  · have e1 := below_eq hs h1
    simp [h1, h2, e1, bind, Except.bind, nextKey_held, update, trained]
  · have e2 := below_eq he h2
    simp [h1, h2, e2, bind, Except.bind, update, trained]
  · simp [h1, h2, bind, Except.bind, update, trained]

theorem loop_at (T : Task P O G U B C S L) {F : Flags} (hs : 0 < F.samplingInterval) (he : 0 < F.evaluationInterval) (batches : Nat → B) (eval : Split → Nat → B) (n : Nat) :
    ∀ i, loop T F batches eval i n (varsAt T F batches eval i) = .ok (varsAt T F batches eval (i + n)) := by
  induction n with
  | zero => exact fun i => rfl
  | succ n ih =>
    intro i
    rw [loop, body_at T hs he]
    show loop T F batches eval (i + 1) n _ = _
    rw [ih (i + 1), Nat.add_right_comm, Nat.add_assoc]

theorem main_at (T : Task P O G U B C S L) {F : Flags} (hs : 0 < F.samplingInterval) (he : 0 < F.evaluationInterval) (batches : Nat → B) (eval : Split → Nat → B) :
    main T F batches eval = .ok (varsAt T F batches eval (F.trainingSteps + 1)) := by
  have := loop_at T hs he batches eval (F.trainingSteps + 1) 0
  rw [Nat.zero_add] at this
  exact this

/-- C189: the log.  With positive intervals the example makes `training_steps + 1` steps.  Every `sampling_interval`-th step, from step 0 on, logs what the parameters after the step make of the first sequence of the batch of the step, with the next key of the sequence; every `evaluation_interval`-th step logs the losses of the parameters after the step on the next batch of each of the two data sets.  Nothing else is logged. -/
theorem main_log (T : Task P O G U B C S L) {F : Flags} (hs : 0 < F.samplingInterval) (he : 0 < F.evaluationInterval) (batches : Nat → B) (eval : Split → Nat → B) :
    ∃ v, main T F batches eval = .ok v ∧ v.log = (List.range (F.trainingSteps + 1)).flatMap (lines T F batches eval) := ⟨_, main_at T hs he batches eval, rfl⟩

/-- C189: the training.  It makes one update for each of the batches 1, …, `training_steps + 1`, in order, from the parameters made with batch 0; how often it samples and evaluates, on what, and how long the samples are, makes no difference to it. -/
theorem main_trains (T : Task P O G U B C S L) {F : Flags} (hs : 0 < F.samplingInterval) (he : 0 < F.evaluationInterval) (batches : Nat → B) (eval : Split → Nat → B) :
    ∃ v, main T F batches eval = .ok v ∧ (v.state.params, v.state.optState) = trained T F.seed batches (F.trainingSteps + 1) ∧ v.taken = F.trainingSteps + 2 := ⟨_, main_at T hs he batches eval, rfl, rfl⟩

/-- C189: what is taken of the data sets of the evaluation: one batch for every evaluation, of which there are `training_steps / evaluation_interval + 1`. -/
theorem main_evals (T : Task P O G U B C S L) {F : Flags} (hs : 0 < F.samplingInterval) (he : 0 < F.evaluationInterval) (batches : Nat → B) (eval : Split → Nat → B) :
    ∃ v, main T F batches eval = .ok v ∧ v.takenEval = F.trainingSteps / F.evaluationInterval + 1 := by
  refine ⟨_, main_at T hs he batches eval, ?_⟩
  show below F.evaluationInterval (F.trainingSteps + 1) = _
  generalize F.evaluationInterval = e at he
  generalize F.trainingSteps = n
  induction n with
  | zero => rw [below_succ, if_pos (Nat.dvd_zero e)]; simp [below, Mnist.evaluations]
  | succ n ih =>
    rw [below_succ, ih, Nat.succ_div]
    omega

theorem held_depth (seed : Int) {m n : Nat} (h : held seed m = held seed n) : m = n := by
  induction m generalizing n with
  | zero => cases n with
    | zero => rfl
    | succ n => simp [held] at h
  | succ m ih => cases n with
    | zero => simp [held] at h
    | succ n =>
      simp only [held, Key.child.injEq] at h
      rw [ih h.1]

/-- C189: the parameters and the samples never share a key: the key number 0 makes the parameters, the samples of the step `t` have the number `t / sampling_interval + 1`, and the keys are all different. -/
theorem keys_differ (seed : Int) : Function.Injective (keyAt seed) := fun m n h => by
  simp only [keyAt, Key.child.injEq] at h
  exact held_depth seed h.1

/-- C189: `keyAt` is what a sequence hands out, in order. -/
theorem keys_handed (seed : Int) (n : Nat) : ((PRNGSeq.ofSeed seed).nextN n).1 = (List.range n).map (keyAt seed) := by
  have : ∀ n i, ((⟨held seed i, []⟩ : PRNGSeq).nextN n).1 = (List.range n).map (fun j => keyAt seed (i + j)) := by
    intro n
    induction n with
    | zero => exact fun i => rfl
    | succ n ih =>
      intro i
      have h : (⟨held seed i, []⟩ : PRNGSeq).next = (some (keyAt seed i), ⟨held seed (i + 1), []⟩) := rfl
      rw [PRNGSeq.nextN, h]
      dsimp only
      rw [ih (i + 1), List.range_succ_eq_map, List.map_cons, List.map_map]
      congr 1
      refine List.map_congr_left fun j _ => ?_
      show keyAt seed (i + 1 + j) = keyAt seed (i + (j + 1))
      rw [Nat.add_right_comm, Nat.add_assoc]
  have h := this n 0
  simp only [Nat.zero_add] at h
  exact h

/-- C189: an interval of 0 is a `ZeroDivisionError`, after one update and before anything is logged or, for the interval of the evaluation, after the first sample. -/
theorem main_zero (T : Task P O G U B C S L) {F : Flags} (h : F.samplingInterval = 0 ∨ F.evaluationInterval = 0) (batches : Nat → B) (eval : Split → Nat → B) :
    main T F batches eval = .error .zeroDivision := by
  have hb : ∀ v : Vars P O C S L, v.rng = ⟨held F.seed 1, []⟩ → body T F batches eval 0 v = .error .zeroDivision := by
    intro v hv
    unfold body sampling evaluation
    by_cases hs : F.samplingInterval = 0
    · simp [due, hs, bind, Except.bind]
    · have he := h.resolve_left hs
      simp [due, hs, he, hv, nextKey_held, bind, Except.bind]
  show loop T F batches eval 0 (F.trainingSteps + 1) _ = _
  rw [loop, hb _ rfl]
  rfl

/-- A small task on numbers: parameters are numbers, the gradient is the batch, the optimiser counts its calls. -/
def toy : Task Nat Nat Nat Nat Nat Nat (Nat × Key × Nat × Nat) Nat :=
  ⟨fun _ b => b, fun _ => 0, fun p b => p + b, fun g o => (g + o, o + 1), fun p u => 2 * p + u, fun p b => p + 100 * b, fun b => b % 3, fun p k c n => (p, k, c, n)⟩

/-- Four steps, a sample every second one, an evaluation every third one. -/
def toyFlags : Flags := ⟨3, 2, 3, 7, 42⟩

example : (main toy toyFlags (fun n => n + 5) (fun s n => match s with | .train => n | .test => n + 10)).map (fun v => (v.log, v.state.params, v.taken, v.takenEval)) = .ok
    ([.sampled 0 (21, .child (.child (.root 42) 2 0) 2 1, 0, 7), .evaluated 0 21 .train, .evaluated 0 1021 .test,
      .sampled 2 (223, .child (.child (.child (.root 42) 2 0) 2 0) 2 1, 2, 7), .evaluated 3 781 .train, .evaluated 3 1781 .test], 681, 5, 2) := by rfl

example : 0 < toyFlags.samplingInterval ∧ 0 < toyFlags.evaluationInterval := by decide

example : main toy { toyFlags with evaluationInterval := 0 } (fun n => n + 5) (fun _ n => n) = .error .zeroDivision := main_zero toy (.inr rfl) _ _

end Verif.Props.RnnTrain
