import Verif.Model.ImpalaLearner
import Verif.Props.ImpalaLite

/-!
# The threads of the IMPALA example: what reaches the learner (C149), and whether the program ends (C150, C151)
-/

set_option linter.unusedVariables false

namespace Verif.Props.Impala
open Verif.Impala
open Verif.ImpalaLite (Traj)
open Verif.Props.ImpalaLite (numbers sum_update_mem)

/-! ### Specification -/

/-- The batch that the learner works on. -/
def working : Learner → List Traj
  | .updating b => b
  | _ => []

/-- All trajectories that were put, in the order of the pipeline. -/
def line (s : State) : List Traj := s.seen.flatten ++ working s.learner ++ s.deviceQ.flatten ++ s.batch ++ s.hostQ

/-- Number of trajectories that actors have put. -/
def total (c : Config) (s : State) : Nat := ∑ i ∈ Finset.range c.actors, s.made i

/-- The state is reached by some interleaving. -/
def Reachable (c : Config) (s : State) : Prop := ∃ es, run c start es = some s

/-- From this state on, `run` of the learner never returns, whatever happens. -/
def LearnerHangs (c : Config) (s : State) : Prop := ∀ es s', run c s es = some s' → s'.learner ≠ .finished

/-- From this state on, `main` never ends, whatever happens. -/
def MainHangs (c : Config) (s : State) : Prop := ∀ es s', run c s es = some s' → s'.ended = false

/-! ### Invariants -/

/-- The flow of trajectories. -/
structure Flow (c : Config) (s : State) : Prop where
  push : ∀ i t, s.actor i = .push t → t.actor = i ∧ t.number = s.made i ∧ i < c.actors ∧ t.version ≤ s.seen.length
  order : ∀ i, numbers i (line s) = List.range (s.made i)
  actors : ∀ t ∈ line s, t.actor < c.actors ∧ t.version ≤ s.seen.length
  count : (line s).length = total c s
  host : s.hostQ.length ≤ c.batchSize
  batch : s.batch.length ≤ c.batchSize
  device : s.deviceQ.length ≤ 1
  full : s.worker = .putting → s.batch.length = c.batchSize
  seen : ∀ b ∈ s.seen, b.length = c.batchSize
  queued : ∀ b ∈ s.deviceQ, b.length = c.batchSize
  held : ∀ b, s.learner = .updating b → b.length = c.batchSize
  frames : s.frames = s.seen.length * c.framesPerIter

/-- The phases of the threads. -/
structure Control (c : Config) (s : State) : Prop where
  more : ∀ b, s.learner = .updating b → Verif.Impala.more c s.seen.length = true
  bound : ∀ m, c.maxIterations = some m → s.seen.length ≤ m
  done : s.done = true ↔ s.learner = .joining ∨ s.learner = .finished
  last : s.done = true → Verif.Impala.more c s.seen.length = false
  exited : s.worker = .exited → s.done = true
  stop : s.stop = true ↔ s.learner = .finished
  finished : s.learner = .finished → s.worker = .exited
  stopped : ∀ i, s.actor i = .stopped → s.stop = true
  ended : s.ended = true → s.learner = .finished ∧ ∀ i < c.actors, s.actor i = .stopped

theorem start_flow (c : Config) : Flow c start := by
  refine ⟨fun i t h => (by cases h), fun i => rfl, fun t h => (by cases h), ?_, Nat.zero_le _, Nat.zero_le _, Nat.zero_le _, fun h => (by cases h), fun b h => (by cases h), fun b h => (by cases h), fun b h => (by cases h), ?_⟩
  · simp [line, working, total, start]
  · simp [start]

theorem start_control (c : Config) : Control c start :=
  ⟨fun b h => (by cases h), fun m _ => Nat.zero_le _, by simp [start], fun h => (by cases h), fun h => (by cases h), by simp [start], fun h => (by cases h), fun i h => (by cases h), fun h => (by cases h)⟩

/-- An event that leaves the line of trajectories and the actors' counts as they are keeps the flow. -/
theorem flow_of {c : Config} {s s' : State} (h : Flow c s) (hl : line s' = line s) (hm : s'.made = s.made) (hs : s.seen.length ≤ s'.seen.length)
    (hp : ∀ i t, s'.actor i = .push t → s.actor i = .push t ∨ (i < c.actors ∧ t = ⟨i, s.made i, s.seen.length⟩)) (h1 : s'.hostQ.length ≤ c.batchSize) (h2 : s'.batch.length ≤ c.batchSize) (h3 : s'.deviceQ.length ≤ 1)
    (h4 : s'.worker = .putting → s'.batch.length = c.batchSize) (h5 : ∀ b ∈ s'.seen, b.length = c.batchSize) (h6 : ∀ b ∈ s'.deviceQ, b.length = c.batchSize)
    (h7 : ∀ b, s'.learner = .updating b → b.length = c.batchSize) (h8 : s'.frames = s'.seen.length * c.framesPerIter) : Flow c s' := by
  refine ⟨fun i t ht => ?_, fun i => ?_, fun t ht => ?_, ?_, h1, h2, h3, h4, h5, h6, h7, h8⟩
  · rw [hm]
    rcases hp i t ht with h' | ⟨h', rfl⟩
    · obtain ⟨a, b, d, e⟩ := h.push i t h'
      exact ⟨a, b, d, e.trans hs⟩
    · exact ⟨rfl, rfl, h', hs⟩
  · rw [hl, hm]; exact h.order i
  · rw [hl] at ht
    exact ⟨(h.actors t ht).1, (h.actors t ht).2.trans hs⟩
  · rw [hl, h.count]
    simp only [total, hm]

theorem step_flow {c : Config} {s s' : State} {e : Event} (h : Flow c s) (he : step c s e = some s') : Flow c s' := by
  cases e with
  | actorTest i =>
    simp only [step] at he
    split at he
    · cases he
      refine flow_of h rfl rfl le_rfl (fun j t ht => ?_) h.host h.batch h.device h.full h.seen h.queued h.held h.frames
      by_cases e : j = i
      · subst e
        simp only [Function.update_self] at ht
        split at ht <;> cases ht
      · simp only [Function.update_of_ne e] at ht
        exact .inl ht
    · cases he
  | actorPull i =>
    simp only [step] at he
    split at he
    · rename_i hc
      cases he
      refine flow_of h rfl rfl le_rfl (fun j t ht => ?_) h.host h.batch h.device h.full h.seen h.queued h.held h.frames
      by_cases e : j = i
      · subst e
        simp only [Function.update_self] at ht
        cases ht
        exact .inr ⟨hc.1, rfl⟩
      · simp only [Function.update_of_ne e] at ht
        exact .inl ht
    · cases he
  | actorPush i =>
    simp only [step] at he
    cases ha : s.actor i with
    | push t =>
      rw [ha] at he
      dsimp only at he
      split at he
      · rename_i hc
        cases he
        obtain ⟨h1, h2, h3, h4⟩ := h.push i t ha
        have hl : line { s with actor := Function.update s.actor i .test, made := Function.update s.made i (s.made i + 1), hostQ := s.hostQ ++ [t] } = line s ++ [t] := by simp [line]
        refine ⟨fun j u hu => ?_, fun j => ?_, fun u hu => ?_, ?_, ?_, h.batch, h.device, h.full, h.seen, h.queued, h.held, h.frames⟩
        · by_cases e : j = i
          · subst e; simp at hu
          · simp only [Function.update_of_ne e] at hu ⊢
            exact h.push j u hu
        · rw [hl]
          have ho := h.order j
          unfold numbers at ho ⊢
          rw [List.filter_append, List.map_append, ho]
          by_cases e : j = i
          · subst e
            simp [h1, h2, List.range_succ]
          · have : ¬t.actor = j := fun e' => e (e'.symm.trans h1)
            simp [Function.update_of_ne e, this]
        · rw [hl] at hu
          rcases List.mem_append.mp hu with hu | hu
          · exact h.actors u hu
          · rw [List.mem_singleton.mp hu, h1]; exact ⟨h3, h4⟩
        · have hsum := sum_update_mem s.made h3 (s.made i + 1)
          rw [hl, List.length_append, h.count]
          simp only [total, List.length_singleton] at hsum ⊢
          omega
        · simp only [List.length_append, List.length_singleton]; omega
      · cases he
    | _ => rw [ha] at he; cases he
  | workerTest =>
    simp only [step] at he
    split at he
    · cases he
      refine flow_of h rfl rfl le_rfl (fun j t ht => .inl ht) h.host h.batch h.device (fun hw => ?_) h.seen h.queued h.held h.frames
      dsimp only at hw
      split at hw <;> cases hw
    · cases he
  | workerGet =>
    simp only [step] at he
    split at he
    · rename_i hc
      cases hq : s.hostQ with
      | nil => rw [hq] at he; cases he
      | cons t q =>
        rw [hq] at he
        cases he
        refine flow_of h (by simp [line, hq]) rfl le_rfl (fun j t ht => .inl ht) ?_ ?_ h.device (fun hw => ?_) h.seen h.queued h.held h.frames
        · have := h.host
          rw [hq, List.length_cons] at this
          exact Nat.le_of_succ_le this
        · simp only [List.length_append, List.length_singleton]; omega
        · dsimp only at hw
          rw [hc.1] at hw
          cases hw
    · cases he
  | workerTimeout =>
    simp only [step] at he
    split at he
    · cases he
      exact flow_of h rfl rfl le_rfl (fun j t ht => .inl ht) h.host h.batch h.device (fun hw => by cases hw) h.seen h.queued h.held h.frames
    · cases he
  | workerFull =>
    simp only [step] at he
    split at he
    · rename_i hc
      cases he
      exact flow_of h rfl rfl le_rfl (fun j t ht => .inl ht) h.host h.batch h.device (fun _ => hc.2) h.seen h.queued h.held h.frames
    · cases he
  | workerPut =>
    simp only [step] at he
    split at he
    · rename_i hc
      cases he
      refine flow_of h (by simp [line]) rfl le_rfl (fun j t ht => .inl ht) h.host (Nat.zero_le _) ?_ (fun hw => by cases hw) h.seen (fun b hb => ?_) h.held h.frames
      · simp only [List.length_append, List.length_singleton]; omega
      · rcases List.mem_append.mp hb with hb | hb
        · exact h.queued b hb
        · rw [List.mem_singleton.mp hb]; exact h.full hc.1
    · cases he
  | learnerGet =>
    simp only [step] at he
    split at he
    · rename_i hc
      cases hq : s.deviceQ with
      | nil => rw [hq] at he; cases he
      | cons b q =>
        rw [hq] at he
        cases he
        refine flow_of h (by simp [line, hq, hc.1, working]) rfl le_rfl (fun j t ht => .inl ht) h.host h.batch ?_ h.full h.seen (fun b' hb => h.queued b' (by rw [hq]; exact .tail _ hb)) (fun b' hb => ?_) h.frames
        · have := h.device
          rw [hq, List.length_cons] at this
          exact Nat.le_of_succ_le this
        · cases hb
          exact h.queued b (by rw [hq]; exact .head _)
    · cases he
  | learnerUpdate =>
    simp only [step] at he
    cases ha : s.learner with
    | updating b =>
      rw [ha] at he
      cases he
      refine flow_of h (by simp [line, ha, working]) rfl ?_ (fun j t ht => .inl ht) h.host h.batch h.device h.full (fun b' hb => ?_) h.queued (fun b' hb => by cases hb) ?_
      · simp
      · rcases List.mem_append.mp hb with hb | hb
        · exact h.seen b' hb
        · rw [List.mem_singleton.mp hb]; exact h.held b ha
      · simp only [List.length_append, List.length_singleton, h.frames, Nat.add_mul, Nat.one_mul]
    | _ => rw [ha] at he; cases he
  | learnerDone =>
    simp only [step] at he
    split at he
    · rename_i hc
      cases he
      exact flow_of h (by simp [line, hc.1, working]) rfl le_rfl (fun j t ht => .inl ht) h.host h.batch h.device h.full h.seen h.queued (fun b' hb => by cases hb) h.frames
    · cases he
  | learnerJoin =>
    simp only [step] at he
    split at he
    · rename_i hc
      cases he
      exact flow_of h (by simp [line, hc.1, working]) rfl le_rfl (fun j t ht => .inl ht) h.host h.batch h.device h.full h.seen h.queued (fun b' hb => by cases hb) h.frames
    · cases he
  | mainJoin =>
    simp only [step] at he
    split at he
    · cases he
      exact flow_of h rfl rfl le_rfl (fun j t ht => .inl ht) h.host h.batch h.device h.full h.seen h.queued h.held h.frames
    · cases he

theorem step_control {c : Config} {s s' : State} {e : Event} (h : Control c s) (he : step c s e = some s') : Control c s' := by
  obtain ⟨h1, h2, h3, h4, h5, h6, h7, h8, h9⟩ := h
  cases e with
  | actorTest i =>
    simp only [step] at he
    split at he
    · rename_i hc
      cases he
      refine ⟨h1, h2, h3, h4, h5, h6, h7, fun j hj => ?_, fun he => ⟨(h9 he).1, fun j hj => ?_⟩⟩
      · by_cases e : j = i
        · subst e
          simp only [Function.update_self] at hj
          split at hj
          · assumption
          · cases hj
        · simp only [Function.update_of_ne e] at hj
          exact h8 j hj
      · by_cases e : j = i
        · subst e
          have := (h9 he).2 j hj
          rw [hc.2] at this
          cases this
        · simp only [Function.update_of_ne e]
          exact (h9 he).2 j hj
    · cases he
  | actorPull i =>
    simp only [step] at he
    split at he
    · rename_i hc
      cases he
      refine ⟨h1, h2, h3, h4, h5, h6, h7, fun j hj => ?_, fun he => ⟨(h9 he).1, fun j hj => ?_⟩⟩
      · by_cases e : j = i
        · subst e; simp at hj
        · simp only [Function.update_of_ne e] at hj
          exact h8 j hj
      · by_cases e : j = i
        · subst e
          have := (h9 he).2 j hj
          rw [hc.2] at this
          cases this
        · simp only [Function.update_of_ne e]
          exact (h9 he).2 j hj
    · cases he
  | actorPush i =>
    simp only [step] at he
    cases ha : s.actor i with
    | push t =>
      rw [ha] at he
      dsimp only at he
      split at he
      · cases he
        refine ⟨h1, h2, h3, h4, h5, h6, h7, fun j hj => ?_, fun he => ⟨(h9 he).1, fun j hj => ?_⟩⟩
        · by_cases e : j = i
          · subst e; simp at hj
          · simp only [Function.update_of_ne e] at hj
            exact h8 j hj
        · by_cases e : j = i
          · subst e
            have := (h9 he).2 j hj
            rw [ha] at this
            cases this
          · simp only [Function.update_of_ne e]
            exact (h9 he).2 j hj
      · cases he
    | _ => rw [ha] at he; cases he
  | workerTest =>
    simp only [step] at he
    split at he
    · rename_i hc
      cases he
      refine ⟨h1, h2, h3, h4, fun hw => ?_, h6, fun hf => ?_, h8, h9⟩
      · dsimp only at hw
        split at hw
        · assumption
        · cases hw
      · have := h7 hf
        rw [hc] at this
        cases this
    · cases he
  | workerGet =>
    simp only [step] at he
    split at he
    · cases hq : s.hostQ with
      | nil => rw [hq] at he; cases he
      | cons t q =>
        rw [hq] at he
        cases he
        exact ⟨h1, h2, h3, h4, h5, h6, h7, h8, h9⟩
    · cases he
  | workerTimeout =>
    simp only [step] at he
    split at he
    · rename_i hc
      cases he
      refine ⟨h1, h2, h3, h4, fun hw => (by cases hw), h6, fun hf => ?_, h8, h9⟩
      have := h7 hf
      rw [hc.1] at this
      cases this
    · cases he
  | workerFull =>
    simp only [step] at he
    split at he
    · rename_i hc
      cases he
      refine ⟨h1, h2, h3, h4, fun hw => (by cases hw), h6, fun hf => ?_, h8, h9⟩
      have := h7 hf
      rw [hc.1] at this
      cases this
    · cases he
  | workerPut =>
    simp only [step] at he
    split at he
    · rename_i hc
      cases he
      refine ⟨h1, h2, h3, h4, fun hw => (by cases hw), h6, fun hf => ?_, h8, h9⟩
      have := h7 hf
      rw [hc.1] at this
      cases this
    · cases he
  | learnerGet =>
    simp only [step] at he
    split at he
    · rename_i hc
      cases hq : s.deviceQ with
      | nil => rw [hq] at he; cases he
      | cons b q =>
        rw [hq] at he
        cases he
        have hd : ¬s.done = true := fun hd => by
          rcases h3.mp hd with h | h <;> rw [hc.1] at h <;> cases h
        have hs : ¬s.stop = true := fun hs => by
          have := h6.mp hs
          rw [hc.1] at this
          cases this
        have he : ¬s.ended = true := fun he => by
          have := (h9 he).1
          rw [hc.1] at this
          cases this
        exact ⟨fun b' _ => hc.2, h2, ⟨fun h => absurd h hd, fun h => by rcases h with h | h <;> cases h⟩, h4, h5, ⟨fun h => absurd h hs, fun h => by cases h⟩, fun h => (by cases h), h8, fun h => absurd h he⟩
    · cases he
  | learnerUpdate =>
    simp only [step] at he
    cases ha : s.learner with
    | updating b =>
      rw [ha] at he
      cases he
      have hd : ¬s.done = true := fun hd => by
        rcases h3.mp hd with h | h <;> rw [ha] at h <;> cases h
      have hs : ¬s.stop = true := fun hs => by
        have := h6.mp hs
        rw [ha] at this
        cases this
      have he : ¬s.ended = true := fun he => by
        have := (h9 he).1
        rw [ha] at this
        cases this
      refine ⟨fun b' h => (by cases h), fun m hm => ?_, ⟨fun h => absurd h hd, fun h => by rcases h with h | h <;> cases h⟩, fun h => absurd h hd, h5, ⟨fun h => absurd h hs, fun h => by cases h⟩, fun h => (by cases h), h8, fun h => absurd h he⟩
      have := h1 b ha
      simp only [Verif.Impala.more, hm, decide_eq_true_eq] at this
      simp only [List.length_append, List.length_singleton]
      omega
    | _ => rw [ha] at he; cases he
  | learnerDone =>
    simp only [step] at he
    split at he
    · rename_i hc
      cases he
      have hs : ¬s.stop = true := fun hs => by
        have := h6.mp hs
        rw [hc.1] at this
        cases this
      have he : ¬s.ended = true := fun he => by
        have := (h9 he).1
        rw [hc.1] at this
        cases this
      exact ⟨fun b' h => (by cases h), h2, ⟨fun _ => .inl rfl, fun _ => rfl⟩, fun _ => hc.2, fun _ => rfl, ⟨fun h => absurd h hs, fun h => by cases h⟩, fun h => (by cases h), h8, fun h => absurd h he⟩
    · cases he
  | learnerJoin =>
    simp only [step] at he
    split at he
    · rename_i hc
      cases he
      have hd : s.done = true := h3.mpr (.inl hc.1)
      have he : ¬s.ended = true := fun he => by
        have := (h9 he).1
        rw [hc.1] at this
        cases this
      exact ⟨fun b' h => (by cases h), h2, ⟨fun _ => .inr rfl, fun _ => hd⟩, h4, h5, ⟨fun _ => rfl, fun _ => rfl⟩, fun _ => hc.2, fun _ _ => rfl, fun h => absurd h he⟩
    · cases he
  | mainJoin =>
    simp only [step] at he
    split at he
    · rename_i hc
      cases he
      refine ⟨h1, h2, h3, h4, h5, h6, h7, h8, fun _ => ⟨hc.1, fun j hj => ?_⟩⟩
      have := List.all_eq_true.mp hc.2 j (List.mem_range.mpr hj)
      exact of_decide_eq_true this
    · cases he

theorem run_append {c : Config} (es fs : List Event) : ∀ (s : State), run c s (es ++ fs) = (run c s es).bind fun s' => run c s' fs := by
  induction es with
  | nil => intro s; rfl
  | cons e es ih =>
    intro s
    show (step c s e).bind (fun s => run c s (es ++ fs)) = ((step c s e).bind fun s => run c s es).bind fun s' => run c s' fs
    rw [Option.bind_assoc]
    congr 1
    funext t
    exact ih t

theorem run_preserves {c : Config} {P : State → Prop} (hP : ∀ s e s', P s → step c s e = some s' → P s') (es : List Event) : ∀ {s s' : State}, P s → run c s es = some s' → P s' := by
  induction es with
  | nil => intro s s' h hr; cases hr; exact h
  | cons e es ih =>
    intro s s' h hr
    simp only [run, Option.bind_eq_some_iff] at hr
    obtain ⟨t, h1, h2⟩ := hr
    exact ih (hP s e t h h1) h2

theorem reachable_inv {c : Config} {s : State} (h : Reachable c s) : Flow c s ∧ Control c s := by
  obtain ⟨es, h⟩ := h
  exact run_preserves (P := fun s => Flow c s ∧ Control c s) (fun s e s' hs he => ⟨step_flow hs.1 he, step_control hs.2 he⟩) es ⟨start_flow c, start_control c⟩ h

theorem reachable_run {c : Config} {s s' : State} {es : List Event} (h : Reachable c s) (hr : run c s es = some s') : Reachable c s' := by
  obtain ⟨fs, h⟩ := h
  exact ⟨fs ++ es, by rw [run_append, h]; exact hr⟩

/-- Only an update changes the batches that were seen. -/
theorem step_seen {c : Config} {s s' : State} {e : Event} (he : step c s e = some s') : s'.seen = s.seen ∨ ∃ b, s.learner = .updating b ∧ s'.seen = s.seen ++ [b] := by
  cases e <;> simp only [step] at he
  case learnerUpdate =>
    cases ha : s.learner with
    | updating b => rw [ha] at he; cases he; exact .inr ⟨b, rfl, rfl⟩
    | _ => rw [ha] at he; cases he
  all_goals
    repeat' split at he
    all_goals first
      | (cases he; exact .inl rfl)
      | cases he

/-! ### What reaches the learner -/

/-- C149: in every reachable state the trajectories of each actor have gone through the pipeline in the order in which they were made, none is lost and none is there twice, also if the worker ran into timeouts; every batch is full; the queues keep
their bounds; the number of frames is that of the updates times `frames_per_iter`. -/
theorem pipeline_ordered {c : Config} {s : State} (h : Reachable c s) :
    (∀ i, numbers i (s.seen.flatten ++ working s.learner ++ s.deviceQ.flatten ++ s.batch ++ s.hostQ) = List.range (s.made i)) ∧ (∀ b ∈ s.seen, b.length = c.batchSize) ∧
      s.hostQ.length ≤ c.batchSize ∧ s.deviceQ.length ≤ 1 ∧ s.batch.length ≤ c.batchSize ∧ s.frames = s.seen.length * c.framesPerIter ∧ ∀ m, c.maxIterations = some m → s.seen.length ≤ m := by
  obtain ⟨hf, hc⟩ := reachable_inv h
  exact ⟨hf.order, hf.seen, hf.host, hf.device, hf.batch, hf.frames, hc.bound⟩

/-- C149: the trajectories of the update number `k` were made with parameters of at most `k` updates. -/
theorem versions_causal {c : Config} {s : State} (h : Reachable c s) (k : Nat) (b : List Traj) (hk : s.seen[k]? = some b) : ∀ t ∈ b, t.version ≤ k ∧ t.actor < c.actors := by
  obtain ⟨es, h⟩ := h
  have key := run_preserves (c := c) (P := fun s => (Flow c s ∧ Control c s) ∧ ∀ (k : Nat) (b : List Traj), s.seen[k]? = some b → ∀ t ∈ b, t.version ≤ k ∧ t.actor < c.actors) (fun s e s' hs he => by
    obtain ⟨⟨hf, hc⟩, hv⟩ := hs
    refine ⟨⟨step_flow hf he, step_control hc he⟩, fun k b hk t ht => ?_⟩
    rcases step_seen he with hs | ⟨b', hb', hs⟩
    · rw [hs] at hk
      exact hv k b hk t ht
    · rw [hs] at hk
      by_cases hlt : k < s.seen.length
      · rw [List.getElem?_append_left hlt] at hk
        exact hv k b hk t ht
      · rw [List.getElem?_append_right (not_lt.mp hlt)] at hk
        obtain ⟨h0, _⟩ := List.getElem?_eq_some_iff.mp hk
        rw [List.length_singleton, Nat.lt_one_iff] at h0
        rw [h0] at hk
        cases hk
        have hm : t ∈ line s := by simp [line, hb', working, ht]
        have := hf.actors t hm
        exact ⟨by omega, this.1⟩) es ⟨⟨start_flow c, start_control c⟩, fun k b hk => by simp [start] at hk⟩ h
  exact key.2 k b hk

/-! ### Whether `run` of the learner returns -/

/-- After the last update, with a batch in the second queue and another one that the worker has, or will have without a timeout. -/
def Doomed (c : Config) (s : State) : Prop := s.learner = .joining ∧ s.deviceQ ≠ [] ∧ (s.worker = .putting ∨ s.worker = .getting ∧ c.batchSize ≤ s.batch.length + s.hostQ.length)

theorem doomed_step {c : Config} {s s' : State} {e : Event} (h : Doomed c s) (he : step c s e = some s') : Doomed c s' := by
  obtain ⟨h1, h2, h3⟩ := h
  cases e with
  | actorTest i => simp only [step] at he; split at he <;> cases he; exact ⟨h1, h2, h3⟩
  | actorPull i => simp only [step] at he; split at he <;> cases he; exact ⟨h1, h2, h3⟩
  | actorPush i =>
    simp only [step] at he
    split at he
    · split at he
      · cases he
        refine ⟨h1, h2, h3.imp id fun h => ⟨h.1, ?_⟩⟩
        simp only [List.length_append, List.length_singleton]
        omega
      · cases he
    · cases he
  | workerTest =>
    simp only [step] at he
    split at he
    · rename_i hw
      rcases h3 with h | h
      · rw [hw] at h; cases h
      · rw [hw] at h; cases h.1
    · cases he
  | workerGet =>
    simp only [step] at he
    split at he
    · rename_i hc
      split at he
      · rename_i t q hq
        cases he
        refine ⟨h1, h2, .inr ⟨hc.1, ?_⟩⟩
        rcases h3 with h | h
        · rw [hc.1] at h; cases h
        · have := h.2
          rw [hq] at this
          simp only [List.length_append, List.length_cons, List.length_nil] at this ⊢
          omega
      · cases he
    · cases he
  | workerTimeout =>
    simp only [step] at he
    split at he
    · rename_i hc
      rcases h3 with h | h
      · rw [hc.1] at h; cases h
      · have := h.2
        rw [hc.2.2, List.length_nil] at this
        omega
    · cases he
  | workerFull => simp only [step] at he; split at he <;> cases he; exact ⟨h1, h2, .inl rfl⟩
  | workerPut =>
    simp only [step] at he
    split at he
    · rename_i hc
      exact absurd (List.length_eq_zero_iff.mp (Nat.lt_one_iff.mp hc.2)) h2
    · cases he
  | learnerGet =>
    simp only [step] at he
    split at he
    · rename_i hc; rw [h1] at hc; cases hc.1
    · cases he
  | learnerUpdate => simp only [step, h1] at he; cases he
  | learnerDone =>
    simp only [step] at he
    split at he
    · rename_i hc; rw [h1] at hc; cases hc.1
    · cases he
  | learnerJoin =>
    simp only [step] at he
    split at he
    · rename_i hc
      rcases h3 with h | h
      · rw [hc.2] at h; cases h
      · rw [hc.2] at h; cases h.1
    · cases he
  | mainJoin =>
    simp only [step] at he
    split at he
    · rename_i hc; rw [h1] at hc; cases hc.1
    · cases he

theorem doomed_hangs {c : Config} {s : State} (h : Doomed c s) : LearnerHangs c s := by
  intro es s' hr hf
  have := (run_preserves (P := Doomed c) (fun s e s' => doomed_step) es h hr).1
  rw [hf] at this
  cases this

theorem run_cons {c : Config} {s t : State} {e : Event} (h : step c s e = some t) (es : List Event) : run c s (e :: es) = run c t es := by
  simp [run, h]

/-- After the last update the worker can get to its end, unless it is doomed. -/
theorem undoomed_finishes {c : Config} {s : State} (hf : Flow c s) (hc : Control c s) (hj : s.learner = .joining) (hd : ¬Doomed c s) : ∃ es s', run c s es = some s' ∧ s'.learner = .finished := by
  have hdone : s.done = true := hc.done.mpr (.inl hj)
  have fromExited : ∀ s : State, s.learner = .joining → s.worker = .exited → ∃ es s', run c s es = some s' ∧ s'.learner = .finished := by
    intro s h1 h2
    exact ⟨[.learnerJoin], { s with learner := .finished, stop := true }, by rw [run_cons (t := { s with learner := .finished, stop := true }) (by simp only [step]; rw [if_pos ⟨h1, h2⟩])]; rfl, rfl⟩
  have fromTest : ∀ s : State, s.learner = .joining → s.worker = .test → s.done = true → ∃ es s', run c s es = some s' ∧ s'.learner = .finished := by
    intro s h1 h2 h3
    obtain ⟨es, s', h4, h5⟩ := fromExited { s with worker := .exited } h1 rfl
    exact ⟨.workerTest :: es, s', by rw [run_cons (t := { s with worker := .exited }) (by simp only [step]; rw [if_pos h2, if_pos h3])]; exact h4, h5⟩
  have fromPutting : ∀ s : State, s.learner = .joining → s.worker = .putting → s.done = true → s.deviceQ = [] → ∃ es s', run c s es = some s' ∧ s'.learner = .finished := by
    intro s h1 h2 h3 h4
    obtain ⟨es, s', h5, h6⟩ := fromTest { s with worker := .test, deviceQ := s.deviceQ ++ [s.batch], batch := [] } h1 rfl h3
    exact ⟨.workerPut :: es, s', by rw [run_cons (by simp only [step]; rw [if_pos ⟨h2, by rw [h4]; exact Nat.one_pos⟩])]; exact h5, h6⟩
  have fromGetting : ∀ (n : Nat) (s : State), s.hostQ.length = n → s.learner = .joining → s.worker = .getting → s.done = true → s.batch.length ≤ c.batchSize →
      (s.deviceQ = [] ∨ s.batch.length + s.hostQ.length < c.batchSize) → ∃ es s', run c s es = some s' ∧ s'.learner = .finished := by
    intro n
    induction n with
    | zero =>
      intro s hn h1 h2 h3 h4 h5
      by_cases hb : s.batch.length = c.batchSize
      · have hdq : s.deviceQ = [] := by
          rcases h5 with h | h
          · exact h
          · omega
        obtain ⟨es, s', h6, h7⟩ := fromPutting { s with worker := .putting } h1 rfl h3 hdq
        exact ⟨.workerFull :: es, s', by rw [run_cons (t := { s with worker := .putting }) (by simp only [step]; rw [if_pos ⟨h2, hb⟩])]; exact h6, h7⟩
      · obtain ⟨es, s', h6, h7⟩ := fromTest { s with worker := .test } h1 rfl h3
        exact ⟨.workerTimeout :: es, s', by rw [run_cons (t := { s with worker := .test }) (by simp only [step]; rw [if_pos ⟨h2, lt_of_le_of_ne h4 hb, List.length_eq_zero_iff.mp hn⟩])]; exact h6, h7⟩
    | succ n ih =>
      intro s hn h1 h2 h3 h4 h5
      by_cases hb : s.batch.length = c.batchSize
      · have hdq : s.deviceQ = [] := by
          rcases h5 with h | h
          · exact h
          · omega
        obtain ⟨es, s', h6, h7⟩ := fromPutting { s with worker := .putting } h1 rfl h3 hdq
        exact ⟨.workerFull :: es, s', by rw [run_cons (t := { s with worker := .putting }) (by simp only [step]; rw [if_pos ⟨h2, hb⟩])]; exact h6, h7⟩
      · cases hq : s.hostQ with
        | nil => rw [hq] at hn; cases hn
        | cons t q =>
          rw [hq, List.length_cons] at hn
          rw [hq, List.length_cons] at h5
          have hlt := lt_of_le_of_ne h4 hb
          obtain ⟨es, s', h6, h7⟩ := ih { s with hostQ := q, batch := s.batch ++ [t] } (Nat.succ.inj hn) h1 h2 h3 (by simp only [List.length_append, List.length_singleton]; omega)
            (h5.imp id fun h => by simp only [List.length_append, List.length_singleton]; omega)
          exact ⟨.workerGet :: es, s', by rw [run_cons (by simp only [step]; rw [if_pos ⟨h2, hlt⟩, hq])]; exact h6, h7⟩
  cases hw : s.worker with
  | exited => exact fromExited s hj hw
  | test => exact fromTest s hj hw hdone
  | putting => exact fromPutting s hj hw hdone (by by_contra hq; exact hd ⟨hj, hq, .inl hw⟩)
  | getting =>
    refine fromGetting _ s rfl hj hw hdone hf.batch ?_
    by_contra hq
    rw [not_or, not_lt] at hq
    exact hd ⟨hj, hq.1, .inr ⟨hw, hq.2⟩⟩

/-- C150: exactly when `run` cannot return any more, after the last update: a batch is left in the second queue, and the worker has a further batch for it, or enough trajectories for one. -/
theorem hangs_iff {c : Config} {s : State} (h : Reachable c s) (hj : s.learner = .joining) :
    LearnerHangs c s ↔ s.deviceQ ≠ [] ∧ (s.worker = .putting ∨ s.worker = .getting ∧ c.batchSize ≤ s.batch.length + s.hostQ.length) := by
  obtain ⟨hf, hc⟩ := reachable_inv h
  constructor
  · intro hh
    by_contra hd
    obtain ⟨es, s', h1, h2⟩ := undoomed_finishes hf hc hj fun h => hd h.2
    exact hh es s' h1 h2
  · exact fun hd => doomed_hangs ⟨hj, hd⟩

/-- C150: if after the last update the second queue is empty or the worker is before its test, `run` can return whatever happens. -/
theorem always_returns {c : Config} {s : State} (h : Reachable c s) (hj : s.learner = .joining) (hs : s.deviceQ = [] ∨ s.worker = .test ∨ s.worker = .exited) {es : List Event} {s' : State} (hr : run c s es = some s') : ¬LearnerHangs c s' := by
  have hI := reachable_inv h
  have key := run_preserves (c := c) (P := fun s => (Flow c s ∧ Control c s) ∧ (s.learner = .finished ∨ s.learner = .joining ∧ (s.deviceQ = [] ∨ s.worker = .test ∨ s.worker = .exited))) (fun s e s' hs he => by
    obtain ⟨⟨hf, hc⟩, hp⟩ := hs
    refine ⟨⟨step_flow hf he, step_control hc he⟩, ?_⟩
    cases e <;> simp only [step] at he
    case workerTest =>
      split at he
      · cases he
        refine hp.imp id fun h => ⟨h.1, .inr (.inr ?_)⟩
        dsimp only
        rw [hc.done.mpr (.inl h.1)]
        rfl
      · cases he
    case workerPut =>
      split at he
      · cases he
        exact hp.imp id fun h => ⟨h.1, .inr (.inl rfl)⟩
      · cases he
    case learnerJoin =>
      split at he
      · cases he
        exact .inl rfl
      · cases he
    case learnerGet =>
      split at he
      · rename_i hg
        rcases hp with h | h
        · rw [hg.1] at h; cases h
        · rw [hg.1] at h; cases h.1
      · cases he
    case learnerUpdate =>
      split at he
      · rename_i hg
        rcases hp with h | h
        · rw [hg] at h; cases h
        · rw [hg] at h; cases h.1
      · cases he
    case learnerDone =>
      split at he
      · rename_i hg
        rcases hp with h | h
        · rw [hg.1] at h; cases h
        · rw [hg.1] at h; cases h.1
      · cases he
    case workerFull =>
      split at he
      · rename_i hg
        cases he
        refine hp.imp id fun h => ⟨h.1, .inl ?_⟩
        rcases h.2 with h | h | h
        · exact h
        · rw [hg.1] at h; cases h
        · rw [hg.1] at h; cases h
      · cases he
    case workerTimeout =>
      split at he
      · cases he
        exact hp.imp id fun h => ⟨h.1, .inr (.inl rfl)⟩
      · cases he
    all_goals
      repeat' split at he
      all_goals first
        | (cases he; exact hp)
        | cases he) es ⟨hI, .inr ⟨hj, hs⟩⟩ hr
  obtain ⟨⟨hf, hc⟩, hp⟩ := key
  intro hh
  rcases hp with h | h
  · exact hh [] s' rfl h
  · obtain ⟨fs, s'', h1, h2⟩ := undoomed_finishes hf hc h.1 fun hd => by
      rcases h.2 with h | h | h
      · exact hd.2.1 h
      · rcases hd.2.2 with h' | h'
        · rw [h] at h'; cases h'
        · rw [h] at h'; cases h'.1
      · rcases hd.2.2 with h' | h'
        · rw [h] at h'; cases h'
        · rw [h] at h'; cases h'.1
    exact hh fs s'' h1 h2

theorem flatten_length {B : Nat} : ∀ {l : List (List Traj)}, (∀ b ∈ l, b.length = B) → l.flatten.length = l.length * B
  | [], _ => by simp
  | b :: l, h => by
    rw [List.flatten_cons, List.length_append, h b List.mem_cons_self, flatten_length fun b' hb => h b' (List.mem_cons_of_mem _ hb), List.length_cons, Nat.add_mul, Nat.one_mul, Nat.add_comm]

/-- C150: `run` does not hang, as long as the actors put fewer than two batches more than it has iterations. -/
theorem few_trajectories_return_partial {c : Config} {m : Nat} (hm : c.maxIterations = some m) {s : State} (h : Reachable c s) (hj : s.learner = .joining) (hn : total c s < (m + 2) * c.batchSize) : ¬LearnerHangs c s := by
  intro hh
  have hd := (hangs_iff h hj).mp hh
  obtain ⟨hf, hc⟩ := reachable_inv h
  have hcount := hf.count
  rw [line, hj, List.length_append, List.length_append, List.length_append, List.length_append, flatten_length hf.seen, flatten_length hf.queued] at hcount
  have hlast := hc.last (hc.done.mpr (.inl hj))
  have hseen : s.seen.length = m := by
    have := hc.bound m hm
    simp only [more, hm, decide_eq_false_iff_not] at hlast
    omega
  have hdq : s.deviceQ.length = 1 := by
    have := hf.device
    have := List.length_pos_of_ne_nil hd.1
    omega
  have hb : c.batchSize ≤ s.batch.length + s.hostQ.length := by
    rcases hd.2 with h | h
    · rw [hf.full h]; omega
    · exact h.2
  rw [hseen, hdq, Nat.one_mul] at hcount
  simp only [working, List.length_nil] at hcount
  rw [Nat.add_mul] at hn
  omega

/-! ### Runs that hang -/

/-- Actor 0 fills the batch of the worker. -/
theorem feed {c : Config} (ha : 0 < c.actors) (hB : 0 < c.batchSize) : ∀ (n : Nat) (s : State), s.batch.length + n = c.batchSize → s.actor 0 = .test → s.stop = false → s.hostQ = [] → s.worker = .getting →
    ∃ es s', run c s es = some s' ∧ s'.batch.length = c.batchSize ∧ s'.actor 0 = .test ∧ s'.stop = false ∧ s'.hostQ = [] ∧ s'.worker = .getting ∧ s'.learner = s.learner ∧ s'.seen = s.seen ∧ s'.deviceQ = s.deviceQ ∧ s'.done = s.done := by
  intro n
  induction n with
  | zero => intro s hb h1 h2 h3 h4; exact ⟨[], s, rfl, hb, h1, h2, h3, h4, rfl, rfl, rfl, rfl⟩
  | succ n ih =>
    intro s hb h1 h2 h3 h4
    let s1 : State := { s with actor := Function.update s.actor 0 .pull }
    let s2 : State := { s1 with actor := Function.update s1.actor 0 (.push ⟨0, s1.made 0, s1.seen.length⟩) }
    let s3 : State := { s2 with actor := Function.update s2.actor 0 .test, made := Function.update s2.made 0 (s2.made 0 + 1), hostQ := s2.hostQ ++ [⟨0, s1.made 0, s1.seen.length⟩] }
    let s4 : State := { s3 with hostQ := [], batch := s3.batch ++ [⟨0, s1.made 0, s1.seen.length⟩] }
    have e1 : step c s (.actorTest 0) = some s1 := by simp only [step]; rw [if_pos ⟨ha, h1⟩, if_neg (by rw [h2]; decide)]
    have e2 : step c s1 (.actorPull 0) = some s2 := by simp only [step]; rw [if_pos ⟨ha, Function.update_self 0 Actor.pull s.actor⟩]
    have e3 : step c s2 (.actorPush 0) = some s3 := by
      have : s2.actor 0 = .push ⟨0, s1.made 0, s1.seen.length⟩ := Function.update_self 0 (Actor.push ⟨0, s1.made 0, s1.seen.length⟩) s1.actor
      simp only [step, this]
      rw [if_pos ⟨ha, by show s.hostQ.length < c.batchSize; rw [h3]; exact hB⟩]
    have e4 : step c s3 .workerGet = some s4 := by
      have hq : s3.hostQ = [⟨0, s1.made 0, s1.seen.length⟩] := by show s.hostQ ++ _ = _; rw [h3]; rfl
      simp only [step]
      rw [if_pos ⟨h4, by show s.batch.length < c.batchSize; omega⟩, hq]
    obtain ⟨es, s', h5, h6⟩ := ih s4 (by show (s.batch ++ [_]).length + n = _; rw [List.length_append, List.length_singleton]; omega) (Function.update_self 0 Actor.test s2.actor) h2 rfl h4
    exact ⟨.actorTest 0 :: .actorPull 0 :: .actorPush 0 :: .workerGet :: es, s', by rw [run_cons e1, run_cons e2, run_cons e3, run_cons e4]; exact h5, h6⟩

/-- The worker builds a batch from trajectories of actor 0. -/
theorem fill {c : Config} (ha : 0 < c.actors) (hB : 0 < c.batchSize) (s : State) (hb : s.batch = []) (h1 : s.actor 0 = .test) (h2 : s.stop = false) (h3 : s.hostQ = []) (h4 : s.worker = .test) (h5 : s.done = false) :
    ∃ es s', run c s es = some s' ∧ s'.batch.length = c.batchSize ∧ s'.actor 0 = .test ∧ s'.stop = false ∧ s'.hostQ = [] ∧ s'.worker = .putting ∧ s'.learner = s.learner ∧ s'.seen = s.seen ∧ s'.deviceQ = s.deviceQ ∧ s'.done = false := by
  have e1 : step c s .workerTest = some { s with worker := .getting } := by simp only [step]; rw [if_pos h4, if_neg (by rw [h5]; decide)]
  obtain ⟨es, t, h6, k1, k2, k3, k4, k5, k6, k7, k8, k9⟩ := feed ha hB c.batchSize { s with worker := .getting } (by show s.batch.length + _ = _; rw [hb]; simp) h1 h2 h3 rfl
  refine ⟨.workerTest :: (es ++ [.workerFull]), { t with worker := .putting }, ?_, k1, k2, k3, k4, rfl, k6, k7, k8, k9.trans h5⟩
  rw [run_cons e1, run_append, h6, Option.bind_some, run_cons (t := { t with worker := .putting }) (by simp only [step]; rw [if_pos ⟨k5, k1⟩])]
  rfl

/-- Between two updates, with nothing in the pipeline. -/
structure Clear (s : State) : Prop where
  batch : s.batch = []
  actor : s.actor 0 = .test
  stop : s.stop = false
  host : s.hostQ = []
  worker : s.worker = .test
  done : s.done = false
  device : s.deviceQ = []
  learner : s.learner = .getting

theorem clear_runs {c : Config} (ha : 0 < c.actors) (hB : 0 < c.batchSize) {m : Nat} (hm : c.maxIterations = some m) : ∀ n ≤ m, ∃ es s, run c start es = some s ∧ Clear s ∧ s.seen.length = n := by
  intro n
  induction n with
  | zero => intro _; exact ⟨[], start, rfl, ⟨rfl, rfl, rfl, rfl, rfl, rfl, rfl, rfl⟩, rfl⟩
  | succ n ih =>
    intro hn
    obtain ⟨es, s, h1, hc, hs⟩ := ih (by omega)
    obtain ⟨fs, t, h2, k1, k2, k3, k4, k5, k6, k7, k8, k9⟩ := fill ha hB s hc.batch hc.actor hc.stop hc.host hc.worker hc.done
    rw [hc.device] at k8
    rw [hc.learner] at k6
    let t1 : State := { t with worker := .test, deviceQ := t.deviceQ ++ [t.batch], batch := [] }
    let t2 : State := { t1 with learner := .updating t.batch, deviceQ := [] }
    let t3 : State := { t2 with learner := .getting, seen := t2.seen ++ [t.batch], frames := t2.frames + c.framesPerIter }
    have e1 : step c t .workerPut = some t1 := by simp only [step]; rw [if_pos ⟨k5, by rw [k8]; exact Nat.one_pos⟩]
    have e2 : step c t1 .learnerGet = some t2 := by
      have hq : t1.deviceQ = [t.batch] := by show t.deviceQ ++ _ = _; rw [k8]; rfl
      simp only [step]
      rw [if_pos ⟨k6, by show more c t.seen.length = true; simp only [more, hm, decide_eq_true_eq]; rw [k7, hs]; omega⟩, hq]
    have e3 : step c t2 .learnerUpdate = some t3 := rfl
    refine ⟨es ++ (fs ++ [.workerPut, .learnerGet, .learnerUpdate]), t3, ?_, ⟨rfl, k2, k3, k4, rfl, k9, rfl, rfl⟩, ?_⟩
    · rw [run_append, h1, Option.bind_some, run_append, h2, Option.bind_some, run_cons e1, run_cons e2, run_cons e3]
      rfl
    · show (t.seen ++ [t.batch]).length = n + 1
      rw [List.length_append, List.length_singleton, k7, hs]

/-- C150: whatever the number of iterations, of actors and the batch size are, there is an interleaving after which `run` never returns, although all its updates are made. -/
theorem learner_can_hang {c : Config} (ha : 0 < c.actors) (hB : 0 < c.batchSize) {m : Nat} (hm : c.maxIterations = some m) : ∃ s, Reachable c s ∧ s.seen.length = m ∧ s.learner = .joining ∧ LearnerHangs c s := by
  obtain ⟨es, s, h1, hc, hs⟩ := clear_runs ha hB hm m le_rfl
  obtain ⟨fs, t, h2, k1, k2, k3, k4, k5, k6, k7, k8, k9⟩ := fill ha hB s hc.batch hc.actor hc.stop hc.host hc.worker hc.done
  rw [hc.device] at k8
  have e1 : step c t .workerPut = some { t with worker := .test, deviceQ := t.deviceQ ++ [t.batch], batch := [] } := by simp only [step]; rw [if_pos ⟨k5, by rw [k8]; exact Nat.one_pos⟩]
  obtain ⟨gs, u, h3, j1, j2, j3, j4, j5, j6, j7, j8, j9⟩ := fill ha hB { t with worker := .test, deviceQ := t.deviceQ ++ [t.batch], batch := [] } rfl k2 k3 k4 rfl k9
  have hul : u.learner = .getting := by rw [j6]; show t.learner = _; rw [k6, hc.learner]
  have hus : u.seen.length = m := by rw [j7]; show t.seen.length = m; rw [k7, hs]
  have e2 : step c u .learnerDone = some { u with learner := .joining, done := true } := by
    simp only [step]
    rw [if_pos ⟨hul, by simp [more, hm, hus]⟩]
  have hd : Doomed c { u with learner := .joining, done := true } := by
    refine ⟨rfl, ?_, .inl j5⟩
    show u.deviceQ ≠ []
    rw [j8]
    simp
  exact ⟨{ u with learner := .joining, done := true }, ⟨es ++ (fs ++ .workerPut :: (gs ++ [.learnerDone])), by rw [run_append, h1, Option.bind_some, run_append, h2, Option.bind_some, run_cons e1, run_append, h3, Option.bind_some, run_cons e2]; rfl⟩, hus, rfl, doomed_hangs hd⟩

/-! ### Whether `main` ends -/

/-- The actors that have passed their test and have not put their trajectory. -/
def busy (c : Config) (s : State) : Nat := ∑ i ∈ Finset.range c.actors, if s.actor i = .test ∨ s.actor i = .stopped then 0 else 1

theorem busy_update (c : Config) (s : State) {i : Nat} (hi : i < c.actors) (x : Actor) (s' : State) (h : s'.actor = Function.update s.actor i x) :
    busy c s' + (if s.actor i = .test ∨ s.actor i = .stopped then 0 else 1) = busy c s + (if x = .test ∨ x = .stopped then 0 else 1) := by
  have : (fun j => if s'.actor j = .test ∨ s'.actor j = .stopped then 0 else 1) = Function.update (fun j => if s.actor j = .test ∨ s.actor j = .stopped then 0 else 1) i (if x = .test ∨ x = .stopped then 0 else 1) := by
    funext j
    rw [h]
    by_cases e : j = i
    · subst e; simp
    · simp [Function.update_of_ne e]
  unfold busy
  have k := sum_update_mem (fun j => if s.actor j = .test ∨ s.actor j = .stopped then 0 else 1) hi (if x = .test ∨ x = .stopped then 0 else 1)
  rw [← this] at k
  exact k

/-- After `run` has returned, the trajectories in the first queue and those that will come are as many at each time. -/
theorem room_step {c : Config} {s s' : State} {e : Event} (hc : Control c s) (hf : s.learner = .finished) (he : step c s e = some s') : s'.learner = .finished ∧ busy c s' + s'.hostQ.length = busy c s + s.hostQ.length := by
  have hstop := hc.stop.mpr hf
  have hw := hc.finished hf
  cases e <;> simp only [step] at he
  case actorTest i =>
    split at he
    · rename_i h
      cases he
      refine ⟨hf, ?_⟩
      have := busy_update c s h.1 .stopped { s with actor := Function.update s.actor i .stopped } rfl
      have h0 : (if s.actor i = .test ∨ s.actor i = .stopped then 0 else 1) = 0 := if_pos (.inl h.2)
      have h1 : (if Actor.stopped = .test ∨ Actor.stopped = .stopped then 0 else 1) = 0 := if_pos (.inr rfl)
      rw [h0, h1] at this
      rw [Nat.add_zero, Nat.add_zero] at this
      rw [this]
    · cases he
  case actorPull i =>
    split at he
    · rename_i h
      cases he
      refine ⟨hf, ?_⟩
      have := busy_update c s h.1 (.push ⟨i, s.made i, s.seen.length⟩) { s with actor := Function.update s.actor i (.push ⟨i, s.made i, s.seen.length⟩) } rfl
      rw [if_neg (by rw [h.2]; simp), if_neg (by simp)] at this
      simpa using this
    · cases he
  case actorPush i =>
    split at he
    · rename_i t ht
      split at he
      · rename_i h
        cases he
        refine ⟨hf, ?_⟩
        have := busy_update c s h.1 .test { s with actor := Function.update s.actor i .test, made := Function.update s.made i (s.made i + 1), hostQ := s.hostQ ++ [t] } rfl
        rw [if_neg (by rw [ht]; simp), if_pos (.inl rfl)] at this
        simp only [List.length_append, List.length_singleton]
        omega
      · cases he
    · cases he
  case mainJoin =>
    split at he
    · cases he; exact ⟨hf, rfl⟩
    · cases he
  case learnerUpdate => rw [hf] at he; cases he
  all_goals
    split at he
    · rename_i h
      first
        | (rw [hf] at h; cases h.1)
        | (rw [hw] at h; cases h.1)
        | (rw [hw] at h; cases h)
    · cases he

/-- How far an actor is from its end, after `stop_signal` is set. -/
def far : Actor → Nat
  | .pull => 3
  | .push _ => 2
  | .test => 1
  | .stopped => 0

theorem room_ends {c : Config} : ∀ (n : Nat) (s : State), Flow c s → Control c s → s.learner = .finished → busy c s + s.hostQ.length ≤ c.batchSize → ∑ i ∈ Finset.range c.actors, far (s.actor i) = n → ∃ es s', run c s es = some s' ∧ s'.ended = true := by
  intro n
  induction n using Nat.strong_induction_on with
  | _ n ih =>
    intro s hF hC hf hb hn
    by_cases hall : ∀ i < c.actors, s.actor i = .stopped
    · exact ⟨[.mainJoin], { s with ended := true }, by rw [run_cons (t := { s with ended := true }) (by simp only [step]; rw [if_pos ⟨hf, List.all_eq_true.mpr fun i hi => decide_eq_true (hall i (List.mem_range.mp hi))⟩])]; rfl, rfl⟩
    · push Not at hall
      obtain ⟨i, hi, hne⟩ := hall
      have go : ∀ (e : Event) (s1 : State) (x : Actor), step c s e = some s1 → s1.actor = Function.update s.actor i x → far x < far (s.actor i) → ∃ es s', run c s es = some s' ∧ s'.ended = true := by
        intro e s1 x he ha hx
        have hsum := sum_update_mem (fun j => far (s.actor j)) hi (far x)
        have : (fun j => far (s1.actor j)) = Function.update (fun j => far (s.actor j)) i (far x) := by
          funext j
          rw [ha]
          by_cases e : j = i
          · subst e; simp
          · simp [Function.update_of_ne e]
        rw [← this] at hsum
        dsimp only at hsum
        obtain ⟨r1, r2⟩ := room_step hC hf he
        obtain ⟨es, s', h1, h2⟩ := ih (∑ i ∈ Finset.range c.actors, far (s1.actor i)) (by omega) s1 (step_flow hF he) (step_control hC he) r1 (by omega) rfl
        exact ⟨e :: es, s', by rw [run_cons he]; exact h1, h2⟩
      cases ha : s.actor i with
      | stopped => exact absurd ha hne
      | test => exact go (.actorTest i) _ .stopped (by simp only [step]; rw [if_pos ⟨hi, ha⟩]) (by rw [if_pos (hC.stop.mpr hf)]) (by rw [ha]; decide)
      | pull => exact go (.actorPull i) _ (.push ⟨i, s.made i, s.seen.length⟩) (by simp only [step]; rw [if_pos ⟨hi, ha⟩]) rfl (by rw [ha]; simp [far])
      | push t =>
        have hpos : 0 < busy c s := by
          have := Finset.single_le_sum (f := fun j => if s.actor j = .test ∨ s.actor j = .stopped then 0 else 1) (fun j _ => Nat.zero_le _) (Finset.mem_range.mpr hi)
          rw [if_neg (by rw [ha]; simp)] at this
          exact this
        exact go (.actorPush i) _ .test (by simp only [step, ha]; rw [if_pos ⟨hi, by omega⟩]) rfl (by rw [ha]; simp [far])

/-- C151: exactly when `main` cannot end any more, after `run` of the learner has returned: more actors have passed the test of `stop_signal` than the first queue has room for. -/
theorem main_hangs_iff {c : Config} {s : State} (h : Reachable c s) (hf : s.learner = .finished) : MainHangs c s ↔ c.batchSize < busy c s + s.hostQ.length := by
  obtain ⟨hF, hC⟩ := reachable_inv h
  constructor
  · intro hh
    by_contra hlt
    obtain ⟨es, s', h1, h2⟩ := room_ends _ s hF hC hf (not_lt.mp hlt) rfl
    rw [hh es s' h1] at h2
    cases h2
  · intro hlt es s' hr
    obtain ⟨⟨kF, kC⟩, k1, k2⟩ := run_preserves (c := c) (P := fun t => (Flow c t ∧ Control c t) ∧ t.learner = .finished ∧ busy c t + t.hostQ.length = busy c s + s.hostQ.length)
      (fun t e t' ht he => ⟨⟨step_flow ht.1.1 he, step_control ht.1.2 he⟩, by
        obtain ⟨r1, r2⟩ := room_step ht.1.2 ht.2.1 he
        exact ⟨r1, r2.trans ht.2.2⟩⟩) es ⟨⟨hF, hC⟩, hf, rfl⟩ hr
    by_contra hend
    have hend' : s'.ended = true := by simpa using hend
    have hst := (kC.ended hend').2
    have h0 : busy c s' = 0 := Finset.sum_eq_zero fun i hi => if_pos (.inr (hst i (Finset.mem_range.mp hi)))
    have := kF.host
    omega

/-- Actor 0 fills the first queue. -/
theorem crowd {c : Config} (ha : 0 < c.actors) : ∀ (n : Nat) (s : State), s.hostQ.length + n = c.batchSize → s.actor 0 = .test → s.stop = false →
    ∃ es s', run c s es = some s' ∧ s'.hostQ.length = c.batchSize ∧ s'.actor 0 = .test ∧ s'.stop = false ∧ s'.worker = s.worker ∧ s'.learner = s.learner ∧ s'.seen = s.seen ∧ s'.done = s.done := by
  intro n
  induction n with
  | zero => intro s hb h1 h2; exact ⟨[], s, rfl, hb, h1, h2, rfl, rfl, rfl, rfl⟩
  | succ n ih =>
    intro s hb h1 h2
    let s1 : State := { s with actor := Function.update s.actor 0 .pull }
    let s2 : State := { s1 with actor := Function.update s1.actor 0 (.push ⟨0, s1.made 0, s1.seen.length⟩) }
    let s3 : State := { s2 with actor := Function.update s2.actor 0 .test, made := Function.update s2.made 0 (s2.made 0 + 1), hostQ := s2.hostQ ++ [⟨0, s1.made 0, s1.seen.length⟩] }
    have e1 : step c s (.actorTest 0) = some s1 := by simp only [step]; rw [if_pos ⟨ha, h1⟩, if_neg (by rw [h2]; decide)]
    have e2 : step c s1 (.actorPull 0) = some s2 := by simp only [step]; rw [if_pos ⟨ha, Function.update_self 0 Actor.pull s.actor⟩]
    have e3 : step c s2 (.actorPush 0) = some s3 := by
      have : s2.actor 0 = .push ⟨0, s1.made 0, s1.seen.length⟩ := Function.update_self 0 (Actor.push ⟨0, s1.made 0, s1.seen.length⟩) s1.actor
      simp only [step, this]
      rw [if_pos ⟨ha, by show s.hostQ.length < c.batchSize; omega⟩]
    obtain ⟨es, s', h5, h6⟩ := ih s3 (by show (s.hostQ ++ [_]).length + n = _; rw [List.length_append, List.length_singleton]; omega) (Function.update_self 0 Actor.test s2.actor) h2
    exact ⟨.actorTest 0 :: .actorPull 0 :: .actorPush 0 :: es, s', by rw [run_cons e1, run_cons e2, run_cons e3]; exact h5, h6⟩

/-- C151: whatever the number of iterations, of actors and the batch size are, there is an interleaving in which `run` of the learner returns, but `main` waits for an actor for ever. -/
theorem main_can_hang {c : Config} (ha : 0 < c.actors) (hB : 0 < c.batchSize) {m : Nat} (hm : c.maxIterations = some m) : ∃ s, Reachable c s ∧ s.seen.length = m ∧ s.learner = .finished ∧ MainHangs c s := by
  obtain ⟨es, s, h1, hc, hs⟩ := clear_runs ha hB hm m le_rfl
  obtain ⟨fs, t, h2, k1, k2, k3, k4, k5, k6, k7⟩ := crowd ha c.batchSize s (by rw [hc.host]; simp) hc.actor hc.stop
  rw [hc.worker] at k4
  rw [hc.learner] at k5
  let t1 : State := { t with actor := Function.update t.actor 0 .pull }
  let t2 : State := { t1 with learner := .joining, done := true }
  let t3 : State := { t2 with worker := .exited }
  let t4 : State := { t3 with learner := .finished, stop := true }
  have hts : t.seen.length = m := by rw [k6, hs]
  have e1 : step c t (.actorTest 0) = some t1 := by simp only [step]; rw [if_pos ⟨ha, k2⟩, if_neg (by rw [k3]; decide)]
  have e2 : step c t1 .learnerDone = some t2 := by
    simp only [step]
    rw [if_pos ⟨k5, by show more c t.seen.length = false; simp [more, hm, hts]⟩]
  have e3 : step c t2 .workerTest = some t3 := by simp only [step]; rw [if_pos k4]; rfl
  have e4 : step c t3 .learnerJoin = some t4 := rfl
  have hr : Reachable c t4 := ⟨es ++ (fs ++ [.actorTest 0, .learnerDone, .workerTest, .learnerJoin]), by rw [run_append, h1, Option.bind_some, run_append, h2, Option.bind_some, run_cons e1, run_cons e2, run_cons e3, run_cons e4]; rfl⟩
  refine ⟨t4, hr, hts, rfl, (main_hangs_iff hr rfl).mpr ?_⟩
  have hpos : 0 < busy c t4 := by
    have := Finset.single_le_sum (f := fun j => if t4.actor j = .test ∨ t4.actor j = .stopped then 0 else 1) (fun j _ => Nat.zero_le _) (Finset.mem_range.mpr ha)
    rw [if_neg (by show ¬(Function.update t.actor 0 .pull 0 = .test ∨ Function.update t.actor 0 .pull 0 = .stopped); simp)] at this
    exact this
  have : t4.hostQ.length = c.batchSize := k1
  omega

/-- C151: `main` ends, if the actors that have passed the test find room in the queue. -/
theorem main_ends_partial {c : Config} {s : State} (h : Reachable c s) (hf : s.learner = .finished) (hb : busy c s + s.hostQ.length ≤ c.batchSize) : ∃ es s', run c s es = some s' ∧ s'.ended = true := by
  obtain ⟨hF, hC⟩ := reachable_inv h
  exact room_ends _ s hF hC hf hb rfl

/-! ### Examples -/

-- The numbers of `run_catch`: two actors, batches of two, 500 updates.
example : ∃ s, Reachable ⟨2, 2, 40, some 500⟩ s ∧ s.seen.length = 500 ∧ s.learner = .joining ∧ LearnerHangs ⟨2, 2, 40, some 500⟩ s := learner_can_hang (by decide) (by decide) rfl

example : ∃ s, Reachable ⟨2, 2, 40, some 500⟩ s ∧ s.seen.length = 500 ∧ s.learner = .finished ∧ MainHangs ⟨2, 2, 40, some 500⟩ s := main_can_hang (by decide) (by decide) rfl

/-- The test of the learner: one trajectory, one update. -/
def testEvents : List Event :=
  [.actorTest 0, .actorPull 0, .actorPush 0, .workerTest, .workerGet, .workerFull, .workerPut, .learnerGet, .workerTest, .workerTimeout, .learnerUpdate, .learnerDone]

-- It cannot hang.
example : ∃ s, run ⟨1, 1, 20, some 1⟩ start testEvents = some s ∧ s.seen = [[⟨0, 0, 0⟩]] ∧ s.frames = 20 ∧ ¬LearnerHangs ⟨1, 1, 20, some 1⟩ s :=
  ⟨_, rfl, rfl, rfl, few_trajectories_return_partial (m := 1) rfl ⟨testEvents, rfl⟩ rfl (by decide)⟩

-- With two trajectories more than updates it can.
example : ∃ s, run ⟨1, 1, 20, some 0⟩ start [.actorTest 0, .actorPull 0, .actorPush 0, .workerTest, .workerGet, .workerFull, .workerPut, .workerTest, .actorTest 0, .actorPull 0, .actorPush 0, .learnerDone] = some s ∧
    LearnerHangs ⟨1, 1, 20, some 0⟩ s :=
  ⟨_, rfl, (hangs_iff ⟨[.actorTest 0, .actorPull 0, .actorPush 0, .workerTest, .workerGet, .workerFull, .workerPut, .workerTest, .actorTest 0, .actorPull 0, .actorPush 0, .learnerDone], rfl⟩ rfl).mpr ⟨by simp [start], .inr ⟨rfl, by decide⟩⟩⟩

-- After the test of the learner `main` ends.
example : ∃ s es s', run ⟨1, 1, 20, some 1⟩ start (testEvents ++ [.workerTest, .learnerJoin]) = some s ∧ run ⟨1, 1, 20, some 1⟩ s es = some s' ∧ s'.ended = true := by
  obtain ⟨es, s', h1, h2⟩ := main_ends_partial (c := ⟨1, 1, 20, some 1⟩) ⟨testEvents ++ [.workerTest, .learnerJoin], rfl⟩ rfl (by decide)
  exact ⟨_, es, s', rfl, h1, h2⟩

end Verif.Props.Impala
