import Mathlib.Algebra.BigOperators.Fin
import Mathlib.Algebra.Order.BigOperators.Group.Finset
import Mathlib.Tactic.Linarith
import Verif.Model.ImpalaLite

/-!
# `impala_lite` runs to its end under every interleaving (C148)
-/

set_option linter.unusedVariables false

namespace Verif.Props.ImpalaLite
open Verif.ImpalaLite

/-! ### Specification -/

/-- All trajectories that were put, in the order in which they came out of the queue or wait in it. -/
def line (s : State) : List Traj := s.seen.flatten ++ s.batch ++ s.queue

/-- The numbers of the trajectories of one actor in a list. -/
def numbers (i : Nat) (l : List Traj) : List Nat := (l.filter fun t => t.actor = i).map Traj.number

/-- The end: the actors have put all their trajectories, the learner has made all its updates. -/
def Final (c : Config) (s : State) : Prop := (∀ i < c.actors, s.made i = c.perActor ∧ s.held i = none) ∧ s.seen.length = c.numSteps ∧ s.batch = []

/-- Number of trajectories that actors have put. -/
def total (c : Config) (s : State) : Nat := ∑ i ∈ Finset.range c.actors, s.made i

/-- Number of actors that hold a trajectory. -/
def holding (c : Config) (s : State) : Nat := ∑ i ∈ Finset.range c.actors, if s.held i = none then 0 else 1

/-! ### Lemmas -/

/-- What holds throughout. -/
structure Inv (c : Config) (s : State) : Prop where
  held : ∀ i t, s.held i = some t → t.actor = i ∧ t.number = s.made i ∧ i < c.actors ∧ s.made i < c.perActor
  made : ∀ i, s.made i ≤ c.perActor
  order : ∀ i, numbers i (line s) = List.range (s.made i)
  actors : ∀ t ∈ line s, t.actor < c.actors
  queue : s.queue.length ≤ c.batchSize
  batch : s.batch.length ≤ c.batchSize
  seen : ∀ b ∈ s.seen, b.length = c.batchSize
  steps : s.seen.length ≤ c.numSteps
  over : s.seen.length = c.numSteps → s.batch = []
  count : (line s).length = total c s

theorem start_inv (c : Config) : Inv c start := by
  refine ⟨fun i t h => (by cases h), fun i => Nat.zero_le _, fun i => rfl, fun t h => (by cases h), Nat.zero_le _, Nat.zero_le _, fun b h => (by cases h), Nat.zero_le _, fun _ => rfl, ?_⟩
  simp [line, total, start]

theorem sum_update_mem {n : Nat} (f : Nat → Nat) {i : Nat} (hi : i < n) (x : Nat) : ∑ j ∈ Finset.range n, Function.update f i x j + f i = ∑ j ∈ Finset.range n, f j + x := by
  have hm := Finset.mem_range.mpr hi
  rw [Finset.sum_update_of_mem hm, ← Finset.sum_sdiff (Finset.singleton_subset_iff.mpr hm), Finset.sum_singleton]
  omega

theorem holding_update (c : Config) (s : State) {i : Nat} (hi : i < c.actors) (x : Option Traj) (s' : State) (h : s'.held = Function.update s.held i x) :
    holding c s' + (if s.held i = none then 0 else 1) = holding c s + (if x = none then 0 else 1) := by
  have : (fun j => if s'.held j = none then 0 else 1) = Function.update (fun j => if s.held j = none then 0 else 1) i (if x = none then 0 else 1) := by
    funext j
    rw [h]
    by_cases e : j = i
    · subst e; simp
    · simp [Function.update_of_ne e]
  unfold holding
  have k := sum_update_mem (fun j => if s.held j = none then 0 else 1) hi (if x = none then 0 else 1)
  rw [← this] at k
  exact k

/-- Every step keeps the invariant and counts as one. -/
theorem step_inv {c : Config} (hb : 0 < c.batchSize) {s s' : State} {e : Event} (hi : Inv c s) (h : step c s e = some s') :
    Inv c s' ∧ 2 * total c s' + holding c s' + (s'.seen.length * c.batchSize + s'.batch.length) + s'.seen.length =
      2 * total c s + holding c s + (s.seen.length * c.batchSize + s.batch.length) + s.seen.length + 1 := by
  cases e with
  | pull i =>
    simp only [step] at h
    split at h
    · rename_i hc
      cases h
      refine ⟨⟨fun j t ht => ?_, hi.made, hi.order, hi.actors, hi.queue, hi.batch, hi.seen, hi.steps, hi.over, hi.count⟩, ?_⟩
      · by_cases e : j = i
        · subst e
          simp only [Function.update_self] at ht
          cases ht
          exact ⟨rfl, rfl, hc.1, hc.2.2⟩
        · simp only [Function.update_of_ne e] at ht
          exact hi.held j t ht
      · have := holding_update c s hc.1 (some ⟨i, s.made i, s.seen.length⟩) { s with held := Function.update s.held i (some ⟨i, s.made i, s.seen.length⟩) } rfl
        rw [if_pos hc.2.1, if_neg (by simp)] at this
        simp only [total]
        omega
    · cases h
  | put i =>
    simp only [step] at h
    cases ht : s.held i with
    | none => rw [ht] at h; cases h
    | some t =>
      rw [ht] at h
      dsimp only at h
      split at h
      · rename_i hq
        cases h
        obtain ⟨h1, h2, h3, h4⟩ := hi.held i t ht
        have hl : line { s with held := Function.update s.held i none, made := Function.update s.made i (s.made i + 1), queue := s.queue ++ [t] } = line s ++ [t] := by simp [line]
        have hsum := sum_update_mem s.made h3 (s.made i + 1)
        refine ⟨⟨fun j u hu => ?_, fun j => ?_, fun j => ?_, fun u hu => ?_, ?_, hi.batch, hi.seen, hi.steps, hi.over, ?_⟩, ?_⟩
        · by_cases e : j = i
          · subst e; simp at hu
          · simp only [Function.update_of_ne e] at hu ⊢
            exact hi.held j u hu
        · by_cases e : j = i
          · subst e; simp only [Function.update_self]; omega
          · simp only [Function.update_of_ne e]; exact hi.made j
        · rw [hl]
          have ho := hi.order j
          unfold numbers at ho ⊢
          rw [List.filter_append, List.map_append, ho]
          by_cases e : j = i
          · subst e
            simp [h1, h2, List.range_succ]
          · have : ¬t.actor = j := fun e' => e (e'.symm.trans h1)
            simp [Function.update_of_ne e, this]
        · rw [hl] at hu
          rcases List.mem_append.mp hu with hu | hu
          · exact hi.actors u hu
          · rw [List.mem_singleton.mp hu, h1]; exact h3
        · simp only [List.length_append, List.length_singleton]; omega
        · rw [hl, List.length_append, hi.count]
          simp only [total, List.length_singleton] at hsum ⊢
          omega
        · have := holding_update c s h3 none { s with held := Function.update s.held i none, made := Function.update s.made i (s.made i + 1), queue := s.queue ++ [t] } rfl
          rw [if_neg (by rw [ht]; simp), if_pos rfl] at this
          simp only [total] at hsum ⊢
          omega
      · cases h
  | get =>
    simp only [step] at h
    split at h
    · rename_i hc
      cases hq : s.queue with
      | nil => rw [hq] at h; cases h
      | cons t q =>
        rw [hq] at h
        cases h
        have hl : line { s with queue := q, batch := s.batch ++ [t] } = line s := by simp [line, hq]
        refine ⟨⟨hi.held, hi.made, fun j => by rw [hl]; exact hi.order j, fun u hu => hi.actors u (by rw [← hl]; exact hu), ?_, ?_, hi.seen, hi.steps, fun e => ?_, by rw [hl]; exact hi.count⟩, ?_⟩
        · have := hi.queue
          rw [hq, List.length_cons] at this
          exact Nat.le_of_succ_le this
        · simp only [List.length_append, List.length_singleton]; omega
        · dsimp only at e; omega
        · simp only [List.length_append, List.length_singleton, total, holding]; omega
    · cases h
  | update =>
    simp only [step] at h
    split at h
    · rename_i hc
      cases h
      have hl : line { s with batch := [], seen := s.seen ++ [s.batch] } = line s := by simp [line]
      refine ⟨⟨hi.held, hi.made, fun j => by rw [hl]; exact hi.order j, fun u hu => hi.actors u (by rw [← hl]; exact hu), hi.queue, Nat.zero_le _, fun b hb => ?_, ?_, fun _ => rfl, by rw [hl]; exact hi.count⟩, ?_⟩
      · rcases List.mem_append.mp hb with hb | hb
        · exact hi.seen b hb
        · rw [List.mem_singleton.mp hb]; exact hc.2
      · simp only [List.length_append, List.length_singleton]; omega
      · simp only [List.length_append, List.length_singleton, List.length_nil, total, holding, Nat.add_mul, Nat.one_mul]; omega
    · cases h

theorem run_inv {c : Config} (hb : 0 < c.batchSize) (es : List Event) : ∀ {s s' : State}, Inv c s → run c s es = some s' →
    Inv c s' ∧ 2 * total c s' + holding c s' + (s'.seen.length * c.batchSize + s'.batch.length) + s'.seen.length =
      2 * total c s + holding c s + (s.seen.length * c.batchSize + s.batch.length) + s.seen.length + es.length := by
  induction es with
  | nil =>
    intro s s' hi h
    cases h
    exact ⟨hi, rfl⟩
  | cons e es ih =>
    intro s s' hi h
    simp only [run, Option.bind_eq_some_iff] at h
    obtain ⟨t, h1, h2⟩ := h
    obtain ⟨k1, k2⟩ := step_inv hb hi h1
    obtain ⟨k3, k4⟩ := ih k1 h2
    refine ⟨k3, ?_⟩
    rw [k4, k2, List.length_cons]
    omega

theorem seen_length {c : Config} {s : State} (hi : Inv c s) : s.seen.flatten.length = s.seen.length * c.batchSize := by
  rw [List.length_flatten]
  have : s.seen.map List.length = List.replicate s.seen.length c.batchSize := by
    rw [List.eq_replicate_iff]
    refine ⟨by simp, fun n hn => ?_⟩
    obtain ⟨b, hb, rfl⟩ := List.mem_map.mp hn
    exact hi.seen b hb
  rw [this, List.sum_replicate, smul_eq_mul]

theorem line_length {c : Config} {s : State} (hi : Inv c s) : s.seen.length * c.batchSize + s.batch.length + s.queue.length = total c s := by
  rw [← hi.count, line, List.length_append, List.length_append, seen_length hi]

theorem total_le {c : Config} {s : State} (hi : Inv c s) : total c s ≤ c.actors * c.perActor := by
  have := Finset.sum_le_card_nsmul (Finset.range c.actors) s.made c.perActor fun i _ => hi.made i
  simpa [total] using this

theorem total_lt {c : Config} {s : State} (hi : Inv c s) {i : Nat} (h : i < c.actors) (hm : s.made i < c.perActor) : total c s < c.actors * c.perActor := by
  have : total c s < ∑ _j ∈ Finset.range c.actors, c.perActor := Finset.sum_lt_sum (fun j _ => hi.made j) ⟨i, Finset.mem_range.mpr h, hm⟩
  simpa using this

/-! ### Theorems -/

/-- C148: in every reachable state the trajectories of an actor were put, and came out of the queue, in the order in which they were made, each of them once; every update has a full batch. -/
theorem batches_ordered {c : Config} (hb : 0 < c.batchSize) {es : List Event} {s : State} (h : run c start es = some s) :
    (∀ i, numbers i (s.seen.flatten ++ s.batch ++ s.queue) = List.range (s.made i)) ∧ (∀ b ∈ s.seen, b.length = c.batchSize) ∧ s.queue.length ≤ c.batchSize ∧ ∀ t ∈ s.seen.flatten ++ s.batch ++ s.queue, t.actor < c.actors := by
  have hi := (run_inv hb es (start_inv c) h).1
  exact ⟨hi.order, hi.seen, hi.queue, hi.actors⟩

/-- C148: no trajectory is used twice. -/
theorem used_once {c : Config} (hb : 0 < c.batchSize) {es : List Event} {s : State} (h : run c start es = some s) : (s.seen.flatten.map fun t => (t.actor, t.number)).Nodup := by
  have hi := (run_inv hb es (start_inv c) h).1
  have hn : ∀ i, (numbers i s.seen.flatten).Nodup := by
    intro i
    have : (numbers i (line s)).Nodup := by rw [hi.order i]; exact List.nodup_range
    unfold line numbers at this
    rw [List.append_assoc, List.filter_append, List.map_append] at this
    exact (List.nodup_append.mp this).1
  generalize s.seen.flatten = l at hn
  induction l with
  | nil => exact List.nodup_nil
  | cons t l ih =>
    rw [List.map_cons, List.nodup_cons]
    constructor
    · intro hm
      obtain ⟨u, hu, e⟩ := List.mem_map.mp hm
      simp only [Prod.mk.injEq] at e
      have := hn t.actor
      simp only [numbers, List.filter_cons, decide_true, if_true, List.map_cons, List.nodup_cons] at this
      refine this.1 (List.mem_map.mpr ⟨u, List.mem_filter.mpr ⟨hu, by simp [e.1]⟩, e.2⟩)
    · refine ih fun i => ?_
      have := hn i
      simp only [numbers, List.filter_cons] at this
      split at this
      · rw [List.map_cons, List.nodup_cons] at this; exact this.2
      · exact this

/-- C148: no deadlock: in every reachable state some thread can go on, or all are at their end. -/
theorem no_deadlock {c : Config} (hb : 0 < c.batchSize) {es : List Event} {s : State} (h : run c start es = some s) : Final c s ∨ ∃ e s', step c s e = some s' := by
  have hi := (run_inv hb es (start_inv c) h).1
  have hl := line_length hi
  have hdiv : c.numSteps * c.batchSize ≤ c.actors * c.perActor := Nat.div_mul_le_self _ _
  have hmod : c.actors * c.perActor < (c.numSteps + 1) * c.batchSize := by
    have := Nat.lt_div_mul_add (a := c.actors * c.perActor) hb
    rw [Nat.add_mul, Nat.one_mul]
    exact this
  have learner : s.seen.length < c.numSteps → 0 < s.queue.length ∨ s.batch.length = c.batchSize → ∃ e s', step c s e = some s' := by
    intro h1 h2
    by_cases hbl : s.batch.length = c.batchSize
    · exact ⟨.update, _, by simp only [step]; rw [if_pos ⟨h1, hbl⟩]⟩
    · have hq := h2.resolve_right hbl
      cases hq' : s.queue with
      | nil => rw [hq'] at hq; exact absurd hq (lt_irrefl _)
      | cons t q => exact ⟨.get, _, by simp only [step]; rw [if_pos ⟨h1, lt_of_le_of_ne hi.batch hbl⟩, hq']⟩
  by_cases ha : ∃ i < c.actors, s.made i < c.perActor
  · obtain ⟨i, hic, him⟩ := ha
    cases hh : s.held i with
    | none => exact .inr ⟨.pull i, _, by simp only [step]; rw [if_pos ⟨hic, hh, him⟩]⟩
    | some t =>
      by_cases hq : s.queue.length < c.batchSize
      · exact .inr ⟨.put i, _, by simp only [step, hh]; rw [if_pos hq]⟩
      · right
        refine learner (lt_of_le_of_ne hi.steps fun e => ?_) (.inl (by omega))
        have := hi.queue
        have h0 := total_lt hi hic him
        rw [e, hi.over e, List.length_nil] at hl
        rw [Nat.add_mul, Nat.one_mul] at hmod
        omega
  · have hm : ∀ i < c.actors, s.made i = c.perActor := fun i hic => le_antisymm (hi.made i) (not_lt.mp fun h => ha ⟨i, hic, h⟩)
    have ht : total c s = c.actors * c.perActor := by
      unfold total
      rw [Finset.sum_congr rfl fun i hic => hm i (Finset.mem_range.mp hic)]
      simp
    by_cases hs : s.seen.length < c.numSteps
    · right
      refine learner hs ?_
      by_contra hcon
      rw [not_or] at hcon
      have h1 : s.batch.length < c.batchSize := lt_of_le_of_ne hi.batch hcon.2
      have h2 : (s.seen.length + 1) * c.batchSize ≤ c.numSteps * c.batchSize := Nat.mul_le_mul_right _ hs
      rw [Nat.add_mul, Nat.one_mul] at h2
      omega
    · have he : s.seen.length = c.numSteps := le_antisymm hi.steps (not_lt.mp hs)
      refine .inl ⟨fun i hic => ⟨hm i hic, ?_⟩, he, hi.over he⟩
      cases hh : s.held i with
      | none => rfl
      | some t => exact absurd (hi.held i t hh).2.2.2 (by rw [hm i hic]; exact lt_irrefl _)

/-- C148: no endless run: the length of every run is bounded. -/
theorem bounded_runs {c : Config} (hb : 0 < c.batchSize) {es : List Event} {s : State} (h : run c start es = some s) : es.length ≤ 2 * (c.actors * c.perActor) + c.numSteps * c.batchSize + c.numSteps := by
  obtain ⟨hi, hn⟩ := run_inv hb es (start_inv c) h
  have h0 : 2 * total c start + holding c start + (start.seen.length * c.batchSize + start.batch.length) + start.seen.length = 0 := by simp [total, holding, start]
  rw [h0, Nat.zero_add] at hn
  have hsteps := Nat.mul_le_mul_right c.batchSize hi.steps
  -- an actor that holds a trajectory has not put it yet
  have hh : 2 * total c s + holding c s ≤ 2 * (c.actors * c.perActor) := by
    have : ∑ i ∈ Finset.range c.actors, (2 * s.made i + if s.held i = none then 0 else 1) ≤ ∑ _i ∈ Finset.range c.actors, 2 * c.perActor := by
      refine Finset.sum_le_sum fun i _ => ?_
      split
      · have := hi.made i; omega
      · rename_i hn
        obtain ⟨t, ht⟩ := Option.ne_none_iff_exists'.mp hn
        have := (hi.held i t ht).2.2.2
        omega
    rw [Finset.sum_add_distrib, ← Finset.mul_sum, Finset.sum_const, Finset.card_range, smul_eq_mul] at this
    unfold total holding
    nlinarith
  have hbatch : s.seen.length * c.batchSize + s.batch.length ≤ c.numSteps * c.batchSize := by
    by_cases he : s.seen.length = c.numSteps
    · rw [hi.over he, List.length_nil, he]; omega
    · have h2 : (s.seen.length + 1) * c.batchSize ≤ c.numSteps * c.batchSize := Nat.mul_le_mul_right _ (lt_of_le_of_ne hi.steps he)
      rw [Nat.add_mul, Nat.one_mul] at h2
      have := hi.batch
      omega
  have := hi.steps
  omega

/-- C148: what is the case at the end, whatever the interleaving: each actor has put all its trajectories, they are in the batches or left in the queue, and the queue has what is left over by the division into batches. -/
theorem final_state {c : Config} (hb : 0 < c.batchSize) {es : List Event} {s : State} (h : run c start es = some s) (hf : Final c s) :
    (∀ i < c.actors, numbers i (s.seen.flatten ++ s.queue) = List.range c.perActor) ∧ s.queue.length = c.actors * c.perActor % c.batchSize ∧ es.length = 2 * (c.actors * c.perActor) + c.numSteps * c.batchSize + c.numSteps := by
  obtain ⟨hi, hn⟩ := run_inv hb es (start_inv c) h
  have ht : total c s = c.actors * c.perActor := by
    unfold total
    rw [Finset.sum_congr rfl fun i hic => (hf.1 i (Finset.mem_range.mp hic)).1]
    simp
  have hh : holding c s = 0 := Finset.sum_eq_zero fun i hic => if_pos (hf.1 i (Finset.mem_range.mp hic)).2
  have hl := line_length hi
  rw [hf.2.1, hf.2.2, List.length_nil, ht] at hl
  refine ⟨fun i hic => ?_, ?_, ?_⟩
  · have := hi.order i
    rw [(hf.1 i hic).1] at this
    simpa [line, hf.2.2] using this
  · have := Nat.div_add_mod (c.actors * c.perActor) c.batchSize
    rw [Nat.mul_comm] at this
    unfold Config.numSteps at hl
    omega
  · have h0 : 2 * total c start + holding c start + (start.seen.length * c.batchSize + start.batch.length) + start.seen.length = 0 := by simp [total, holding, start]
    rw [h0, Nat.zero_add, ht, hh, hf.2.1, hf.2.2, List.length_nil] at hn
    omega

/-- C148: every run can be brought to its end. -/
theorem runs_end {c : Config} (hb : 0 < c.batchSize) {es : List Event} {s : State} (h : run c start es = some s) : ∃ fs s', run c s fs = some s' ∧ Final c s' := by
  have append : ∀ (es fs : List Event) (s s' : State), run c s es = some s' → run c s (es ++ fs) = run c s' fs := by
    intro es
    induction es with
    | nil => intro fs s s' h; cases h; rfl
    | cons e es ih =>
      intro fs s s' h
      simp only [run, Option.bind_eq_some_iff, List.cons_append] at h ⊢
      obtain ⟨t, h1, h2⟩ := h
      rw [h1, Option.bind_some]
      exact ih fs t s' h2
  -- the number of remaining steps is bounded
  have key : ∀ (n : Nat) (es : List Event) (s : State), run c start es = some s → 2 * (c.actors * c.perActor) + c.numSteps * c.batchSize + c.numSteps - es.length = n → ∃ fs s', run c s fs = some s' ∧ Final c s' := by
    intro n
    induction n using Nat.strong_induction_on with
    | _ n ih =>
      intro es s h hn
      rcases no_deadlock hb h with hf | ⟨e, t, ht⟩
      · exact ⟨[], s, rfl, hf⟩
      · have h' : run c start (es ++ [e]) = some t := by
          rw [append es [e] start s h]
          simp [run, ht]
        have := bounded_runs hb h'
        rw [List.length_append, List.length_singleton] at this
        obtain ⟨fs, s', h1, h2⟩ := ih (2 * (c.actors * c.perActor) + c.numSteps * c.batchSize + c.numSteps - (es.length + 1)) (by omega) (es ++ [e]) t h' (by rw [List.length_append, List.length_singleton])
        exact ⟨e :: fs, s', by simp [run, ht, h1], h2⟩
  exact key _ es s h rfl

/-! ### Examples -/

-- Three actors with one trajectory each and batches of two: one update, one trajectory is left over.
example : ∃ s, run ⟨3, 1, 2⟩ start [.pull 0, .pull 1, .put 1, .get, .pull 2, .put 0, .put 2, .get, .update] = some s ∧ Final ⟨3, 1, 2⟩ s ∧ s.seen = [[⟨1, 0, 0⟩, ⟨0, 0, 0⟩]] ∧ s.queue = [⟨2, 0, 0⟩] := by
  refine ⟨_, rfl, ⟨fun i hi => ?_, rfl, rfl⟩, rfl, rfl⟩
  have : i < 3 := hi
  rcases i with _ | _ | _ | i
  · exact ⟨rfl, rfl⟩
  · exact ⟨rfl, rfl⟩
  · exact ⟨rfl, rfl⟩
  · omega

-- A blocked `put`: the queue is full.
example : ∃ s, run ⟨3, 1, 2⟩ start [.pull 0, .pull 1, .pull 2, .put 0, .put 1] = some s ∧ step ⟨3, 1, 2⟩ s (.put 2) = none := ⟨_, rfl, rfl⟩

end Verif.Props.ImpalaLite
