import Mathlib.Algebra.Field.Rat
import Mathlib.Algebra.BigOperators.Group.List.Basic
import Mathlib.Data.List.Nodup
import Mathlib.Tactic.Linarith
import Verif.Model.ImpalaActor

/-!
# The actor of the IMPALA example: trajectories are windows of one interaction (C152), returns are sums over episodes (C153)
-/

set_option linter.unusedVariables false
set_option linter.unusedSectionVars false

namespace Verif.Props.ImpalaActor
open Verif Verif.ImpalaActor
open Verif.Shapes (Err)

variable {K O Out S A E P : Type} [Field K]

/-! ### Specification -/

/-- Agent and environment in turn, without cuts: the transitions, one for each key and parameters. -/
def play (c : Setup K O Out S A E P) : List (Key × P) → E × TimeStep K O × S → List (Transition K O Out S)
  | [], _ => []
  | (k, p) :: rest, (env, ts, s) =>
    let r := c.agentStep k p (preprocess ts) s
    let e := c.envStep env (c.action r.1)
    ⟨preprocess ts, r.1, s⟩ :: play c rest (e.1, e.2, r.2)

/-- Where the interaction is after that. -/
def after (c : Setup K O Out S A E P) : List (Key × P) → E × TimeStep K O × S → E × TimeStep K O × S
  | [], x => x
  | (k, p) :: rest, (env, ts, s) =>
    let r := c.agentStep k p (preprocess ts) s
    let e := c.envStep env (c.action r.1)
    after c rest (e.1, e.2, r.2)

/-- What the environment has returned in it. -/
def returned (c : Setup K O Out S A E P) : List (Key × P) → E × TimeStep K O × S → List (TimeStep K O)
  | [], _ => []
  | (k, p) :: rest, (env, ts, s) =>
    let r := c.agentStep k p (preprocess ts) s
    let e := c.envStep env (c.action r.1)
    e.2 :: returned c rest (e.1, e.2, r.2)

/-- The environment gives a reward with every last step, as `dm_env` asks for. -/
def Rewarding (c : Setup K O Out S A E P) : Prop := ∀ env a, (c.envStep env a).2.stepType = .last → ∃ x, (c.envStep env a).2.reward = some x

/-- The keys and parameters of the interactions: the first unroll is one longer. -/
def plan (U : Nat) : Bool → Key → List P → List (Key × P)
  | _, _, [] => []
  | first, k, p :: ps => (jaxSplit (.child k 2 1) (U + if first then 1 else 0)).map (fun x => (x, p)) ++ plan U (first && U + (if first then 1 else 0) == 0) (.child k 2 0) ps

/-- The reward of a step, 0 if there is none. -/
def gain (t : TimeStep K O) : K := t.reward.getD 0

/-- The steps fall into finished episodes and a rest. -/
structure Episodes (l : List (TimeStep K O)) (done : List (List (TimeStep K O))) (rest : List (TimeStep K O)) : Prop where
  eq : l = done.flatten ++ rest
  ends : ∀ e ∈ done, ∃ body t, e = body ++ [t] ∧ t.stepType = .last ∧ ∀ u ∈ body, u.stepType ≠ .last
  open_ : ∀ u ∈ rest, u.stepType ≠ .last

/-! ### Lemmas -/

theorem play_append (c : Setup K O Out S A E P) (a b : List (Key × P)) : ∀ x, play c (a ++ b) x = play c a x ++ play c b (after c a x) := by
  induction a with
  | nil => intro x; rfl
  | cons k a ih =>
    intro ⟨env, ts, s⟩
    show _ :: play c (a ++ b) _ = _ :: (play c a _ ++ play c b _)
    rw [ih]
    rfl

theorem after_append (c : Setup K O Out S A E P) (a b : List (Key × P)) : ∀ x, after c (a ++ b) x = after c b (after c a x) := by
  induction a with
  | nil => intro x; rfl
  | cons k a ih => intro ⟨env, ts, s⟩; exact ih _

theorem returned_append (c : Setup K O Out S A E P) (a b : List (Key × P)) : ∀ x, returned c (a ++ b) x = returned c a x ++ returned c b (after c a x) := by
  induction a with
  | nil => intro x; rfl
  | cons k a ih =>
    intro ⟨env, ts, s⟩
    show _ :: returned c (a ++ b) _ = _ :: (returned c a _ ++ returned c b _)
    rw [ih]
    rfl

theorem play_length (c : Setup K O Out S A E P) (a : List (Key × P)) : ∀ x, (play c a x).length = a.length := by
  induction a with
  | nil => intro x; rfl
  | cons k a ih => intro ⟨env, ts, s⟩; exact congrArg (· + 1) (ih _)

/-- The state of the interaction. -/
def at_ (s : State K O Out S E) : E × TimeStep K O × S := (s.env, s.timestep, s.agentState)

theorem interact_ok {c : Setup K O Out S A E P} (hr : Rewarding c) (frames : Nat) (p : P) (k : Key) (s : State K O Out S E) :
    ∃ s', interact c frames p k s = .ok s' ∧ s'.traj = s.traj ++ play c [(k, p)] (at_ s) ∧ at_ s' = after c [(k, p)] (at_ s) ∧ s'.key = s.key ∧
      ∃ t, returned c [(k, p)] (at_ s) = [t] ∧ ((t.stepType = .last ∧ s'.episodeReturn = 0 ∧ s'.logs = s.logs ++ [(frames, s.episodeReturn + gain t)]) ∨ (t.stepType ≠ .last ∧ s'.episodeReturn = s.episodeReturn + gain t ∧ s'.logs = s.logs)) := by
  unfold interact
  dsimp only
  by_cases hl : (c.envStep s.env (c.action (c.agentStep k p (preprocess s.timestep) s.agentState).1)).2.stepType = .last
  · obtain ⟨x, hx⟩ := hr _ _ hl
    rw [if_pos hl]
    simp only [hx]
    exact ⟨_, rfl, rfl, rfl, rfl, _, rfl, .inl ⟨hl, rfl, by simp only [gain, hx]; rfl⟩⟩
  · rw [if_neg hl]
    exact ⟨_, rfl, rfl, rfl, rfl, _, rfl, .inr ⟨hl, rfl, rfl⟩⟩

/-- One more step of an episode. -/
theorem episodes_snoc {l : List (TimeStep K O)} {done rest} (h : Episodes l done rest) (t : TimeStep K O) :
    (t.stepType = .last → Episodes (l ++ [t]) (done ++ [rest ++ [t]]) []) ∧ (t.stepType ≠ .last → Episodes (l ++ [t]) done (rest ++ [t])) := by
  obtain ⟨h1, h2, h3⟩ := h
  refine ⟨fun ht => ⟨?_, fun e he => ?_, fun u hu => by cases hu⟩, fun ht => ⟨?_, h2, fun u hu => ?_⟩⟩
  · rw [h1]; simp
  · rcases List.mem_append.mp he with he | he
    · exact h2 e he
    · rw [List.mem_singleton.mp he]
      exact ⟨rest, t, rfl, ht, h3⟩
  · rw [h1]; simp
  · rcases List.mem_append.mp hu with hu | hu
    · exact h3 u hu
    · rw [List.mem_singleton.mp hu]; exact ht

/-- What the loop does, with the episodes so far. -/
theorem loop_ok {c : Setup K O Out S A E P} (hr : Rewarding c) (frames : Nat) (p : P) (ks : List Key) : ∀ (s : State K O Out S E) (past : List (TimeStep K O)) (done : List (List (TimeStep K O))) (rest : List (TimeStep K O)),
    Episodes past done rest → s.episodeReturn = (rest.map gain).sum → s.logs.map Prod.snd = done.map (fun e => (e.map gain).sum) →
    ∃ s', loop c frames p ks s = .ok s' ∧ s'.traj = s.traj ++ play c (ks.map fun k => (k, p)) (at_ s) ∧ at_ s' = after c (ks.map fun k => (k, p)) (at_ s) ∧ s'.key = s.key ∧
      ∃ done' rest', Episodes (past ++ returned c (ks.map fun k => (k, p)) (at_ s)) done' rest' ∧ s'.episodeReturn = (rest'.map gain).sum ∧ s'.logs.map Prod.snd = done'.map fun e => (e.map gain).sum := by
  induction ks with
  | nil =>
    intro s past done rest h1 h2 h3
    exact ⟨s, rfl, by simp [play], rfl, rfl, done, rest, by simpa [returned] using h1, h2, h3⟩
  | cons k ks ih =>
    intro s past done rest h1 h2 h3
    obtain ⟨s1, e1, e2, e3, e4, t, e5, e6⟩ := interact_ok hr frames p k s
    obtain ⟨f1, f2⟩ := episodes_snoc h1 t
    have key : ∃ done1 rest1, Episodes (past ++ [t]) done1 rest1 ∧ s1.episodeReturn = (rest1.map gain).sum ∧ s1.logs.map Prod.snd = done1.map fun e => (e.map gain).sum := by
      rcases e6 with ⟨g1, g2, g3⟩ | ⟨g1, g2, g3⟩
      · refine ⟨_, _, f1 g1, by rw [g2]; rfl, ?_⟩
        rw [g3, List.map_append, List.map_append, h3, h2]
        simp
      · refine ⟨_, _, f2 g1, ?_, by rw [g3]; exact h3⟩
        rw [g2, h2]
        simp
    obtain ⟨done1, rest1, k1, k2, k3⟩ := key
    obtain ⟨s2, l1, l2, l3, l4, done2, rest2, l5, l6, l7⟩ := ih s1 (past ++ [t]) done1 rest1 k1 k2 k3
    have split : (k :: ks).map (fun k => (k, p)) = [(k, p)] ++ ks.map fun k => (k, p) := rfl
    refine ⟨s2, ?_, ?_, ?_, l4.trans e4, done2, rest2, ?_, l6, l7⟩
    · show (interact c frames p k s >>= loop c frames p ks) = _
      rw [e1]
      exact l1
    · rw [l2, e2, e3, split, play_append, List.append_assoc]
    · rw [l3, e3, split, after_append]
    · rw [split, returned_append, e5, ← e3, ← List.append_assoc]
      exact l5

theorem plan_first (U : Nat) (first : Bool) (k : Key) (p : P) (ps : List P) :
    plan U first k (p :: ps) = (jaxSplit (.child k 2 1) (U + if first then 1 else 0)).map (fun x => (x, p)) ++ plan U false (.child k 2 0) ps := by
  show _ ++ plan U (first && U + (if first then 1 else 0) == 0) _ ps = _
  cases first <;> simp

/-- The windows of a list: of length `U + 1`, each starts at the end of the one before. -/
theorem window_step {α : Type} {U : Nat} {t0 l1 l2 : List α} (h : t0.length ≤ 1) (hl : (t0 ++ l1).length = U + 1) :
    ((t0 ++ l1).drop ((t0 ++ l1).length - 1)).length = 1 ∧ (t0 ++ (l1 ++ l2)).take (U + 1) = t0 ++ l1 ∧ ∀ k, (t0 ++ (l1 ++ l2)).drop ((k + 1) * U) = ((t0 ++ l1).drop ((t0 ++ l1).length - 1) ++ l2).drop (k * U) := by
  rw [← List.append_assoc]
  generalize t0 ++ l1 = l at hl
  refine ⟨by rw [List.length_drop]; omega, ?_, fun k => ?_⟩
  · rw [← hl, List.take_left']
    rfl
  · rw [hl, Nat.add_sub_cancel, Nat.add_mul, Nat.one_mul, Nat.add_comm, ← List.drop_drop]
    congr 1
    rw [List.drop_append_of_le_length (by omega)]

/-! ### Theorems -/

theorem runActor_ok {c : Setup K O Out S A E P} (hr : Rewarding c) (reqs : List (Nat × P)) : ∀ (s : State K O Out S E) (past : List (TimeStep K O)) (done : List (List (TimeStep K O))) (rest : List (TimeStep K O)),
    s.traj.length ≤ 1 → Episodes past done rest → s.episodeReturn = (rest.map gain).sum → s.logs.map Prod.snd = done.map (fun e => (e.map gain).sum) →
    ∃ trajs s', runActor c reqs s = .ok (trajs, s') ∧ trajs.length = reqs.length ∧
      (∀ k < reqs.length, trajs[k]? = some (((s.traj ++ play c (plan c.unrollLength s.traj.isEmpty s.key (reqs.map Prod.snd)) (at_ s)).drop (k * c.unrollLength)).take (c.unrollLength + 1))) ∧
      at_ s' = after c (plan c.unrollLength s.traj.isEmpty s.key (reqs.map Prod.snd)) (at_ s) ∧
      ∃ done' rest', Episodes (past ++ returned c (plan c.unrollLength s.traj.isEmpty s.key (reqs.map Prod.snd)) (at_ s)) done' rest' ∧ s'.episodeReturn = (rest'.map gain).sum ∧
        s'.logs.map Prod.snd = done'.map fun e => (e.map gain).sum := by
  induction reqs with
  | nil =>
    intro s past done rest h0 h1 h2 h3
    exact ⟨[], s, rfl, rfl, fun k hk => absurd hk (Nat.not_lt_zero k), rfl, done, rest, by simpa [plan, returned] using h1, h2, h3⟩
  | cons q reqs ih =>
    obtain ⟨frames, p⟩ := q
    intro s past done rest h0 h1 h2 h3
    obtain ⟨s1, l1, l2, l3, l4, done1, rest1, l5, l6, l7⟩ := loop_ok hr frames p (jaxSplit (.child s.key 2 1) (c.unrollLength + if s.traj.isEmpty then 1 else 0)) { s with key := .child s.key 2 0 } past done rest h1 h2 h3
    have hat : at_ { s with key := .child s.key 2 0 } = at_ s := rfl
    rw [hat] at l2 l3 l5
    dsimp only at l2 l4
    have hlen : (s.traj ++ play c ((jaxSplit (.child s.key 2 1) (c.unrollLength + if s.traj.isEmpty then 1 else 0)).map fun k => (k, p)) (at_ s)).length = c.unrollLength + 1 := by
      rw [List.length_append, play_length, List.length_map, jaxSplit, List.length_map, List.length_range]
      cases ht : s.traj with
      | nil => simp
      | cons a l =>
        rw [ht, List.length_cons] at h0
        simp
        omega
    obtain ⟨s2, hs2⟩ : ∃ s2 : State K O Out S E, s2 = { s1 with traj := s1.traj.drop (s1.traj.length - 1) } := ⟨_, rfl⟩
    have hw := window_step (l2 := play c (plan c.unrollLength false (.child s.key 2 0) (reqs.map Prod.snd)) (at_ s1)) h0 hlen
    rw [← l2] at hw
    have hs2l : s2.traj.length = 1 := by rw [hs2]; exact hw.1
    have hs2e : s2.traj.isEmpty = false := by
      cases h : s2.traj with
      | nil => rw [h] at hs2l; cases hs2l
      | cons => rfl
    have hs2a : at_ s2 = at_ s1 := by rw [hs2]; rfl
    have hs2k : s2.key = .child s.key 2 0 := by rw [hs2]; exact l4
    obtain ⟨trajs, s3, m1, m2, m3, m4, done2, rest2, m5, m6, m7⟩ := ih s2 (past ++ returned c ((jaxSplit (.child s.key 2 1) (c.unrollLength + if s.traj.isEmpty then 1 else 0)).map fun k => (k, p)) (at_ s)) done1 rest1 (by omega) l5
      (by rw [hs2]; exact l6) (by rw [hs2]; exact l7)
    rw [hs2e, hs2a, hs2k] at m3 m4 m5
    have hstream : s.traj ++ play c (plan c.unrollLength s.traj.isEmpty s.key (((frames, p) :: reqs).map Prod.snd)) (at_ s) =
        s.traj ++ (play c ((jaxSplit (.child s.key 2 1) (c.unrollLength + if s.traj.isEmpty then 1 else 0)).map fun k => (k, p)) (at_ s) ++ play c (plan c.unrollLength false (.child s.key 2 0) (reqs.map Prod.snd)) (at_ s1)) := by
      rw [List.map_cons, plan_first, play_append, l3]
    refine ⟨s1.traj :: trajs, s3, ?_, by simp [m2], ?_, ?_, done2, rest2, ?_, m6, m7⟩
    · show ((loop c frames p (jaxSplit (.child s.key 2 1) (c.unrollLength + if s.traj.isEmpty then 1 else 0)) { s with key := .child s.key 2 0 } >>= fun s => Except.ok (s.traj, { s with traj := s.traj.drop (s.traj.length - 1) })) >>= fun r =>
        runActor c reqs r.2 >>= fun q => .ok (r.1 :: q.1, q.2)) = _
      rw [l1]
      show (runActor c reqs { s1 with traj := s1.traj.drop (s1.traj.length - 1) } >>= fun q => Except.ok (s1.traj :: q.1, q.2)) = _
      rw [← hs2, m1]
      rfl
    · intro k hk
      rw [hstream]
      cases k with
      | zero =>
        rw [Nat.zero_mul, List.drop_zero, hw.2.1]
        rfl
      | succ k =>
        rw [hw.2.2 k, List.getElem?_cons_succ, m3 k (by simpa using hk), hs2]
    · rw [m4, List.map_cons, plan_first, after_append, l3]
    · rw [List.map_cons, plan_first, returned_append, ← l3, ← List.append_assoc]
      exact m5

/-- The whole interaction of an actor. -/
def whole (c : Setup K O Out S A E P) (seed : Int) (ps : List P) (x : E × TimeStep K O × S) : List (Transition K O Out S) := play c (plan c.unrollLength true (.root seed) ps) x

/-- C152: the trajectories of an actor, for any number of unrolls with any parameters, are windows of one uninterrupted interaction of agent and environment: each has `unroll_length + 1` transitions, the trajectory number `k` starts with the
transition number `k * unroll_length`. -/
theorem windows {c : Setup K O Out S A E P} (hr : Rewarding c) (reqs : List (Nat × P)) (env : E) (ts : TimeStep K O) (st : S) (seed : Int) :
    ∃ trajs s', runActor c reqs (init env ts st seed) = .ok (trajs, s') ∧ trajs.length = reqs.length ∧
      ∀ k < reqs.length, trajs[k]? = some (((whole c seed (reqs.map Prod.snd) (env, ts, st)).drop (k * c.unrollLength)).take (c.unrollLength + 1)) := by
  obtain ⟨trajs, s', h1, h2, h3, _⟩ := runActor_ok hr reqs (init env ts st seed : State K O Out S E) [] [] [] (Nat.zero_le _) ⟨rfl, fun e he => (by cases he), fun u hu => (by cases hu)⟩ rfl rfl
  exact ⟨trajs, s', h1, h2, h3⟩

theorem plan_length (U : Nat) (ps : List P) : ∀ k, (plan U false k ps).length = ps.length * U := by
  induction ps with
  | nil => intro k; simp [plan]
  | cons p ps ih =>
    intro k
    rw [plan_first, List.length_append, ih]
    simp [jaxSplit, Nat.add_mul, Nat.add_comm]

/-- C152: the interaction has as many transitions as the trajectories need, so that no window is cut off. -/
theorem whole_length (c : Setup K O Out S A E P) (seed : Int) (ps : List P) (x : E × TimeStep K O × S) (h : ps ≠ []) : (whole c seed ps x).length = ps.length * c.unrollLength + 1 := by
  cases ps with
  | nil => exact absurd rfl h
  | cons p ps =>
    rw [whole, play_length, plan_first, List.length_append, plan_length]
    simp [jaxSplit, Nat.add_mul]
    omega

/-- C152: what the agent gets and the trajectory records: a missing reward as 0, a missing discount as 1, all else as it is. -/
theorem preprocess_eq (t : TimeStep K O) : preprocess t = ⟨t.stepType, some (t.reward.getD 0), some (t.discount.getD 1), t.observation⟩ := by
  obtain ⟨a, b, d, o⟩ := t
  cases d <;> rfl

/-- C152: each trajectory starts with the transition that the one before ends with, and without their last transitions the trajectories are the interaction, each transition once. -/
theorem trajectories_tile {c : Setup K O Out S A E P} (hr : Rewarding c) (reqs : List (Nat × P)) (env : E) (ts : TimeStep K O) (st : S) (seed : Int) :
    ∃ trajs s', runActor c reqs (init env ts st seed) = .ok (trajs, s') ∧ (∀ t ∈ trajs, t.length = c.unrollLength + 1) ∧ (∀ k a b, trajs[k]? = some a → trajs[k + 1]? = some b → b.head? = a.getLast?) ∧
      (trajs.map List.dropLast).flatten = (whole c seed (reqs.map Prod.snd) (env, ts, st)).take (reqs.length * c.unrollLength) := by
  obtain ⟨trajs, s', h1, h2, h3⟩ := windows hr reqs env ts st seed
  refine ⟨trajs, s', h1, ?_, ?_, ?_⟩
  · intro t ht
    obtain ⟨k, hk, e⟩ := List.getElem_of_mem ht
    have hk' : k < reqs.length := by omega
    have hl := whole_length c seed (reqs.map Prod.snd) (env, ts, st) (by intro e; rw [List.map_eq_nil_iff] at e; rw [e] at hk'; cases hk')
    have := h3 k hk'
    rw [List.getElem?_eq_getElem hk, e, Option.some.injEq] at this
    rw [this, List.length_take, List.length_drop, hl, List.length_map]
    have : (k + 1) * c.unrollLength ≤ reqs.length * c.unrollLength := Nat.mul_le_mul_right _ hk'
    rw [Nat.add_mul, Nat.one_mul] at this
    omega
  · intro k a b ha hb
    have hkb : k + 1 < reqs.length := by
      have := (List.getElem?_eq_some_iff.mp hb).1
      omega
    have hl := whole_length c seed (reqs.map Prod.snd) (env, ts, st) (by intro e; rw [List.map_eq_nil_iff] at e; rw [e] at hkb; cases hkb)
    rw [h3 k (by omega), Option.some.injEq] at ha
    rw [h3 (k + 1) hkb, Option.some.injEq] at hb
    have hle : (k + 1) * c.unrollLength ≤ reqs.length * c.unrollLength := Nat.mul_le_mul_right _ (by omega)
    rw [List.length_map] at hl
    rw [← ha, ← hb, List.head?_take, if_neg (by omega), List.head?_drop, List.getLast?_eq_getElem?, List.length_take, List.length_drop, hl, List.getElem?_take]
    rw [Nat.add_mul, Nat.one_mul] at hle
    rw [Nat.min_eq_left (by omega), if_pos (by omega), List.getElem?_drop, Nat.add_sub_cancel, Nat.add_mul, Nat.one_mul]
  · have key : ∀ n ≤ trajs.length, ((trajs.take n).map List.dropLast).flatten = (whole c seed (reqs.map Prod.snd) (env, ts, st)).take (n * c.unrollLength) := by
      intro n
      induction n with
      | zero => intro _; simp
      | succ n ih =>
        intro hn
        have hn' : n < reqs.length := by omega
        have hl := whole_length c seed (reqs.map Prod.snd) (env, ts, st) (by intro e; rw [List.map_eq_nil_iff] at e; rw [e] at hn'; cases hn')
        rw [List.length_map] at hl
        have hle : (n + 1) * c.unrollLength ≤ reqs.length * c.unrollLength := Nat.mul_le_mul_right _ (by omega)
        rw [Nat.add_mul, Nat.one_mul] at hle
        rw [List.take_add_one, h3 n hn', List.map_append, List.flatten_append, ih (by omega)]
        simp only [Option.toList_some, List.map_cons, List.map_nil, List.flatten_cons, List.flatten_nil, List.append_nil]
        rw [List.dropLast_eq_take, List.length_take, List.length_drop, hl, Nat.min_eq_left (by omega), Nat.add_sub_cancel, List.take_take, Nat.min_eq_left (by omega), Nat.add_mul, Nat.one_mul, List.take_add]
    have := key trajs.length le_rfl
    rw [List.take_length] at this
    rw [this, h2]

/-- C152: no key is used for two steps of the agent. -/
theorem keys_distinct (U : Nat) (seed : Int) (ps : List P) : ((plan U true (.root seed) ps).map Prod.fst).Nodup := by
  have down : ∀ (ps : List P) (first : Bool) (k x : Key), x ∈ (plan U first k ps).map Prod.fst → ∃ j n i, x = .child (.child ((fun y => Key.child y 2 0)^[j] k) 2 1) n i := by
    intro ps
    induction ps with
    | nil => intro first k x hx; simp [plan] at hx
    | cons p ps ih =>
      intro first k x hx
      rw [plan_first, List.map_append, List.mem_append] at hx
      rcases hx with hx | hx
      · simp only [jaxSplit, List.map_map, List.mem_map, Function.comp] at hx
        obtain ⟨i, _, rfl⟩ := hx
        exact ⟨0, _, i, rfl⟩
      · obtain ⟨j, n, i, rfl⟩ := ih false _ x hx
        exact ⟨j + 1, n, i, rfl⟩
  have depth : ∀ j (k : Key), sizeOf ((fun y => Key.child y 2 0)^[j] k) ≥ sizeOf k := by
    intro j
    induction j with
    | zero => intro k; exact le_rfl
    | succ j ih =>
      intro k
      refine le_trans ?_ (ih (Key.child k 2 0))
      simp
      omega
  have main : ∀ (ps : List P) (first : Bool) (k : Key), ((plan U first k ps).map Prod.fst).Nodup := by
    intro ps
    induction ps with
    | nil => intro first k; simp [plan]
    | cons p ps ih =>
      intro first k
      rw [plan_first, List.map_append, List.nodup_append]
      refine ⟨?_, ih false _, ?_⟩
      · simp only [jaxSplit, List.map_map]
        exact List.Nodup.map (fun a b h => by simpa using h) List.nodup_range
      · intro x hx y hy e
        subst e
        obtain ⟨j, n, i, e⟩ := down ps false _ _ hy
        simp only [jaxSplit, List.map_map, List.mem_map, Function.comp] at hx
        obtain ⟨i', _, e'⟩ := hx
        rw [e] at e'
        simp only [Key.child.injEq] at e'
        have h1 := e'.1.1
        have h2 := depth j (Key.child k 2 0)
        rw [← h1] at h2
        simp at h2
        omega
  exact main ps true _

/-- C153: what the logger gets, over any number of unrolls: for each finished episode the sum of its rewards, in their order, also if an episode is spread over several trajectories. -/
theorem returns_logged {c : Setup K O Out S A E P} (hr : Rewarding c) (reqs : List (Nat × P)) (env : E) (ts : TimeStep K O) (st : S) (seed : Int) :
    ∃ trajs s' done rest, runActor c reqs (init env ts st seed) = .ok (trajs, s') ∧ Episodes (returned c (plan c.unrollLength true (.root seed) (reqs.map Prod.snd)) (env, ts, st)) done rest ∧
      s'.logs.map Prod.snd = done.map (fun e => (e.map gain).sum) ∧ s'.episodeReturn = (rest.map gain).sum := by
  obtain ⟨trajs, s', h1, h2, h3, h4, done, rest, h5, h6, h7⟩ := runActor_ok hr reqs (init env ts st seed : State K O Out S E) [] [] [] (Nat.zero_le _) ⟨rfl, fun e he => (by cases he), fun u hu => (by cases hu)⟩ rfl rfl
  exact ⟨trajs, s', done, rest, h1, h5, h7, h6⟩

/-- C153: there is only one way to cut steps into episodes. -/
theorem episodes_unique {l : List (TimeStep K O)} : ∀ {d d' : List (List (TimeStep K O))} {r r' : List (TimeStep K O)}, Episodes l d r → Episodes l d' r' → d = d' ∧ r = r' := by
  -- the first episode is determined by the first last step
  have cut : ∀ (body body' : List (TimeStep K O)) (t t' : TimeStep K O) (x x' : List (TimeStep K O)), body ++ t :: x = body' ++ t' :: x' → t.stepType = .last → t'.stepType = .last → (∀ u ∈ body, u.stepType ≠ .last) → (∀ u ∈ body', u.stepType ≠ .last) →
      body = body' ∧ t = t' ∧ x = x' := by
    intro body
    induction body with
    | nil =>
      intro body' t t' x x' h ht ht' hb hb'
      cases body' with
      | nil => cases h; exact ⟨rfl, rfl, rfl⟩
      | cons u body' =>
        cases h
        exact absurd ht (hb' _ List.mem_cons_self)
    | cons v body ih =>
      intro body' t t' x x' h ht ht' hb hb'
      cases body' with
      | nil =>
        cases h
        exact absurd ht' (hb _ List.mem_cons_self)
      | cons u body' =>
        rw [List.cons_append, List.cons_append, List.cons.injEq] at h
        obtain ⟨h1, h2, h3⟩ := ih body' t t' x x' h.2 ht ht' (fun u hu => hb u (List.mem_cons_of_mem _ hu)) (fun u hu => hb' u (List.mem_cons_of_mem _ hu))
        exact ⟨by rw [h.1, h1], h2, h3⟩
  intro d
  induction d generalizing l with
  | nil =>
    intro d' r r' h h'
    cases d' with
    | nil => exact ⟨rfl, by have := h.eq.symm.trans h'.eq; simpa using this⟩
    | cons e d' =>
      obtain ⟨body, t, rfl, ht, hb⟩ := h'.ends e List.mem_cons_self
      have : t ∈ r := by
        have e := h.eq.symm.trans h'.eq
        simp only [List.flatten_nil, List.nil_append] at e
        rw [e]
        simp
      exact absurd ht (h.open_ t this)
  | cons e d ih =>
    intro d' r r' h h'
    obtain ⟨body, t, rfl, ht, hb⟩ := h.ends e List.mem_cons_self
    cases d' with
    | nil =>
      have : t ∈ r' := by
        have e := h'.eq.symm.trans h.eq
        simp only [List.flatten_nil, List.nil_append] at e
        rw [e]
        simp
      exact absurd ht (h'.open_ t this)
    | cons e' d' =>
      obtain ⟨body', t', rfl, ht', hb'⟩ := h'.ends e' List.mem_cons_self
      have e := h.eq.symm.trans h'.eq
      simp only [List.flatten_cons, List.append_assoc, List.cons_append, List.nil_append] at e
      obtain ⟨e1, e2, e3⟩ := cut _ _ _ _ _ _ e ht ht' hb hb'
      obtain ⟨i1, i2⟩ := ih (l := d.flatten ++ r) (d' := d') (r' := r') ⟨rfl, fun x hx => h.ends x (List.mem_cons_of_mem _ hx), h.open_⟩ ⟨e3, fun x hx => h'.ends x (List.mem_cons_of_mem _ hx), h'.open_⟩
      exact ⟨by rw [e1, e2, i1], i2⟩

/-- C153: a last step without a reward stops the actor. -/
theorem last_needs_reward (c : Setup K O Out S A E P) (frames : Nat) (p : P) (k : Key) (s : State K O Out S E) (t : TimeStep K O) (h : returned c [(k, p)] (at_ s) = [t]) (hl : t.stepType = .last) :
    (∃ e, interact c frames p k s = .error e) ↔ t.reward = none := by
  have ht : (c.envStep s.env (c.action (c.agentStep k p (preprocess s.timestep) s.agentState).1)).2 = t := by injection h
  unfold interact
  dsimp only
  rw [ht, if_pos hl]
  cases t.reward with
  | none => exact ⟨fun _ => rfl, fun _ => ⟨_, rfl⟩⟩
  | some x => exact ⟨fun ⟨e, he⟩ => (by cases he), fun h => (by cases h)⟩

theorem plan_params (U : Nat) (ps : List P) : ∀ k, (plan U false k ps).map Prod.snd = ps.flatMap fun p => List.replicate U p := by
  induction ps with
  | nil => intro k; rfl
  | cons p ps ih =>
    intro k
    rw [plan_first, List.map_append, ih, List.flatMap_cons]
    congr 1
    simp [jaxSplit, Function.comp_def]

/-- C152: which parameters make which transition: the first of all is made with the first parameters, after that `unroll_length` with each; so the first transition of every trajectory but the first is made with the parameters of the unroll before. -/
theorem params_of_transitions (U : Nat) (seed : Int) (p : P) (ps : List P) : (plan U true (.root seed) (p :: ps)).map Prod.snd = p :: (p :: ps).flatMap fun p => List.replicate U p := by
  rw [plan_first, List.map_append, plan_params, List.flatMap_cons, ← List.cons_append]
  congr 1
  simp [jaxSplit, Function.comp_def, List.replicate_succ]

/-! ### The learner repeats what the actor did -/

/-- C152: if all transitions of a trajectory were made with the same parameters, the learner, which unrolls the network over its time steps from the first agent state, gets the same outputs as the actor and the same states. -/
theorem learner_repeats {N : Type} (cell : P → TimeStep K O → S → N × S) (sample : Key → N → A) (envStep : E → A → E × TimeStep K O) (U : Nat) (keys : List Key) (p : P) : ∀ (env : E) (ts : TimeStep K O) (st : S),
    let traj := play ⟨agentStep cell sample, Prod.snd, envStep, U⟩ (keys.map fun k => (k, p)) (env, ts, st)
    (netUnroll cell p (traj.map Transition.timestep) st).1 = traj.map fun t => t.agentOut.1 := by
  induction keys with
  | nil => intro env ts st; rfl
  | cons k keys ih =>
    intro env ts st
    show _ :: (netUnroll cell p ((play _ (keys.map fun k => (k, p)) _).map Transition.timestep) _).1 = _ :: (play _ (keys.map fun k => (k, p)) _).map _
    congr 1
    exact ih _ _ _

/-! ### Examples -/

/-- An environment whose episodes have three steps; the state is the place in the episode. -/
def demoEnv : Nat → Nat → Nat × TimeStep ℚ Nat := fun e a =>
  match e with
  | 0 => (1, ⟨.mid, some (a : ℚ), some 1, 1⟩)
  | 1 => (2, ⟨.last, some 10, some 0, 2⟩)
  | _ => (0, ⟨.first, none, none, 0⟩)

/-- An agent that counts its steps and plays its parameter. -/
def demo : Setup ℚ Nat Nat Nat Nat Nat Nat := ⟨fun _ p _ s => (p, s + 1), id, demoEnv, 2⟩

theorem demo_rewarding : Rewarding demo := by
  intro env a h
  match env with
  | 0 => exact absurd h (fun h => StepType.noConfusion h)
  | 1 => exact ⟨10, rfl⟩
  | n + 2 => exact absurd h (fun h => StepType.noConfusion h)

/-- The numbers of the agent's steps in a trajectory, with the step types. -/
def sketch (t : List (Transition ℚ Nat Nat Nat)) : List (Nat × StepType) := t.map fun x => (x.agentState, x.timestep.stepType)

-- Three unrolls of length two: the trajectories overlap in one transition; the episode with the rewards 7 and 10 is spread over two trajectories.
example : ((runActor demo [(0, 5), (40, 7), (80, 7)] (init 0 ⟨.first, none, none, 0⟩ 0 42)).toOption.map fun r => (r.1.map sketch, r.2.logs, r.2.episodeReturn)) =
    some ([[(0, .first), (1, .mid), (2, .last)], [(2, .last), (3, .first), (4, .mid)], [(4, .mid), (5, .last), (6, .first)]], [(0, 15), (40, 17)], 7) := by decide +kernel

example : ∃ trajs s', runActor demo [(0, 5), (40, 7), (80, 7)] (init 0 ⟨.first, none, none, 0⟩ 0 42) = .ok (trajs, s') ∧ (∀ t ∈ trajs, t.length = 2 + 1) ∧ (∀ k a b, trajs[k]? = some a → trajs[k + 1]? = some b → b.head? = a.getLast?) ∧
    (trajs.map List.dropLast).flatten = (whole demo 42 [5, 7, 7] (0, ⟨.first, none, none, 0⟩, 0)).take (3 * 2) := trajectories_tile demo_rewarding [(0, 5), (40, 7), (80, 7)] 0 ⟨.first, none, none, 0⟩ 0 42

-- The same environment without a reward at the end.
example : (runActor { demo with envStep := fun e a => ((demoEnv e a).1, { (demoEnv e a).2 with reward := none }) } [(0, 5)] (init 0 ⟨.first, none, none, 0⟩ 0 42)).toOption.isNone := by decide +kernel

end Verif.Props.ImpalaActor
