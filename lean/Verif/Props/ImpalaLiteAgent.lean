import Verif.Model.ImpalaLiteAgent
import Verif.Props.ImpalaNets

/-!
# The agent, the loss and the actor of `examples/impala_lite.py`
-/

namespace Verif.Props.ImpalaLiteAgent
open Verif.ImpalaActor (TimeStep StepType netUnroll)
open Verif.ImpalaNets Verif.ImpalaLiteAgent
open Verif.ImpalaLoss (Rlax Row VStep Config errors advantages mean clipReward)
open Verif.Props.ImpalaNets (column Rect batchApply_map column_stackTime rect_stackTime)
open Verif.Props.ImpalaLoss (rowsLoss rowsLoss_eq consec)
open Verif.Shapes (Err)

variable {K O L A P E : Type}

/-! ### What is claimed -/

/-- The transition of the full example that holds the same; the value of the actor and its state, which are not there, are 0 and nothing. -/
def full [Zero K] (t : Transition K O L A) : Verif.ImpalaActor.Transition K O ((L × K) × A) Unit := ⟨t.timestep, ((t.agentOut, 0), t.action), ()⟩

/-- Agent and environment in turn, without cuts. -/
def play [Zero K] [One K] (act : P → Key → TimeStep K O → A × L) (envStep : E → A → E × TimeStep K O) : List (Key × P) → E → TimeStep K O → List (Transition K O L A)
  | [], _, _ => []
  | (k, p) :: rest, env, ts =>
    let r := act p k (preprocess ts)
    let e := envStep env r.1
    ⟨preprocess ts, r.1, r.2⟩ :: play act envStep rest e.1 e.2

/-- The key of the step number `j` of the actor number `i`: `j` times the first half of the key, then the second half. -/
def stepKey (i j : Nat) : Key := .child ((fun k => Key.child k 2 0)^[j] (.root i)) 2 1

/-- The parameters of the steps: the first for `unroll_len + 1` steps, all others for `unroll_len`. -/
def stepParams (U : Nat) : List P → List P
  | [] => []
  | p :: ps => List.replicate (U + 1) p ++ ps.flatMap (List.replicate U)

/-- Keys and parameters of all steps of the actor number `i`. -/
def plan (U i : Nat) (ps : List P) : List (Key × P) := (stepParams U ps).mapIdx fun j p => (stepKey i j, p)

/-! ### Lemmas about the loss -/

theorem column_map {α β : Type} (f : α → β) (b : Nat) (x : List (List α)) : column b (x.map (List.map f)) = (column b x).map f := by
  rw [column, column, List.filterMap_map, List.map_filterMap]
  refine List.filterMap_congr fun row _ => ?_
  show (row.map f)[b]? = _
  rw [List.getElem?_map]

theorem columns_eq {α β : Type} (f : α → β) (T : Nat) (trajs : List (List α)) (h : ∀ l ∈ trajs, l.length = T) : columns trajs.length (batchApply (List.map f) trajs.length (stackTime T trajs)) = trajs.map (List.map f) := by
  rw [batchApply_map _ _ _ (rect_stackTime T trajs h)]
  refine List.ext_getElem? fun b => ?_
  show ((List.range trajs.length).map fun b => column b ((stackTime T trajs).map (List.map f)))[b]? = _
  rw [List.getElem?_map, List.getElem?_map]
  by_cases hb : b < trajs.length
  · rw [List.getElem?_range hb, List.getElem?_eq_getElem hb]
    show some (column b _) = some _
    rw [column_map, column_stackTime T trajs h b _ (List.getElem?_eq_getElem hb)]
  · rw [List.getElem?_eq_none (by simpa using hb), List.getElem?_eq_none (by simpa using hb)]
    rfl

theorem netUnroll_pass [Field K] {N : Type} (f : P → TimeStep K O → N) (p : P) (ts : List (TimeStep K O)) (s : Unit) : (netUnroll (fun p t s => (f p t, s)) p ts s).1 = ts.map (f p) := by
  induction ts with
  | nil => rfl
  | cons t ts ih => exact congrArg (_ :: ·) ih

section
variable [Field K] [LinearOrder K]

theorem rows_full (r : Rlax K L A) (net : P → TimeStep K O → L × K) (p : P) (traj : List (Transition K O L A)) :
    rows r ((traj.map Transition.timestep).map (net p)) traj = Verif.ImpalaLoss.rows ⟨99 / 100, 0⟩ r (fun p t s => (net p t, s)) p (traj.map full) := by
  have gen : ∀ traj : List (Transition K O L A), rows r ((traj.map Transition.timestep).map (net p)) traj =
      consec (Verif.Props.ImpalaLoss.mkRow ⟨99 / 100, 0⟩ r) ((traj.map full).zip ((traj.map Transition.timestep).map (net p))) := by
    intro traj
    induction traj with
    | nil => rfl
    | cons t traj ih =>
      cases traj with
      | nil => rfl
      | cons u traj =>
        have hc : ∀ x : K, clipReward (⟨99 / 100, 0⟩ : Config K) x = x := fun x => if_neg (lt_irrefl _)
        show _ :: _ = _ :: _
        refine congr (congrArg List.cons ?_) ih
        show (_ : Row K L A) = Verif.Props.ImpalaLoss.mkRow _ _ _ _
        unfold Verif.Props.ImpalaLoss.mkRow
        rw [hc]
        rfl
  rw [gen]
  cases traj with
  | nil => rfl
  | cons t traj =>
    rw [List.map_cons, Verif.Props.ImpalaLoss.rows_eq, netUnroll_pass, ← List.map_cons]
    congr 2
    rw [List.map_map, List.map_map, List.map_map]
    rfl

omit [LinearOrder K] in
theorem mean_mul [CharZero K] (l : List K) (n : Nat) (h : l.length = n) : mean l * (n : K) = l.sum := by
  subst h
  cases l with
  | nil => simp [mean]
  | cons x l =>
    rw [mean, div_mul_cancel₀]
    rw [List.length_cons]
    exact Nat.cast_ne_zero.mpr (Nat.succ_ne_zero _)

omit [LinearOrder K] in
theorem sum_mul_right' (l : List K) (c : K) : l.sum * c = (l.map (· * c)).sum := by
  induction l with
  | nil => simp
  | cons x l ih => simp [add_mul, ih]

/-! ### Claims -/

/-- C183: times the number of times and trajectories, the loss of the small example is that of the full one, with the discount 0.99, no clipping of rewards and a network without a state: it is the mean of what the full example sums. -/
theorem loss_mean [CharZero K] (r : Rlax K L A) (net : P → TimeStep K O → L × K) (p : P) (n : Nat) (trajs : List (List (Transition K O L A))) (h : ∀ traj ∈ trajs, traj.length = n + 1) :
    loss r (fun p => List.map (net p)) p (n + 1) trajs * ((n : K) * (trajs.length : K)) = Verif.ImpalaLoss.loss ⟨99 / 100, 0⟩ r (fun p t s => (net p t, s)) p (trajs.map fun traj => traj.map full) := by
  have hl : ∀ l ∈ trajs.map fun traj => traj.map Transition.timestep, l.length = n + 1 := by
    intro l hl
    obtain ⟨q, hq, rfl⟩ := List.mem_map.mp hl
    rw [List.length_map]; exact h q hq
  have hcol := columns_eq (net p) (n + 1) _ hl
  rw [List.length_map] at hcol
  have hbatch : (columns trajs.length (batchApply (List.map (net p)) trajs.length (stackTime (n + 1) (trajs.map fun traj => traj.map Transition.timestep)))).zipWith (rows r) trajs =
      trajs.map fun traj => Verif.ImpalaLoss.rows ⟨99 / 100, 0⟩ r (fun p t s => (net p t, s)) p (traj.map full) := by
    rw [hcol, List.map_map]
    conv => lhs; rw [← List.map_id trajs, List.zipWith_map, List.map_id, List.zipWith_self]
    exact List.map_congr_left fun traj _ => rows_full r net p traj
  rw [Verif.Props.ImpalaLoss.loss_sums, List.map_map]
  unfold loss
  dsimp only
  rw [hbatch]
  have hrows : ∀ rs ∈ trajs.map fun traj => Verif.ImpalaLoss.rows ⟨99 / 100, 0⟩ r (fun p t s => (net p t, s)) p (traj.map full), rs.length = n := by
    intro rs hrs
    obtain ⟨q, hq, rfl⟩ := List.mem_map.mp hrs
    rw [Verif.Props.ImpalaLoss.rows_length, List.length_map, h q hq]
    rfl
  rw [show (trajs.map ((fun traj => rowsLoss r (Verif.ImpalaLoss.rows ⟨99 / 100, 0⟩ r (fun p t s => (net p t, s)) p traj)) ∘ fun traj => traj.map full)) =
    (trajs.map fun traj => Verif.ImpalaLoss.rows ⟨99 / 100, 0⟩ r (fun p t s => (net p t, s)) p (traj.map full)).map (rowsLoss r) by rw [List.map_map]; rfl]
  have hB : trajs.length = (trajs.map fun traj => Verif.ImpalaLoss.rows ⟨99 / 100, 0⟩ r (fun p t s => (net p t, s)) p (traj.map full)).length := (List.length_map _).symm
  rw [hB]
  clear hB hbatch hcol hl h
  generalize (trajs.map fun traj => Verif.ImpalaLoss.rows ⟨99 / 100, 0⟩ r (fun p t s => (net p t, s)) p (traj.map full)) = bs at hrows
  have hpg : mean (bs.map fun rows => mean ((rows.zip (advantages (rows.map Row.step))).map fun x => -r.logp x.1.logits x.1.action * x.2 * x.1.mask)) * (bs.length : K) * (n : K) =
      (bs.map fun rows => ((rows.zip (advantages (rows.map Row.step))).map fun x => -r.logp x.1.logits x.1.action * x.2 * x.1.mask).sum).sum := by
    rw [mean_mul _ _ (List.length_map _), sum_mul_right', List.map_map]
    refine congrArg _ (List.map_congr_left fun rs hrs => mean_mul _ n ?_)
    rw [List.length_map, List.length_zip, Verif.Props.ImpalaLoss.advantages_length, List.length_map, Nat.min_self, hrows rs hrs]
  have hent : mean (bs.map fun rows => -mean (rows.map fun x => r.entropy x.logits * x.mask)) * (bs.length : K) * (n : K) = (bs.map fun rows => -(rows.map fun x => r.entropy x.logits * x.mask).sum).sum := by
    rw [mean_mul _ _ (List.length_map _), sum_mul_right', List.map_map]
    refine congrArg _ (List.map_congr_left fun rs hrs => ?_)
    show -mean _ * (n : K) = _
    rw [neg_mul, mean_mul _ n (by rw [List.length_map]; exact hrows rs hrs)]
  have hbl : mean (bs.map fun rows => (rows.zip (errors (rows.map Row.step))).map fun x => x.2 ^ 2 * x.1.mask).flatten * (bs.length : K) * (n : K) =
      (bs.map fun rows => ((rows.zip (errors (rows.map Row.step))).map fun x => x.2 ^ 2 * x.1.mask).sum).sum := by
    have hlen : (bs.map fun rows => (rows.zip (errors (rows.map Row.step))).map fun x => x.2 ^ 2 * x.1.mask).flatten.length = bs.length * n := by
      clear hpg hent
      induction bs with
      | nil => simp
      | cons rs bs ih =>
        rw [List.map_cons, List.flatten_cons, List.length_append, ih fun q hq => hrows q (List.mem_cons_of_mem _ hq), List.length_map, List.length_zip, Verif.Props.ImpalaLoss.errors_length, List.length_map, Nat.min_self, hrows rs List.mem_cons_self,
          List.length_cons, Nat.add_mul, Nat.one_mul, Nat.add_comm]
    rw [mul_assoc, ← Nat.cast_mul, mean_mul _ _ hlen, List.sum_flatten, List.map_map]
    rfl
  have hsum : (bs.map (rowsLoss r)).sum = (bs.map fun rows => ((rows.zip (advantages (rows.map Row.step))).map fun x => -r.logp x.1.logits x.1.action * x.2 * x.1.mask).sum).sum +
      1 / 4 * (bs.map fun rows => ((rows.zip (errors (rows.map Row.step))).map fun x => x.2 ^ 2 * x.1.mask).sum).sum + 1 / 100 * (bs.map fun rows => -(rows.map fun x => r.entropy x.logits * x.mask).sum).sum := by
    clear hpg hent hbl hrows
    induction bs with
    | nil => simp
    | cons rs bs ih =>
      simp only [List.map_cons, List.sum_cons]
      rw [ih, rowsLoss_eq]
      ring
  rw [hsum, ← hpg, ← hbl, ← hent]
  ring

omit [LinearOrder K] in
/-- C183: both examples prepare time steps alike. -/
theorem preprocess_same (t : TimeStep K O) : preprocess t = Verif.ImpalaActor.preprocess t := by
  obtain ⟨a, b, d, o⟩ := t
  cases b <;> cases d <;> rfl

omit [Field K] [LinearOrder K] in
/-- C183: a step of the agent applies the network to the one time step and never fails. -/
theorem step_ok (net : P → TimeStep K O → L × K) (sample : Key → L → A) (p : P) (k : Key) (t : TimeStep K O) : step (fun p => List.map (net p)) sample p k t = .ok (sample k (net p t).1, (net p t).1) := rfl

end

/-! ### The actor -/

section
variable [Zero K] [One K]

/-- The keys of steps from a key on, with given parameters. -/
def steps : Key → List P → List (Key × P)
  | _, [] => []
  | k, p :: ps => (.child k 2 1, p) :: steps (.child k 2 0) ps

/-- Where the interaction is after some steps. -/
def adv (act : P → Key → TimeStep K O → A × L) (envStep : E → A → E × TimeStep K O) : List P → Key → E → TimeStep K O → Key × E × TimeStep K O
  | [], k, env, ts => (k, env, ts)
  | p :: ps, k, env, ts => adv act envStep ps (.child k 2 0) (envStep env (act p (.child k 2 1) (preprocess ts)).1).1 (envStep env (act p (.child k 2 1) (preprocess ts)).1).2

theorem play_append (act : P → Key → TimeStep K O → A × L) (envStep : E → A → E × TimeStep K O) (a b : List P) : ∀ (k : Key) (env : E) (ts : TimeStep K O),
    play act envStep (steps k (a ++ b)) env ts = play act envStep (steps k a) env ts ++
      play act envStep (steps (adv act envStep a k env ts).1 b) (adv act envStep a k env ts).2.1 (adv act envStep a k env ts).2.2 := by
  induction a with
  | nil => intro k env ts; rfl
  | cons p a ih => intro k env ts; exact congrArg (_ :: ·) (ih _ _ _)

theorem play_length (act : P → Key → TimeStep K O → A × L) (envStep : E → A → E × TimeStep K O) (a : List P) : ∀ (k : Key) (env : E) (ts : TimeStep K O), (play act envStep (steps k a) env ts).length = a.length := by
  induction a with
  | nil => intro k env ts; rfl
  | cons p a ih => intro k env ts; exact congrArg (· + 1) (ih _ _ _)

theorem rollout_eq (act : P → Key → TimeStep K O → A × L) (envStep : E → A → E × TimeStep K O) (p : P) (n : Nat) : ∀ s : Actor K O L A E,
    rollout (fun p k t => .ok (act p k t)) envStep p n s = .ok ⟨(adv act envStep (List.replicate n p) s.rngKey s.env s.state).1, (adv act envStep (List.replicate n p) s.rngKey s.env s.state).2.1,
      (adv act envStep (List.replicate n p) s.rngKey s.env s.state).2.2, s.traj ++ play act envStep (steps s.rngKey (List.replicate n p)) s.env s.state⟩ := by
  induction n with
  | zero => intro s; simp [rollout, adv, steps, play]
  | succ n ih =>
    intro s
    show rollout _ envStep p n _ = _
    rw [ih]
    simp [List.replicate_succ, adv, steps, play]

theorem runFrom_eq (act : P → Key → TimeStep K O → A × L) (envStep : E → A → E × TimeStep K O) (U : Nat) (ps : List P) : ∀ (i : Nat) (s : Actor K O L A E), s.traj.length = (if i = 0 then 0 else 1) →
    ∃ trajs, runFrom (fun p k t => .ok (act p k t)) envStep U i ps s = .ok trajs ∧ trajs.length = ps.length ∧
      ∀ k < ps.length, trajs[k]? = some (((s.traj ++ play act envStep (steps s.rngKey (if i = 0 then stepParams U ps else ps.flatMap (List.replicate U))) s.env s.state).drop (k * U)).take (U + 1)) := by
  induction ps with
  | nil => intro i s _; exact ⟨[], rfl, rfl, fun k hk => by cases hk⟩
  | cons p ps ih =>
    intro i s hs
    let n := U + if i = 0 then 1 else 0
    let x := adv act envStep (List.replicate n p) s.rngKey s.env s.state
    let T := s.traj ++ play act envStep (steps s.rngKey (List.replicate n p)) s.env s.state
    have hT : T.length = U + 1 := by
      show (s.traj ++ play act envStep (steps s.rngKey (List.replicate n p)) s.env s.state).length = _
      rw [List.length_append, play_length, List.length_replicate, hs]
      show _ + (U + _) = _
      by_cases hi : i = 0 <;> simp [hi]
      omega
    have hw : s.traj ++ play act envStep (steps s.rngKey (if i = 0 then stepParams U (p :: ps) else (p :: ps).flatMap (List.replicate U))) s.env s.state =
        T ++ play act envStep (steps x.1 (ps.flatMap (List.replicate U))) x.2.1 x.2.2 := by
      have e : (if i = 0 then stepParams U (p :: ps) else (p :: ps).flatMap (List.replicate U)) = List.replicate n p ++ ps.flatMap (List.replicate U) := by
        show _ = List.replicate (U + _) p ++ _
        by_cases hi : i = 0 <;> simp [hi, stepParams]
      rw [e, play_append, ← List.append_assoc]
    obtain ⟨trajs, h1, h2, h3⟩ := ih (i + 1) ⟨x.1, x.2.1, x.2.2, T.drop (T.length - 1)⟩ (by
      show (T.drop (T.length - 1)).length = _
      rw [List.length_drop, hT, if_neg (Nat.succ_ne_zero i)]
      omega)
    refine ⟨T :: trajs, ?_, congrArg (· + 1) h2, ?_⟩
    · show (rollout _ envStep p n s >>= fun s => runFrom _ envStep U (i + 1) ps { s with traj := s.traj.drop (s.traj.length - 1) } >>= fun later => .ok (s.traj :: later)) = _
      rw [rollout_eq]
      show (runFrom _ envStep U (i + 1) ps ⟨x.1, x.2.1, x.2.2, T.drop (T.length - 1)⟩ >>= fun later => .ok (T :: later)) = _
      rw [h1]
      rfl
    · intro k hk
      rw [hw]
      cases k with
      | zero => rw [Nat.zero_mul, List.drop_zero, List.take_left' hT]; rfl
      | succ k =>
        rw [List.getElem?_cons_succ, h3 k (Nat.lt_of_succ_lt_succ hk)]
        congr 2
        rw [if_neg (Nat.succ_ne_zero i), Nat.add_mul, Nat.one_mul, Nat.add_comm (k * U), ← List.drop_drop]
        congr 1
        show T.drop (T.length - 1) ++ _ = _
        rw [hT, Nat.add_sub_cancel]
        exact (List.drop_append_of_le_length (l₁ := T) (by omega)).symm

theorem steps_plan (i : Nat) (l : List P) : steps (.root i) l = l.mapIdx fun j p => (stepKey i j, p) := by
  have gen : ∀ (l : List P) (k : Key), steps k l = l.mapIdx fun j p => (Key.child ((fun k => Key.child k 2 0)^[j] k) 2 1, p) := by
    intro l
    induction l with
    | nil => intro k; rfl
    | cons p l ih =>
      intro k
      rw [steps, ih, List.mapIdx_cons]
      rfl
  exact gen l _

/-- C184: the trajectories of an actor are windows of one uninterrupted interaction: each has `unroll_len + 1` transitions, and the trajectory number `k` starts with the transition number `k * unroll_len`, the last of the trajectory before. -/
theorem windows (act : P → Key → TimeStep K O → A × L) (envStep : E → A → E × TimeStep K O) (U i : Nat) (ps : List P) (env : E) (ts : TimeStep K O) :
    ∃ trajs, runActor (fun p k t => .ok (act p k t)) envStep U i ps env ts = .ok trajs ∧ trajs.length = ps.length ∧
      ∀ k < ps.length, trajs[k]? = some (((play act envStep (plan U i ps) env ts).drop (k * U)).take (U + 1)) := by
  obtain ⟨trajs, h1, h2, h3⟩ := runFrom_eq act envStep U ps 0 (⟨.root i, env, ts, []⟩ : Actor K O L A E) rfl
  refine ⟨trajs, h1, h2, fun k hk => ?_⟩
  rw [h3 k hk, plan, ← steps_plan]
  rfl

/-- C184: the interaction has as many transitions as the trajectories need, so that no window is cut off. -/
theorem whole_length (act : P → Key → TimeStep K O → A × L) (envStep : E → A → E × TimeStep K O) (U i : Nat) (ps : List P) (hp : ps ≠ []) (env : E) (ts : TimeStep K O) : (play act envStep (plan U i ps) env ts).length = ps.length * U + 1 := by
  rw [plan, ← steps_plan, play_length]
  cases ps with
  | nil => exact absurd rfl hp
  | cons p ps =>
    have h : ∀ l : List P, (l.flatMap (List.replicate U)).length = l.length * U := by
      intro l
      induction l with
      | nil => simp
      | cons q l ih => rw [List.flatMap_cons, List.length_append, ih, List.length_replicate, List.length_cons, Nat.add_mul, Nat.one_mul, Nat.add_comm]
    rw [stepParams, List.length_append, List.length_replicate, h, List.length_cons, Nat.add_mul, Nat.one_mul]
    omega

end

/-- C184: no two steps of any actors have the same key. -/
theorem keys_distinct (i j i' j' : Nat) (h : stepKey i j = stepKey i' j') : i = i' ∧ j = j' := by
  have h1 : (fun k => Key.child k 2 0)^[j] (.root i) = (fun k => Key.child k 2 0)^[j'] (.root i') := by injection h
  clear h
  induction j generalizing j' with
  | zero =>
    cases j' with
    | zero => exact ⟨by injection h1 with h2; exact Int.ofNat.inj h2, rfl⟩
    | succ j' => rw [Function.iterate_succ_apply'] at h1; cases h1
  | succ j ih =>
    cases j' with
    | zero => rw [Function.iterate_succ_apply'] at h1; cases h1
    | succ j' =>
      rw [Function.iterate_succ_apply', Function.iterate_succ_apply'] at h1
      obtain ⟨e1, e2⟩ := ih j' (by injection h1)
      exact ⟨e1, congrArg (· + 1) e2⟩

/-- C184: the key of the initial parameters is no key of a step (`/repo/examples/impala_lite.py` 227). -/
theorem init_key_apart (i j : Nat) : stepKey i j ≠ .root 428 := fun h => by cases h

/-! ### Cases -/

/-- The functions of `rlax` as simple ones. -/
def demoRl : Rlax ℚ ℚ ℚ := ⟨fun l a => l + a, fun l => l, fun x y _ => x / y⟩

/-- A transition. -/
def demoT (k : StepType) (o : ℚ) : Transition ℚ ℚ ℚ ℚ := ⟨⟨k, some o, some 1, o⟩, 2 * o, o + 1⟩

-- A batch of two trajectories: the mean, times four, is the sum.
example : loss demoRl (fun p => List.map fun t => (p + t.observation, 3)) (1 : ℚ) 3 [[demoT .first 1, demoT .mid 2, demoT .last 3], [demoT .last 4, demoT .first 5, demoT .mid 6]] * (2 * 2) =
    Verif.ImpalaLoss.loss ⟨99 / 100, 0⟩ demoRl (fun p t s => ((p + t.observation, 3), s)) (1 : ℚ) ([[demoT .first 1, demoT .mid 2, demoT .last 3], [demoT .last 4, demoT .first 5, demoT .mid 6]].map fun traj => traj.map full) :=
  loss_mean demoRl (fun p t => (p + t.observation, 3)) 1 2 [[demoT .first 1, demoT .mid 2, demoT .last 3], [demoT .last 4, demoT .first 5, demoT .mid 6]] (by
    intro traj h
    simp at h
    rcases h with rfl | rfl <;> rfl)

/-- An agent that plays what it sees plus its parameter, an environment that shows its number of steps. -/
def demoAct (p : Nat) (_ : Key) (t : TimeStep ℚ ℚ) : ℚ × ℚ := (p + t.observation, p)

/-- An environment that shows the sum of the actions so far. -/
def demoEnv (e : ℚ) (a : ℚ) : ℚ × TimeStep ℚ ℚ := (e + a, ⟨.mid, none, none, e + a⟩)

example : (runActor (fun p k t => .ok (demoAct p k t)) demoEnv 2 0 [1, 2] 0 ⟨.first, none, none, 0⟩).toOption.map (·.map (·.map fun t => (t.timestep.observation, t.agentOut))) = some [[(0, 1), (1, 1), (3, 1)], [(3, 1), (7, 2), (16, 2)]] := by decide +kernel
example : stepKey 1 2 = .child (.child (.child (.root 1) 2 0) 2 0) 2 1 := rfl

end Verif.Props.ImpalaLiteAgent
