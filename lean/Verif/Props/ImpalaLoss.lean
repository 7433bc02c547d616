import Mathlib.Algebra.Order.Ring.Rat
import Mathlib.Algebra.Order.Field.Rat
import Mathlib.Algebra.CharZero.Defs
import Mathlib.Algebra.BigOperators.Group.List.Basic
import Mathlib.Tactic.Ring
import Mathlib.Tactic.NormNum
import Mathlib.Tactic.Linarith
import Mathlib.Algebra.BigOperators.Ring.List
import Mathlib.Tactic.FieldSimp
import Verif.Model.ImpalaLoss
import Verif.Props.ImpalaActor

/-!
# The loss of the IMPALA learner: a sum over the steps within episodes (C154), with V-trace targets (C155), one episode apart from the next (C156)
-/

set_option linter.unusedVariables false
set_option linter.unusedSectionVars false

namespace Verif.Props.ImpalaLoss
open Verif Verif.ImpalaActor Verif.ImpalaLoss

variable {K L A O S P : Type} [Field K] [LinearOrder K]

/-! ### Specification -/

/-- The loss of one step with error `e` and advantage `a`. -/
def stepLoss (r : Rlax K L A) (x : Row K L A) (e a : K) : K := x.mask * (-r.logp x.logits x.action * a + 1 / 4 * e ^ 2 - 1 / 100 * r.entropy x.logits)

/-- The loss of the steps of a trajectory. -/
def rowsLoss (r : Rlax K L A) : List (Row K L A) → K
  | [] => 0
  | x :: rest => stepLoss r x ((errors (x.step :: rest.map Row.step)).headD 0) ((advantages (x.step :: rest.map Row.step)).headD 0) + rowsLoss r rest

/-- The discounted sum of rewards, with `b` for what comes after them. -/
def ret : List (K × K) → K → K
  | [], b => b
  | (r, d) :: rest, b => r + d * ret rest b

/-- The value that V-trace starts from. -/
def bootstrap : List (VStep K) → K
  | [] => 0
  | [x] => x.vt
  | _ :: y :: rest => bootstrap (y :: rest)

/-- The values of neighbouring steps fit together. -/
def Fits : List (VStep K) → Prop
  | x :: y :: rest => x.vt = y.vtm1 ∧ Fits (y :: rest)
  | _ => True

/-- From the first step of an episode on, the outputs of the network do not depend on the state before: all networks of the example are such (C182). -/
def Resets {N : Type} (cell : P → TimeStep K O → S → N × S) : Prop := ∀ p t ts s s', t.stepType = .first → (netUnroll cell p (t :: ts) s).1 = (netUnroll cell p (t :: ts) s').1

/-! ### Lemmas -/

/-- Something for each two neighbours. -/
def consec {α β : Type} (f : α → α → β) : List α → List β
  | x :: y :: rest => f x y :: consec f (y :: rest)
  | _ => []

theorem consec_append {α β : Type} (f : α → α → β) (xs : List α) (l h : α) (ys : List α) : consec f (xs ++ l :: h :: ys) = consec f (xs ++ [l]) ++ f l h :: consec f (h :: ys) := by
  induction xs with
  | nil => rfl
  | cons x xs ih =>
    cases xs with
    | nil => rfl
    | cons y xs => exact congrArg (f x y :: ·) ih

/-- The row of two neighbouring transitions with the outputs of the learner. -/
def mkRow (c : Config K) (r : Rlax K L A) (x y : Transition K O ((L × K) × A) S × (L × K)) : Row K L A :=
  ⟨⟨x.2.2, y.2.2, clipReward c (y.1.timestep.reward.getD 0), y.1.timestep.discount.getD 0 * c.discountFactor, r.ratio x.2.1 x.1.agentOut.1.1 x.1.agentOut.2⟩, x.2.1, x.1.agentOut.2, if y.1.timestep.stepType ≠ .first then 1 else 0⟩

theorem zips_eq (c : Config K) (r : Rlax K L A) : ∀ (ts : List (Transition K O ((L × K) × A) S)) (outs : List (L × K)), outs.length = ts.length →
    ((outs.dropLast.zip (ts.map Transition.agentOut).dropLast).zip ((outs.map Prod.snd).tail.zip (ts.map Transition.timestep).tail)).map (fun x =>
      ({ step := { vtm1 := x.1.1.2, vt := x.2.1, reward := clipReward c (x.2.2.reward.getD 0), discount := x.2.2.discount.getD 0 * c.discountFactor, rho := r.ratio x.1.1.1 x.1.2.1.1 x.1.2.2 }
         logits := x.1.1.1, action := x.1.2.2, mask := if x.2.2.stepType ≠ .first then 1 else 0 } : Row K L A)) = consec (mkRow c r) (ts.zip outs)
  | [], _, _ => by simp [consec]
  | [t], [o], _ => rfl
  | [t], [], h => by cases h
  | [t], _ :: _ :: _, h => by simp at h
  | t :: u :: ts, [], h => by cases h
  | t :: u :: ts, [_], h => by simp at h
  | t :: u :: ts, o :: q :: outs, h => congrArg (mkRow c r (t, o) (u, q) :: ·) (zips_eq c r (u :: ts) (q :: outs) (by simpa using h))

theorem netUnroll_length {N : Type} (cell : P → TimeStep K O → S → N × S) (p : P) (ts : List (TimeStep K O)) : ∀ s, (netUnroll cell p ts s).1.length = ts.length := by
  induction ts with
  | nil => intro s; rfl
  | cons t ts ih => intro s; exact congrArg (· + 1) (ih _)

theorem netUnroll_append {N : Type} (cell : P → TimeStep K O → S → N × S) (p : P) (a b : List (TimeStep K O)) : ∀ s, (netUnroll cell p (a ++ b) s).1 = (netUnroll cell p a s).1 ++ (netUnroll cell p b (netUnroll cell p a s).2).1 := by
  induction a with
  | nil => intro s; rfl
  | cons t a ih => intro s; exact congrArg (_ :: ·) (ih _)

theorem rows_eq (c : Config K) (r : Rlax K L A) (cell : P → TimeStep K O → S → (L × K) × S) (theta : P) (t0 : Transition K O ((L × K) × A) S) (traj : List (Transition K O ((L × K) × A) S)) :
    rows c r cell theta (t0 :: traj) = consec (mkRow c r) ((t0 :: traj).zip (netUnroll cell theta ((t0 :: traj).map Transition.timestep) t0.agentState).1) :=
  zips_eq c r (t0 :: traj) _ (by rw [netUnroll_length, List.length_map])

theorem errors_length (xs : List (VStep K)) : (errors xs).length = xs.length := by
  induction xs with
  | nil => rfl
  | cons x xs ih => exact congrArg (· + 1) ih

theorem advantages_length (xs : List (VStep K)) : (advantages xs).length = xs.length := by
  induction xs with
  | nil => rfl
  | cons x xs ih => exact congrArg (· + 1) ih

theorem targets_cons (x : VStep K) (xs : List (VStep K)) : targets (x :: xs) = ((errors (x :: xs)).headD 0 + x.vtm1) :: targets xs := rfl

theorem rowsLoss_eq (r : Rlax K L A) (rows : List (Row K L A)) :
    rowsLoss r rows = ((rows.zip (advantages (rows.map Row.step))).map fun x => -r.logp x.1.logits x.1.action * x.2 * x.1.mask).sum + 1 / 4 * ((rows.zip (errors (rows.map Row.step))).map fun x => x.2 ^ 2 * x.1.mask).sum -
      1 / 100 * (rows.map fun x => r.entropy x.logits * x.mask).sum := by
  induction rows with
  | nil => simp [rowsLoss]
  | cons x rows ih =>
    rw [rowsLoss, ih, stepLoss]
    simp only [List.map_cons, errors, advantages, List.zip_cons_cons, List.sum_cons, List.headD_cons]
    ring

/-! ### Theorems -/

/-- C154: the loss is a sum over all trajectories and all times, not a mean: each time at which the next step does not begin an episode adds the negative logarithm of the probability of its action times its advantage, a quarter of the square of
its error, and minus a hundredth of its entropy. -/
theorem loss_sums [CharZero K] (c : Config K) (r : Rlax K L A) (cell : P → TimeStep K O → S → (L × K) × S) (theta : P) (batch : List (List (Transition K O ((L × K) × A) S))) :
    loss c r cell theta batch = (batch.map fun traj => rowsLoss r (rows c r cell theta traj)).sum := by
  have hm : ∀ l : List K, mean l * (l.length : K) = l.sum := by
    intro l
    cases l with
    | nil => simp [mean]
    | cons x l =>
      rw [mean, div_mul_cancel₀]
      rw [List.length_cons]
      exact Nat.cast_ne_zero.mpr (Nat.succ_ne_zero _)
  unfold loss
  dsimp only
  generalize hb : batch.map (rows c r cell theta) = bs
  rw [show (batch.map fun traj => rowsLoss r (rows c r cell theta traj)) = bs.map (rowsLoss r) by rw [← hb, List.map_map]; rfl]
  clear hb
  unfold policyGradientLoss baselineLoss entropyLoss
  induction bs with
  | nil => simp
  | cons rs bs ih =>
    simp only [List.map_cons, List.sum_cons] at ih ⊢
    rw [← ih, rowsLoss_eq]
    have h1 := hm ((rs.zip (advantages (rs.map Row.step))).map fun x => -r.logp x.1.logits x.1.action * x.2 * x.1.mask)
    have h2 := hm (rs.map fun x => r.entropy x.logits * x.mask)
    rw [List.length_map, List.length_zip, advantages_length, List.length_map, Nat.min_self] at h1
    rw [List.length_map] at h2
    rw [h1, neg_mul, h2]
    ring

/-- C154: what the row of a time is made of: value, logits of the learner and action of the actor at this time; value, reward, discount and step type of the next time. -/
theorem row_at (c : Config K) (r : Rlax K L A) (cell : P → TimeStep K O → S → (L × K) × S) (theta : P) (traj : List (Transition K O ((L × K) × A) S)) (t0 x y : Transition K O ((L × K) × A) S) (o q : L × K) (i : Nat)
    (h0 : traj.head? = some t0) (hx : traj[i]? = some x) (hy : traj[i + 1]? = some y) (ho : (netUnroll cell theta (traj.map Transition.timestep) t0.agentState).1[i]? = some o)
    (hq : (netUnroll cell theta (traj.map Transition.timestep) t0.agentState).1[i + 1]? = some q) :
    (rows c r cell theta traj)[i]? = some ⟨⟨o.2, q.2, clipReward c (y.timestep.reward.getD 0), y.timestep.discount.getD 0 * c.discountFactor, r.ratio o.1 x.agentOut.1.1 x.agentOut.2⟩, o.1, x.agentOut.2,
      if y.timestep.stepType = .first then 0 else 1⟩ := by
  have gen : ∀ (i : Nat) (l : List (Transition K O ((L × K) × A) S × (L × K))) u v, l[i]? = some u → l[i + 1]? = some v → (consec (mkRow c r) l)[i]? = some (mkRow c r u v) := by
    intro i
    induction i with
    | zero =>
      intro l u v hu hv
      match l with
      | [] => cases hu
      | [_] => cases hv
      | a :: b :: l =>
        cases hu
        cases hv
        rfl
    | succ i ih =>
      intro l u v hu hv
      match l with
      | [] => cases hu
      | [_] => simp at hu
      | a :: b :: l => exact ih (b :: l) u v hu hv
  cases traj with
  | nil => cases h0
  | cons t traj =>
    cases h0
    rw [rows_eq, gen i _ (x, o) (y, q) (List.getElem?_zip_eq_some.mpr ⟨hx, ho⟩) (List.getElem?_zip_eq_some.mpr ⟨hy, hq⟩)]
    simp only [mkRow, ne_eq, ite_not]

/-- C154: rewards are clipped to the interval of `max_abs_reward` around 0 if it is above 0; otherwise they stay as they are. -/
theorem clip_reward [IsStrictOrderedRing K] (c : Config K) (r : K) : (c.maxAbsReward ≤ 0 → clipReward c r = r) ∧
    (0 < c.maxAbsReward → |clipReward c r| ≤ c.maxAbsReward ∧ (|r| ≤ c.maxAbsReward → clipReward c r = r) ∧ (c.maxAbsReward < r → clipReward c r = c.maxAbsReward) ∧ (r < -c.maxAbsReward → clipReward c r = -c.maxAbsReward)) := by
  refine ⟨fun h => if_neg (not_lt.mpr h), fun h => ?_⟩
  have e : clipReward c r = min (max r (-c.maxAbsReward)) c.maxAbsReward := if_pos h
  rw [e]
  refine ⟨abs_le.mpr ⟨le_min (le_max_right _ _) (by linarith), min_le_right _ _⟩, fun hr => ?_, fun hr => ?_, fun hr => ?_⟩
  · obtain ⟨h1, h2⟩ := abs_le.mp hr
    rw [max_eq_left h1, min_eq_left h2]
  · exact min_eq_right (le_trans hr.le (le_max_left _ _))
  · rw [max_eq_right hr.le, min_eq_left (by linarith)]

/-- C154: there is a row for each time but the last. -/
theorem rows_length (c : Config K) (r : Rlax K L A) (cell : P → TimeStep K O → S → (L × K) × S) (theta : P) (traj : List (Transition K O ((L × K) × A) S)) : (rows c r cell theta traj).length = traj.length - 1 := by
  have gen : ∀ l : List (Transition K O ((L × K) × A) S × (L × K)), (consec (mkRow c r) l).length = l.length - 1 := by
    intro l
    induction l with
    | nil => rfl
    | cons a l ih =>
      cases l with
      | nil => rfl
      | cons b l =>
        show (consec (mkRow c r) (b :: l)).length + 1 = _
        rw [ih]
        simp
  cases traj with
  | nil => rfl
  | cons t traj =>
    rw [rows_eq, gen, List.length_zip, netUnroll_length, List.length_map, Nat.min_self]

/-- C154: the loss does not depend on what the actor put out at the last time of a trajectory, nor on the agent states but the first. -/
theorem loss_reads (c : Config K) (r : Rlax K L A) (cell : P → TimeStep K O → S → (L × K) × S) (theta : P) (t0 t0' : Transition K O ((L × K) × A) S) (traj traj' : List (Transition K O ((L × K) × A) S))
    (h0 : t0.agentState = t0'.agentState) (h1 : (t0 :: traj).map Transition.timestep = (t0' :: traj').map Transition.timestep) (h2 : ((t0 :: traj).map Transition.agentOut).dropLast = ((t0' :: traj').map Transition.agentOut).dropLast) :
    rows c r cell theta (t0 :: traj) = rows c r cell theta (t0' :: traj') := by
  show (((netUnroll cell theta ((t0 :: traj).map Transition.timestep) t0.agentState).1.dropLast.zip ((t0 :: traj).map Transition.agentOut).dropLast).zip _).map _ = _
  rw [h0, h1, h2]
  rfl

/-- C155: the rows of a trajectory meet the first hypothesis of `on_policy`. -/
theorem fits_rows (c : Config K) (r : Rlax K L A) (cell : P → TimeStep K O → S → (L × K) × S) (theta : P) (traj : List (Transition K O ((L × K) × A) S)) : Fits ((rows c r cell theta traj).map Row.step) := by
  have gen : ∀ l : List (Transition K O ((L × K) × A) S × (L × K)), Fits ((consec (mkRow c r) l).map Row.step) := by
    intro l
    match l with
    | [] => trivial
    | [_] => trivial
    | a :: b :: l =>
      induction l generalizing a b with
      | nil => trivial
      | cons d l ih => exact ⟨rfl, ih b d⟩
  cases traj with
  | nil => trivial
  | cons t traj => rw [rows_eq]; exact gen _

/-- The weight of the temporal difference at `k` in the error at the start. -/
def weight (xs : List (VStep K)) (k : Nat) : K := ((xs.take k).map fun x => x.discount * min 1 x.rho).prod

/-- C155: on or off policy, the error of a time is the sum of the temporal differences from it on, each times its own ratio, and times the discounts and ratios of the times before it, all ratios clipped at 1. -/
theorem vtrace_sum (xs : List (VStep K)) : (errors xs).headD 0 = (xs.mapIdx fun k x => weight xs k * (min 1 x.rho * (x.reward + x.discount * x.vt - x.vtm1))).sum := by
  induction xs with
  | nil => rfl
  | cons x xs ih =>
    show min 1 x.rho * (x.reward + x.discount * x.vt - x.vtm1) + x.discount * min 1 x.rho * (errors xs).headD 0 = _
    rw [ih, List.mapIdx_cons, List.sum_cons]
    congr 1
    · simp [weight]
    · have hm : ∀ (a : K) (l : List K), a * l.sum = (l.map fun y => a * y).sum := fun a l => by rw [List.sum_map_mul_left, List.map_id']
      rw [hm]
      congr 1
      apply List.ext_getElem?
      intro i
      simp only [List.getElem?_map, List.getElem?_mapIdx]
      cases xs[i]? with
      | none => rfl
      | some y => simp [weight, mul_assoc]

/-- C155: where the ratios are at least 1, the targets of V-trace are the discounted sums of the rewards that follow, with the value of the last step for what comes after the trajectory; the advantages are targets minus values. -/
theorem on_policy (xs : List (VStep K)) : Fits xs → (∀ x ∈ xs, 1 ≤ x.rho) → ∀ x rest, xs = x :: rest →
    (targets xs).head? = some (ret (xs.map fun x => (x.reward, x.discount)) (bootstrap xs)) ∧ (advantages xs).head? = some (ret (xs.map fun x => (x.reward, x.discount)) (bootstrap xs) - x.vtm1) := by
  induction xs with
  | nil => intro _ _ x rest h; cases h
  | cons x xs ih =>
    intro hf hr y rest e
    cases e
    have h1 : min 1 x.rho = 1 := min_eq_left (hr x List.mem_cons_self)
    cases xs with
    | nil =>
      rw [targets_cons]
      simp only [errors, advantages, h1, List.map_cons, List.map_nil, ret, bootstrap, List.headD_nil, List.headD_cons, List.head?_cons, targets, List.zipWith_nil_left]
      exact ⟨by ring_nf, by ring_nf⟩
    | cons z zs =>
      obtain ⟨i1, i2⟩ := ih hf.2 (fun w hw => hr w (List.mem_cons_of_mem _ hw)) z zs rfl
      rw [targets_cons] at i1
      rw [List.head?_cons, Option.some.injEq] at i1
      have hv : x.vt = z.vtm1 := hf.1
      refine ⟨?_, ?_⟩
      · rw [targets_cons, List.head?_cons]
        show some (min 1 x.rho * (x.reward + x.discount * x.vt - x.vtm1) + x.discount * min 1 x.rho * (errors (z :: zs)).headD 0 + x.vtm1) = some (x.reward + x.discount * ret _ (bootstrap (z :: zs)))
        rw [h1, ← i1, hv]
        congr 1
        ring
      · show some (min 1 x.rho * (x.reward + x.discount * (targets (z :: zs)).headD x.vt - x.vtm1)) = some (x.reward + x.discount * ret _ (bootstrap (z :: zs)) - x.vtm1)
        rw [h1, ← i1, targets_cons, List.headD_cons, one_mul]

/-- C155: if the learner has the parameters that the actor had during the trajectory, all ratios are those of a policy with itself. -/
theorem on_policy_ratios (c : Config K) (r : Rlax K L A) (cell : P → TimeStep K O → S → (L × K) × S) (hr : ∀ l a, r.ratio l l a = 1) (sample : Key → L × K → A) {E : Type} (envStep : E → A → E × TimeStep K O) (U : Nat) (keys : List Key)
    (theta : P) (env : E) (ts : TimeStep K O) (st : S) :
    ∀ x ∈ rows c r cell theta (ImpalaActor.play ⟨agentStep cell sample, Prod.snd, envStep, U⟩ (keys.map fun k => (k, theta)) (env, ts, st)), x.step.rho = 1 := by
  have hrep := ImpalaActor.learner_repeats cell sample envStep U keys theta env ts st
  generalize ht : ImpalaActor.play ⟨agentStep cell sample, Prod.snd, envStep, U⟩ (keys.map fun k => (k, theta)) (env, ts, st) = traj at hrep
  dsimp only at hrep
  have hst : ∀ t0, traj.head? = some t0 → t0.agentState = st := by
    intro t0 h0
    rw [← ht] at h0
    cases keys with
    | nil => cases h0
    | cons k keys => cases h0; rfl
  cases traj with
  | nil => intro x hx; cases hx
  | cons t0 traj =>
    have h0 := hst t0 rfl
    intro x hx
    rw [rows_eq, h0, hrep] at hx
    have gen : ∀ l : List (Transition K O ((L × K) × A) S), ∀ x ∈ consec (mkRow c r) (l.zip (l.map fun t => t.agentOut.1)), x.step.rho = 1 := by
      intro l
      match l with
      | [] => intro x hx; cases hx
      | [_] => intro x hx; cases hx
      | a :: b :: l =>
        induction l generalizing a b with
        | nil =>
          intro x hx
          rcases List.mem_cons.mp hx with rfl | hx
          · exact hr _ _
          · cases hx
        | cons d l ih =>
          intro x hx
          rcases List.mem_cons.mp hx with rfl | hx
          · exact hr _ _
          · exact ih b d x hx
    exact gen _ x hx

theorem errors_cut (xs ys : List (VStep K)) (x : VStep K) (h : x.discount = 0) : errors (xs ++ x :: ys) = errors (xs ++ [x]) ++ errors ys := by
  induction xs with
  | nil => simp [errors, h]
  | cons z xs ih =>
    have hh : (errors (xs ++ [x]) ++ errors ys).headD 0 = (errors (xs ++ [x])).headD 0 := by
      cases e : errors (xs ++ [x]) with
      | nil =>
        have := errors_length (xs ++ [x])
        rw [e] at this
        simp at this
      | cons => rfl
    show _ :: errors (xs ++ x :: ys) = _ :: (errors (xs ++ [x]) ++ errors ys)
    rw [ih]
    congr 2
    show _ * (errors (xs ++ x :: ys)).headD 0 = _ * (errors (xs ++ [x])).headD 0
    rw [ih, hh]

theorem targets_head_cut (xs ys : List (VStep K)) (x : VStep K) (h : x.discount = 0) (b : K) : (targets (xs ++ x :: ys)).headD b = (targets (xs ++ [x])).headD b := by
  cases xs with
  | nil =>
    show (errors ([] ++ x :: ys)).headD 0 + x.vtm1 = (errors ([] ++ [x])).headD 0 + x.vtm1
    rw [errors_cut [] ys x h]
    rfl
  | cons z xs =>
    show (errors ((z :: xs) ++ x :: ys)).headD 0 + z.vtm1 = (errors ((z :: xs) ++ [x])).headD 0 + z.vtm1
    rw [errors_cut (z :: xs) ys x h]
    rfl

theorem rowsLoss_cut (r : Rlax K L A) (xs ys : List (Row K L A)) (x m : Row K L A) (h : x.step.discount = 0) (hm : m.mask = 0) : rowsLoss r (xs ++ x :: m :: ys) = rowsLoss r (xs ++ [x]) + rowsLoss r ys := by
  induction xs with
  | nil => simp [rowsLoss, stepLoss, hm, errors, advantages, h]
  | cons z xs ih =>
    show stepLoss r z ((errors (z.step :: (xs ++ x :: m :: ys).map Row.step)).headD 0) ((advantages (z.step :: (xs ++ x :: m :: ys).map Row.step)).headD 0) + rowsLoss r (xs ++ x :: m :: ys) =
      stepLoss r z ((errors (z.step :: (xs ++ [x]).map Row.step)).headD 0) ((advantages (z.step :: (xs ++ [x]).map Row.step)).headD 0) + rowsLoss r (xs ++ [x]) + rowsLoss r ys
    rw [ih, add_assoc]
    have e1 : (errors (z.step :: (xs ++ x :: m :: ys).map Row.step)).headD 0 = (errors (z.step :: (xs ++ [x]).map Row.step)).headD 0 := by
      have := errors_cut (z.step :: xs.map Row.step) ((m :: ys).map Row.step) x.step h
      simp only [List.map_append, List.map_cons, List.cons_append, List.map_nil] at this ⊢
      rw [this]
      rfl
    have e2 : (advantages (z.step :: (xs ++ x :: m :: ys).map Row.step)).headD 0 = (advantages (z.step :: (xs ++ [x]).map Row.step)).headD 0 := by
      have := targets_head_cut (xs.map Row.step) ((m :: ys).map Row.step) x.step h z.step.vt
      simp only [List.map_append, List.map_cons, List.map_nil, advantages, List.headD_cons] at this ⊢
      rw [this]
    rw [e1, e2]

/-- C156, in part: if an episode ends within a trajectory with discount 0, the loss of the trajectory is that of the part up to its end plus that of the part from the first step of the next episode.  What is missing: ends with another discount, see
`truncation_leaks`. -/
theorem episodes_apart_partial (c : Config K) (r : Rlax K L A) (cell : P → TimeStep K O → S → (L × K) × S) (hc : Resets cell) (theta : P) (t0 : Transition K O ((L × K) × A) S) (a b : List (Transition K O ((L × K) × A) S))
    (l f : Transition K O ((L × K) × A) S) (hl : l.timestep.discount = some 0) (hf : f.timestep.stepType = .first) :
    rowsLoss r (rows c r cell theta (t0 :: a ++ l :: f :: b)) = rowsLoss r (rows c r cell theta (t0 :: a ++ [l])) + rowsLoss r (rows c r cell theta (f :: b)) := by
  rw [List.cons_append, List.cons_append, rows_eq, rows_eq, rows_eq]
  rw [show t0 :: (a ++ l :: f :: b) = (t0 :: (a ++ [l])) ++ f :: b by simp]
  rw [List.map_append, netUnroll_append]
  have hreset : ∀ s, (netUnroll cell theta ((f :: b).map Transition.timestep) s).1 = (netUnroll cell theta ((f :: b).map Transition.timestep) f.agentState).1 := by
    intro s
    exact hc theta f.timestep (b.map Transition.timestep) s f.agentState hf
  rw [hreset]
  generalize ho : (netUnroll cell theta ((t0 :: (a ++ [l])).map Transition.timestep) t0.agentState).1 = o1
  generalize hp : (netUnroll cell theta ((f :: b).map Transition.timestep) f.agentState).1 = o2
  have hlen1 : o1.length = (t0 :: (a ++ [l])).length := by rw [← ho, netUnroll_length, List.length_map]
  have hlen2 : o2.length = (f :: b).length := by rw [← hp, netUnroll_length, List.length_map]
  rw [List.zip_append (by rw [hlen1])]
  -- the last of the first part and the first of the second
  obtain ⟨o1', u, rfl⟩ : ∃ o1' u, o1 = o1' ++ [u] := by
    rcases List.eq_nil_or_concat o1 with e | ⟨o1', u, e⟩
    · rw [e] at hlen1; simp at hlen1
    · exact ⟨o1', u, by rw [e, List.concat_eq_append]⟩
  obtain ⟨v, o2', rfl⟩ : ∃ v o2', o2 = v :: o2' := by
    cases o2 with
    | nil => simp at hlen2
    | cons v o2' => exact ⟨v, o2', rfl⟩
  have hz : (t0 :: (a ++ [l])).zip (o1' ++ [u]) = (t0 :: a).zip o1' ++ [(l, u)] := by
    rw [← List.cons_append, List.zip_append (by simp at hlen1 ⊢; omega)]
    rfl
  rw [hz, List.zip_cons_cons, List.append_assoc, List.singleton_append]
  -- the first part has at least two elements
  have hne : (t0 :: a).zip o1' ≠ [] := by
    intro e
    have := congrArg List.length e
    rw [List.length_zip] at this
    simp only [List.length_cons, List.length_append, List.length_nil] at this hlen1
    omega
  obtain ⟨w, z, hw⟩ : ∃ w z, (t0 :: a).zip o1' = w ++ [z] := by
    rcases List.eq_nil_or_concat ((t0 :: a).zip o1') with e | ⟨w, z, e⟩
    · exact absurd e hne
    · exact ⟨w, z, by rw [e, List.concat_eq_append]⟩
  rw [hw, List.append_assoc, List.append_assoc, List.singleton_append, List.singleton_append]
  rw [show w ++ z :: (l, u) :: (f, v) :: b.zip o2' = (w ++ [z]) ++ (l, u) :: (f, v) :: b.zip o2' by simp]
  rw [consec_append, show (w ++ [z]) ++ [(l, u)] = w ++ z :: (l, u) :: [] by simp, consec_append]
  have := rowsLoss_cut r (consec (mkRow c r) (w ++ [z])) (consec (mkRow c r) ((f, v) :: b.zip o2')) (mkRow c r z (l, u)) (mkRow c r (l, u) (f, v)) (by simp [mkRow, hl]) (by simp [mkRow, hf])
  show rowsLoss r ((consec (mkRow c r) (w ++ [z]) ++ [mkRow c r z (l, u)]) ++ mkRow c r (l, u) (f, v) :: consec (mkRow c r) ((f, v) :: b.zip o2')) = rowsLoss r (consec (mkRow c r) (w ++ [z]) ++ [mkRow c r z (l, u)]) + _
  rw [List.append_assoc, List.singleton_append, this]

/-! ### Examples -/

/-- A network whose value is the observation. -/
def demoCell : Unit → TimeStep ℚ ℚ → Unit → (Unit × ℚ) × Unit := fun _ t _ => (((), t.observation), ())

def demoRl : Rlax ℚ Unit Unit := ⟨fun _ _ => -1, fun _ => 0, fun _ _ _ => 1⟩

/-- A step of a trajectory. -/
def demoT (s : StepType) (r d o : ℚ) : Transition ℚ ℚ ((Unit × ℚ) × Unit) Unit := ⟨⟨s, some r, some d, o⟩, (((), 0), ()), ()⟩

/-- C156: if an episode ends with a discount above 0, as `dm_env.truncation` makes it, the loss at its last step depends on the value of the first step of the next episode, and the loss is not the sum of the losses of the parts. -/
theorem truncation_leaks : ∃ (l f f' : Transition ℚ ℚ ((Unit × ℚ) × Unit) Unit), l.timestep.stepType = .last ∧ f.timestep.stepType = .first ∧ f'.timestep.stepType = .first ∧
    rowsLoss demoRl (rows ⟨1, 0⟩ demoRl demoCell () [demoT .mid 0 1 0, l, f]) ≠ rowsLoss demoRl (rows ⟨1, 0⟩ demoRl demoCell () [demoT .mid 0 1 0, l, f']) ∧
    rowsLoss demoRl (rows ⟨1, 0⟩ demoRl demoCell () [demoT .mid 0 1 0, l, f]) ≠ rowsLoss demoRl (rows ⟨1, 0⟩ demoRl demoCell () [demoT .mid 0 1 0, l]) + rowsLoss demoRl (rows ⟨1, 0⟩ demoRl demoCell () [f]) :=
  ⟨demoT .last 1 1 2, demoT .first 0 1 5, demoT .first 0 1 7, rfl, rfl, rfl, by decide +kernel, by decide +kernel⟩

theorem demo_resets : Resets demoCell := fun _ _ _ _ _ _ => rfl

-- With discount 0 the parts are apart.
example : rowsLoss demoRl (rows ⟨1, 0⟩ demoRl demoCell () [demoT .first 0 1 3, demoT .mid 2 1 0, demoT .last 1 0 2, demoT .first 0 1 5, demoT .mid 1 1 4]) =
    rowsLoss demoRl (rows ⟨1, 0⟩ demoRl demoCell () [demoT .first 0 1 3, demoT .mid 2 1 0, demoT .last 1 0 2]) + rowsLoss demoRl (rows ⟨1, 0⟩ demoRl demoCell () [demoT .first 0 1 5, demoT .mid 1 1 4]) :=
  episodes_apart_partial ⟨1, 0⟩ demoRl demoCell demo_resets () (demoT .first 0 1 3) [demoT .mid 2 1 0] [demoT .mid 1 1 4] (demoT .last 1 0 2) (demoT .first 0 1 5) rfl rfl
example : rowsLoss demoRl (rows ⟨1, 0⟩ demoRl demoCell () [demoT .first 0 1 3, demoT .mid 2 1 0, demoT .last 1 0 2]) = 5 / 4 := by decide +kernel

-- The loss of a batch is a sum: twice the trajectory, twice the loss.
example : loss ⟨1, 0⟩ demoRl demoCell () [[demoT .first 0 1 3, demoT .mid 2 1 0, demoT .last 1 0 2], [demoT .first 0 1 3, demoT .mid 2 1 0, demoT .last 1 0 2]] = 5 / 2 := by decide +kernel

-- Rewards are clipped to [-1, 1].
example : clipReward ⟨1, 1⟩ (5 : ℚ) = 1 := ((clip_reward ⟨1, 1⟩ 5).2 (by decide +kernel)).2.2.1 (by decide +kernel)

-- V-trace off policy.
example : (errors [⟨3, 0, 2, 1, 1/2⟩, ⟨0, 7, 1, 1/2, 3⟩] : List ℚ).headD 0 = 1/2 * (2 + 1 * 0 - 3) + 1 * (1/2) * (1 + 1/2 * 7 - 0) := by decide +kernel

-- V-trace on policy.
example : (targets [⟨3, 0, 2, 1, 1⟩, ⟨0, 7, 1, 1/2, 1⟩] : List ℚ).head? = some (2 + 1 * (1 + 1 / 2 * 7)) := (on_policy [⟨3, 0, 2, 1, 1⟩, ⟨0, 7, 1, 1/2, 1⟩] ⟨rfl, trivial⟩ (by decide +kernel) _ _ rfl).1

end Verif.Props.ImpalaLoss
