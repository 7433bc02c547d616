import Mathlib.Algebra.Order.Field.Basic
import Verif.Model.ImpalaActor

/-!
# The loss of the learner in `examples/impala`

The functions of `rlax` are not part of the repository; V-trace is modelled as `rlax.vtrace_td_error_and_advantage` computes it with its default arguments (`lambda_ = 1`, both clipping thresholds 1), the probabilities of actions, the entropy
and the importance ratios are any functions.
-/

namespace Verif.ImpalaLoss
open Verif.ImpalaActor

variable {K L A O S P : Type} [Field K] [LinearOrder K]

/-- One step as V-trace sees it: the arguments of `vtrace_td_error_and_advantage` (`/repo/examples/impala/learner.py` 125-126) at one time. -/
structure VStep (K : Type) where
  vtm1 : K
  vt : K
  reward : K
  discount : K
  rho : K
deriving DecidableEq, Repr

/-- The errors of V-trace (called in `/repo/examples/impala/learner.py` 122-126): backwards in time, the clipped temporal difference plus the discounted and clipped error of the next step. -/
def errors : List (VStep K) → List K
  | [] => []
  | x :: rest =>
    let later := errors rest
    (min 1 x.rho * (x.reward + x.discount * x.vt - x.vtm1) + x.discount * min 1 x.rho * later.headD 0) :: later

/-- The targets of V-trace: errors plus values (`/repo/examples/impala/learner.py` 122-126). -/
def targets (xs : List (VStep K)) : List K := (errors xs).zipWith (· + ·) (xs.map VStep.vtm1)

/-- The advantages of V-trace (`/repo/examples/impala/learner.py` 127): the next target, at the end the bootstrap value, stands for what follows. -/
def advantages : List (VStep K) → List K
  | [] => []
  | x :: rest => (min 1 x.rho * (x.reward + x.discount * (targets rest).headD x.vt - x.vtm1)) :: advantages rest

/-- What is used of `rlax` besides V-trace (`/repo/examples/impala/learner.py` 38-49, 118-120, 128-132): the logarithm of the probability of an action, the entropy, the importance ratio of two policies at an action. -/
structure Rlax (K L A : Type) where
  logp : L → A → K
  entropy : L → K
  ratio : L → L → A → K

/-- The settings of the learner (`/repo/examples/impala/learner.py` 61-63). -/
structure Config (K : Type) where
  discountFactor : K
  maxAbsReward : K

/-- One time of one trajectory in the loss. -/
structure Row (K L A : Type) where
  step : VStep K
  logits : L
  action : A
  mask : K
deriving DecidableEq, Repr

/-- Lines 109-111 of `/repo/examples/impala/learner.py`: rewards are clipped if `max_abs_reward` is above zero. -/
def clipReward (c : Config K) (r : K) : K := if c.maxAbsReward > 0 then min (max r (-c.maxAbsReward)) c.maxAbsReward else r

/-- The arrays of `Learner._loss` for one trajectory (`/repo/examples/impala/learner.py` 97-126): outputs of the learner's network without the last, values without the first, what the actor put out without the last, time steps without the first.
The reward and discount of a time step are there, as it went through `preprocess_step`.  Simplification: the network treats the trajectories of a batch one by one, so that here is only one. -/
def rows (c : Config K) (r : Rlax K L A) (cell : P → TimeStep K O → S → (L × K) × S) (theta : P) (traj : List (Transition K O ((L × K) × A) S)) : List (Row K L A) :=
  match traj.head? with
  | none => []
  | some t0 =>
    let outputs := (netUnroll cell theta (traj.map Transition.timestep) t0.agentState).1
    let vt := (outputs.map Prod.snd).tail
    let actorOut := (traj.map Transition.agentOut).dropLast
    let outputs := outputs.dropLast
    let timestep := (traj.map Transition.timestep).tail
    ((outputs.zip actorOut).zip (vt.zip timestep)).map fun x =>
      { step :=
          { vtm1 := x.1.1.2
            vt := x.2.1
            reward := clipReward c (x.2.2.reward.getD 0)
            discount := x.2.2.discount.getD 0 * c.discountFactor
            rho := r.ratio x.1.1.1 x.1.2.1.1 x.1.2.2 }
        logits := x.1.1.1
        action := x.1.2.2
        mask := if x.2.2.stepType ≠ .first then 1 else 0 }

/-- `jnp.mean` over time (`/repo/examples/impala/learner.py` 40, 47, within the functions of `rlax`). -/
def mean (l : List K) : K := l.sum / (l.length : K)

/-- `policy_gradient_loss` (`/repo/examples/impala/learner.py` 38-42): the mean over the times of each trajectory, times the number of times, summed. -/
def policyGradientLoss (r : Rlax K L A) (batch : List (List (Row K L A))) : K :=
  (batch.map fun rows => mean ((rows.zip (advantages (rows.map Row.step))).map fun x => -r.logp x.1.logits x.1.action * x.2 * x.1.mask) * (rows.length : K)).sum

/-- `entropy_loss` (`/repo/examples/impala/learner.py` 45-49). -/
def entropyLoss (r : Rlax K L A) (batch : List (List (Row K L A))) : K :=
  (batch.map fun rows => -mean (rows.map fun x => r.entropy x.logits * x.mask) * (rows.length : K)).sum

/-- `baseline_loss` (`/repo/examples/impala/learner.py` 131). -/
def baselineLoss (batch : List (List (Row K L A))) : K :=
  1 / 2 * (batch.map fun rows => ((rows.zip (errors (rows.map Row.step))).map fun x => x.2 ^ 2 * x.1.mask).sum).sum

/-- `Learner._loss` (`/repo/examples/impala/learner.py` 91-143) without the logs. -/
def loss (c : Config K) (r : Rlax K L A) (cell : P → TimeStep K O → S → (L × K) × S) (theta : P) (batch : List (List (Transition K O ((L × K) × A) S))) : K :=
  let batch := batch.map (rows c r cell theta)
  policyGradientLoss r batch + 1 / 2 * baselineLoss batch + 1 / 100 * entropyLoss r batch

end Verif.ImpalaLoss
