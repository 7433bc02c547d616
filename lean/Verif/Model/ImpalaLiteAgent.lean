import Verif.Model.ImpalaLoss
import Verif.Model.ImpalaNets

/-!
# The agent, the loss and the actor of `examples/impala_lite.py`

The functions of `rlax` are those of `Verif.Model.ImpalaLoss`, time steps those of `Verif.Model.ImpalaActor`; the layers of `SimpleNet` are any function of one time step.
-/

namespace Verif.ImpalaLiteAgent
open Verif.Shapes (Err)
open Verif.ImpalaActor (TimeStep StepType)
open Verif.ImpalaLoss (Rlax Row VStep errors advantages mean)
open Verif.ImpalaNets (batchApply squeeze1 stackTime)

variable {K O L A P E : Type}

/-- `preprocess_step` (`/repo/examples/impala_lite.py` 146-153). -/
def preprocess [Zero K] [One K] (ts : TimeStep K O) : TimeStep K O :=
  let ts := if ts.reward.isNone then { ts with reward := some 0 } else ts
  if ts.discount.isNone then { ts with discount := some 1 } else ts

/-- `Transition` (`/repo/examples/impala_lite.py` 42-45). -/
structure Transition (K O L A : Type) where
  timestep : TimeStep K O
  action : A
  agentOut : L
deriving DecidableEq, Repr

/-- `Agent.step` (`/repo/examples/impala_lite.py` 77-90): the time step gets a batch dimension of size 1, the logits lose it. -/
def step (net : P → List (TimeStep K O) → List (L × K)) (sample : Key → L → A) (params : P) (rng : Key) (timestep : TimeStep K O) : Except Err (A × L) := do
  let logits ← squeeze1 ((net params [timestep]).map Prod.fst)
  .ok (sample rng logits, logits)

/-- What `jax.vmap(..., in_axes=1)` maps over (`/repo/examples/impala_lite.py` 119-120, 130, 138): the columns of an array of rows of `B` entries. -/
def columns {α : Type} (B : Nat) (x : List (List α)) : List (List α) := (List.range B).map fun b => x.filterMap (·[b]?)

/-- The arrays of `Agent.loss` for one trajectory (`/repo/examples/impala_lite.py` 102-125), from the outputs of the learner's network and the transitions; the attribute `_discount` is 0.99 (75). -/
def rows [Field K] (r : Rlax K L A) (outputs : List (L × K)) (traj : List (Transition K O L A)) : List (Row K L A) :=
  let baselineWithBootstrap := outputs.map Prod.snd
  let baseline := baselineWithBootstrap.dropLast
  let baselineTp1 := baselineWithBootstrap.tail
  let actions := (traj.map Transition.action).dropLast
  let behaviorLogits := (traj.map Transition.agentOut).dropLast
  let learnerLogits := (outputs.map Prod.fst).dropLast
  let timestep := (traj.map Transition.timestep).tail
  ((learnerLogits.zip (behaviorLogits.zip actions)).zip ((baseline.zip baselineTp1).zip timestep)).map fun x =>
    { step :=
        { vtm1 := x.2.1.1
          vt := x.2.1.2
          reward := x.2.2.reward.getD 0
          discount := x.2.2.discount.getD 0 * (99 / 100)
          rho := r.ratio x.1.1 x.1.2.1 x.1.2.2 }
      logits := x.1.1
      action := x.1.2.2
      mask := if x.2.2.stepType ≠ .first then 1 else 0 }

/-- `Agent.loss` (`/repo/examples/impala_lite.py` 92-143) on trajectories of `T` transitions, which `dequeue` stacks (239): the network on all time steps at once, then means over times and trajectories. -/
def loss [Field K] [LinearOrder K] (r : Rlax K L A) (net : P → List (TimeStep K O) → List (L × K)) (params : P) (T : Nat) (trajs : List (List (Transition K O L A))) : K :=
  let B := trajs.length
  let outputs := batchApply (net params) B (stackTime T (trajs.map fun traj => traj.map Transition.timestep))
  let batch := (columns B outputs).zipWith (rows r) trajs
  let pgLoss := mean (batch.map fun rows => mean ((rows.zip (advantages (rows.map Row.step))).map fun x => -r.logp x.1.logits x.1.action * x.2 * x.1.mask))
  let blLoss := 1 / 2 * mean (batch.map fun rows => (rows.zip (errors (rows.map Row.step))).map fun x => x.2 ^ 2 * x.1.mask).flatten
  let entLoss := mean (batch.map fun rows => -mean (rows.map fun x => r.entropy x.logits * x.mask))
  pgLoss + 1 / 2 * blLoss + 1 / 100 * entLoss

/-- The variables of `run_actor` with the state of its environment (`/repo/examples/impala_lite.py` 165-167). -/
structure Actor (K O L A E : Type) where
  rngKey : Key
  env : E
  state : TimeStep K O
  traj : List (Transition K O L A)

/-- `n` rounds of the inner loop (`/repo/examples/impala_lite.py` 172-181), without the log. -/
def rollout [Zero K] [One K] (agentStep : P → Key → TimeStep K O → Except Err (A × L)) (envStep : E → A → E × TimeStep K O) (params : P) : Nat → Actor K O L A E → Except Err (Actor K O L A E)
  | 0, s => .ok s
  | n + 1, s => do
    let rngKey := Key.child s.rngKey 2 0
    let stepKey := Key.child s.rngKey 2 1
    let state := preprocess s.state
    let r ← agentStep params stepKey state
    let e := envStep s.env r.1
    rollout agentStep envStep params n ⟨rngKey, e.1, e.2, s.traj ++ [⟨state, r.1, r.2⟩]⟩

/-- The outer loop from round `i` on (`/repo/examples/impala_lite.py` 169-187), for the parameters that `get_params` gives in each round: the trajectories that are put. -/
def runFrom [Zero K] [One K] (agentStep : P → Key → TimeStep K O → Except Err (A × L)) (envStep : E → A → E × TimeStep K O) (unrollLen : Nat) : Nat → List P → Actor K O L A E → Except Err (List (List (Transition K O L A)))
  | _, [], _ => .ok []
  | i, params :: rest, s => do
    let s ← rollout agentStep envStep params (unrollLen + if i = 0 then 1 else 0) s
    let later ← runFrom agentStep envStep unrollLen (i + 1) rest { s with traj := s.traj.drop (s.traj.length - 1) }
    .ok (s.traj :: later)

/-- `run_actor` (`/repo/examples/impala_lite.py` 156-187), after `env.reset()`, with the key of the actor number `i` (244). -/
def runActor [Zero K] [One K] (agentStep : P → Key → TimeStep K O → Except Err (A × L)) (envStep : E → A → E × TimeStep K O) (unrollLen : Nat) (i : Nat) (params : List P) (env : E) (state : TimeStep K O) :
    Except Err (List (List (Transition K O L A))) := runFrom agentStep envStep unrollLen 0 params ⟨.root i, env, state, []⟩

end Verif.ImpalaLiteAgent
