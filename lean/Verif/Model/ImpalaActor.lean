import Mathlib.Algebra.Field.Defs
import Verif.Model.PRNG
import Verif.Model.Shapes

/-!
# The actor of `examples/impala`

An actor steps an agent and an environment in turn and cuts the interaction into trajectories.  Agent and environment are any functions.
-/

namespace Verif.ImpalaActor
open Verif.Shapes (Err)

/-- `dm_env.StepType` (`/repo/examples/impala/learner.py` 121). -/
inductive StepType where
  | first
  | mid
  | last
deriving DecidableEq, Repr

/-- `dm_env.TimeStep` (`/repo/examples/impala/util.py` 35-38); `none` is Python's `None`. -/
structure TimeStep (K O : Type) where
  stepType : StepType
  reward : Option K
  discount : Option K
  observation : O
deriving DecidableEq, Repr

/-- `preprocess_step` (`/repo/examples/impala/util.py` 28-38): no discount becomes 1, no reward 0.  Simplification: the observation is one array, not a nest. -/
def preprocess {K O : Type} [Zero K] [One K] (t : TimeStep K O) : TimeStep K O :=
  let t := match t.discount with
    | none => { t with discount := some 1 }
    | some _ => t
  { t with reward := some (t.reward.getD 0), discount := some (t.discount.getD 0) }

/-- `Transition` (`/repo/examples/impala/util.py` 24-25). -/
structure Transition (K O Out S : Type) where
  timestep : TimeStep K O
  agentOut : Out
  agentState : S
deriving DecidableEq, Repr

/-- What an actor is given: the functions of the agent and the environment, and `unroll_length` (`/repo/examples/impala/actor.py` 37-40).  An environment is a function of its state and the action. -/
structure Setup (K O Out S A E P : Type) where
  agentStep : Key → P → TimeStep K O → S → Out × S
  action : Out → A
  envStep : E → A → E × TimeStep K O
  unrollLength : Nat

/-- The attributes of an actor, with the state of its environment and what its logger has been given (`/repo/examples/impala/actor.py` 37-50). -/
structure State (K O Out S E : Type) where
  env : E
  timestep : TimeStep K O
  agentState : S
  traj : List (Transition K O Out S)
  key : Key
  episodeReturn : K
  logs : List (Nat × K)

variable {K O Out S A E P : Type} [Field K]

/-- `Actor.__init__` (`/repo/examples/impala/actor.py` 37-50), after `env.reset()`. -/
def init (env : E) (timestep : TimeStep K O) (agentState : S) (seed : Int) : State K O Out S E := ⟨env, timestep, agentState, [], .root seed, 0, []⟩

/-- One round of the loop of `unroll` (`/repo/examples/impala/actor.py` 61-80).  A last step without a reward is a `TypeError` (73). -/
def interact (c : Setup K O Out S A E P) (frames : Nat) (params : P) (key : Key) (s : State K O Out S E) : Except Err (State K O Out S E) :=
  let timestep := preprocess s.timestep
  let r := c.agentStep key params timestep s.agentState
  let e := c.envStep s.env (c.action r.1)
  let s' : State K O Out S E := { s with env := e.1, timestep := e.2, agentState := r.2, traj := s.traj ++ [⟨timestep, r.1, s.agentState⟩] }
  if e.2.stepType = .last then
    match e.2.reward with
    | some x => .ok { s' with episodeReturn := 0, logs := s.logs ++ [(frames, s.episodeReturn + x)] }
    | none => .error .type
  else .ok { s' with episodeReturn := s.episodeReturn + e.2.reward.getD 0 }

/-- The loop of `unroll` (`/repo/examples/impala/actor.py` 60-80), one round for each key. -/
def loop (c : Setup K O Out S A E P) (frames : Nat) (params : P) : List Key → State K O Out S E → Except Err (State K O Out S E)
  | [], s => .ok s
  | k :: ks, s => interact c frames params k s >>= loop c frames params ks

/-- `Actor.unroll` (`/repo/examples/impala/actor.py` 52-92).  Simplification: a trajectory is the list of its transitions, which the code stacks. -/
def unroll (c : Setup K O Out S A E P) (key : Key) (frames : Nat) (params : P) (s : State K O Out S E) : Except Err (List (Transition K O Out S) × State K O Out S E) :=
  let num := c.unrollLength + if s.traj.isEmpty then 1 else 0
  loop c frames params (jaxSplit key num) s >>= fun s => .ok (s.traj, { s with traj := s.traj.drop (s.traj.length - 1) })

/-- `Actor.unroll_and_push` (`/repo/examples/impala/actor.py` 94-103), with the trajectory that it puts. -/
def unrollAndPush (c : Setup K O Out S A E P) (frames : Nat) (params : P) (s : State K O Out S E) : Except Err (List (Transition K O Out S) × State K O Out S E) :=
  unroll c (.child s.key 2 1) frames params { s with key := .child s.key 2 0 }

/-- The loop of `run_actor` (`/repo/examples/impala/run_catch.py` 42-44) for given frame counts and parameters, with all trajectories. -/
def runActor (c : Setup K O Out S A E P) : List (Nat × P) → State K O Out S E → Except Err (List (List (Transition K O Out S)) × State K O Out S E)
  | [], s => .ok ([], s)
  | (frames, params) :: rest, s => unrollAndPush c frames params s >>= fun r => runActor c rest r.2 >>= fun q => .ok (r.1 :: q.1, q.2)

/-- `unroll` of a network (`/repo/examples/impala/haiku_nets.py` 51-54, 150-166): a cell is applied at one step after the other, as `hk.dynamic_unroll` does.  Simplification: no batch dimension. -/
def netUnroll {N : Type} (cell : P → TimeStep K O → S → N × S) (params : P) : List (TimeStep K O) → S → List N × S
  | [], s => ([], s)
  | t :: ts, s =>
    let r := cell params t s
    let q := netUnroll cell params ts r.2
    (r.1 :: q.1, q.2)

/-- `Agent.step` (`/repo/examples/impala/agent.py` 77-96): the network is unrolled over one step, i.e. its cell is applied once, and an action is sampled from its output. -/
def agentStep {N : Type} (cell : P → TimeStep K O → S → N × S) (sample : Key → N → A) (key : Key) (params : P) (timestep : TimeStep K O) (state : S) : (N × A) × S :=
  let r := cell params timestep state
  ((r.1, sample key r.1), r.2)

end Verif.ImpalaActor
