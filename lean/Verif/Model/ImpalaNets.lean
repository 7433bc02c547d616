import Verif.Model.ImpalaActor

/-!
# The networks and the agent of `examples/impala`

An array `[T, B, ...]` is the list of its `T` rows, each the list of its `B` entries.  The convolutions, linear layers and the LSTM are any functions of one entry of a batch: what they do within a batch is the subject of other models (`Verif.Model.ConvArr`,
`Verif.Model.Cores`).
-/

namespace Verif.ImpalaNets
open Verif.Shapes (Err)
open Verif.ImpalaActor

variable {K O S P F N A : Type}

/-- `hk.BatchApply(f)` (`/repo/haiku/_src/basic.py` 244-257) on an array of `T` rows of `B` entries: the rows are put behind one another, `f` is applied to all entries, and the result is cut into rows of `B` again. -/
def batchApply {α β : Type} (f : List α → List β) (B : Nat) (x : List (List α)) : List (List β) :=
  let out := f x.flatten
  (List.range x.length).map fun t => (out.drop (t * B)).take B

/-- The parts of `CatchNet` (`/repo/examples/impala/haiku_nets.py` 40-49): the layers on one observation. -/
structure Catch (K O P N : Type) where
  layers : P → O → N

/-- `CatchNet.__call__` (`/repo/examples/impala/haiku_nets.py` 40-49) on a batch; the state is any value, as `unroll` passes `None`. -/
def Catch.call (n : Catch K O P N) (params : P) (x : List (TimeStep K O)) {Z : Type} (state : Z) : List N × Z := (x.map fun t => n.layers params t.observation, state)

/-- `CatchNet.unroll` (`/repo/examples/impala/haiku_nets.py` 51-54). -/
def Catch.unroll (n : Catch K O P N) (B : Nat) (params : P) (x : List (List (TimeStep K O))) (state : List S) : List (List N) × List S :=
  (batchApply (fun x => (n.call params x ()).1) B x, state)

/-- The parts of `AtariNet` (`/repo/examples/impala/haiku_nets.py` 133-172): both torsos on one observation (57-76, 104-130), a step of the LSTM on one input and one state, the initial state of the LSTM, the head on one output (168-172), and the flags. -/
structure Atari (K O S P F N : Type) where
  deepTorso : P → O → F
  shallowTorso : P → O → F
  lstm : P → F → S → F × S
  initial : S
  head : P → F → N
  useResnet : Bool
  useLstm : Bool

/-- `AtariNet.initial_state` (`/repo/examples/impala/haiku_nets.py` 143-144) for a batch. -/
def Atari.initialState (n : Atari K O S P F N) (B : Nat) : List S := List.replicate B n.initial

/-- `hk.ResetCore(hk.LSTM(256))` on one row (`/repo/haiku/_src/recurrent.py` 605-681): the states of the entries to reset are those of `initial_state`. -/
def Atari.core (n : Atari K O S P F N) (params : P) (input : List (F × Bool)) (state : List S) : List F × List S :=
  let initial := n.initialState input.length
  let state := (input.zip (initial.zip state)).map fun x => if x.1.2 then x.2.1 else x.2.2
  let r := (input.zip state).map fun x => n.lstm params x.1.1 x.2
  (r.map Prod.fst, r.map Prod.snd)

/-- `hk.dynamic_unroll` of the core over the rows (`/repo/haiku/_src/recurrent.py` 143-186). -/
def Atari.dynamicUnroll (n : Atari K O S P F N) (params : P) : List (List (F × Bool)) → List S → List (List F) × List S
  | [], state => ([], state)
  | x :: xs, state =>
    let r := n.core params x state
    let q := n.dynamicUnroll params xs r.2
    (r.1 :: q.1, q.2)

/-- `AtariNet.unroll` (`/repo/examples/impala/haiku_nets.py` 150-166). -/
def Atari.unroll (n : Atari K O S P F N) (B : Nat) (params : P) (x : List (List (TimeStep K O))) (state : List S) : List (List N) × List S :=
  let torso := if n.useResnet then n.deepTorso params else n.shallowTorso params
  let torsoOutput := batchApply (List.map torso) B (x.map fun row => row.map TimeStep.observation)
  if n.useLstm then
    let shouldReset := x.map fun row => row.map fun t => decide (t.stepType = .first)
    let r := n.dynamicUnroll params (torsoOutput.zipWith List.zip shouldReset) state
    (batchApply (List.map (n.head params)) B r.1, r.2)
  else (batchApply (List.map (n.head params)) B torsoOutput, state)

/-- `AtariNet.__call__` (`/repo/examples/impala/haiku_nets.py` 146-148) on a batch: the time dimension that it adds is still there in the result. -/
def Atari.call (n : Atari K O S P F N) (params : P) (x : List (TimeStep K O)) (state : List S) : List (List N) × List S := n.unroll x.length params [x] state

/-- The `unroll` of either network. -/
abbrev Unroll (K O S P N : Type) := (B : Nat) → P → List (List (TimeStep K O)) → List S → List (List N) × List S

/-- `jnp.squeeze(t, axis=(0, 1))` (`/repo/examples/impala/agent.py` 91): both dimensions must be 1. -/
def squeeze2 {α : Type} : List (List α) → Except Err α
  | [[x]] => .ok x
  | _ => .error .value

/-- `jnp.squeeze(t, axis=0)` (`/repo/examples/impala/agent.py` 92). -/
def squeeze1 {α : Type} : List α → Except Err α
  | [x] => .ok x
  | _ => .error .value

/-- `Agent.step` (`/repo/examples/impala/agent.py` 77-96): the time step gets a time and a batch dimension of size 1, the state a batch dimension; after `unroll` they are taken off again and an action is sampled. -/
def step (unroll : Unroll K O S P N) (sample : Key → N → A) (key : Key) (params : P) (timestep : TimeStep K O) (state : S) : Except Err ((N × A) × S) := do
  let r := unroll 1 params [[timestep]] [state]
  let netOut ← squeeze2 r.1
  let nextState ← squeeze1 r.2
  .ok ((netOut, sample key netOut), nextState)

/-- `Agent.unroll` (`/repo/examples/impala/agent.py` 98-106): the outputs of the network along a batch of trajectories. -/
def agentUnroll (unroll : Unroll K O S P N) (B : Nat) (params : P) (trajectory : List (List (TimeStep K O))) (state : List S) : List (List N) := (unroll B params trajectory state).1

/-- `np.stack(..., axis=1)` of what each trajectory of a batch has at each time (`/repo/examples/impala/learner.py` 182-183; also `/repo/examples/impala_lite.py` 239), for trajectories of `T` steps. -/
def stackTime {α : Type} (T : Nat) (trajs : List (List α)) : List (List α) := (List.range T).map fun t => trajs.filterMap (·[t]?)

end Verif.ImpalaNets
