import Mathlib.Logic.Function.Basic

/-!
# The threads of `examples/impala_lite.py`

Actors put trajectories into a queue of bounded size, the learner takes them out in batches.  A step of the model is one access to
something shared: reading the parameters, `put`, `get`, and storing new parameters.  An access that would block is no step.
-/

namespace Verif.ImpalaLite

/-- A trajectory, known by the actor that made it, its number among those of the actor, and how many updates its parameters had seen (`/repo/examples/impala_lite.py` 184).
Simplification: the observations, actions and logits are left out. -/
structure Traj where
  actor : Nat
  number : Nat
  version : Nat
deriving DecidableEq, Repr

/-- `num_actors`, `trajectories_per_actor` and `batch_size` (`/repo/examples/impala_lite.py` 209, 232); the code has the batch size 2. -/
structure Config where
  actors : Nat
  perActor : Nat
  batchSize : Nat

/-- `num_steps` (`/repo/examples/impala_lite.py` 250). -/
def Config.numSteps (c : Config) : Nat := c.actors * c.perActor / c.batchSize

/-- What the threads have done so far (`/repo/examples/impala_lite.py` 169-187, 235-253): the number of trajectories that each actor has put, the trajectory that it works on or waits to put, the queue, the batch that `dequeue` builds, and the
batches that `update` was called with. -/
structure State where
  made : Nat → Nat
  held : Nat → Option Traj
  queue : List Traj
  batch : List Traj
  seen : List (List Traj)

/-- Before the threads start (`/repo/examples/impala_lite.py` 231-233). -/
def start : State := ⟨fun _ => 0, fun _ => none, [], [], []⟩

/-- The next access to something shared (`/repo/examples/impala_lite.py` 170, 185, 238, 253). -/
inductive Event where
  | pull (i : Nat)
  | put (i : Nat)
  | get
  | update
deriving DecidableEq, Repr

/-- One access, or `none` if it would block or does not come next in its thread (`/repo/examples/impala_lite.py` 169-187 for actors, 249-253 for the learner). -/
def step (c : Config) (s : State) : Event → Option State
  | .pull i =>
    if i < c.actors ∧ s.held i = none ∧ s.made i < c.perActor then some { s with held := Function.update s.held i (some ⟨i, s.made i, s.seen.length⟩) } else none
  | .put i =>
    match s.held i with
    | some t =>
      if s.queue.length < c.batchSize then some { s with held := Function.update s.held i none, made := Function.update s.made i (s.made i + 1), queue := s.queue ++ [t] } else none
    | none => none
  | .get =>
    if s.seen.length < c.numSteps ∧ s.batch.length < c.batchSize then
      match s.queue with
      | t :: q => some { s with queue := q, batch := s.batch ++ [t] }
      | [] => none
    else none
  | .update => if s.seen.length < c.numSteps ∧ s.batch.length = c.batchSize then some { s with batch := [], seen := s.seen ++ [s.batch] } else none

/-- The accesses of all threads in the order in which they happen (`/repo/examples/impala_lite.py` 247). -/
def run (c : Config) (s : State) : List Event → Option State
  | [] => some s
  | e :: es => (step c s e).bind fun s => run c s es

end Verif.ImpalaLite
