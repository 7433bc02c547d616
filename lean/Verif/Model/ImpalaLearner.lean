import Verif.Model.ImpalaLite

/-!
# The threads of `examples/impala`

Actors put trajectories into a first queue, a worker thread of the learner takes them out in batches and puts the batches into a second
queue, the learner takes batches out of this one and updates the parameters.  After its last update the learner sets a flag and joins the
worker; then the main thread sets a second flag and joins the actors.  As in `Verif.Model.ImpalaLite` a step is one access to something shared, and an access that
would block is no step.
-/

namespace Verif.Impala
open Verif.ImpalaLite (Traj)

/-- Number of actors, `batch_size`, `frames_per_iter` and `max_iterations` (`/repo/examples/impala/learner.py` 53-55, 189; `/repo/examples/impala/run_catch.py` 78); `none` stands for the value -1 of `max_iterations`. -/
structure Config where
  actors : Nat
  batchSize : Nat
  framesPerIter : Nat
  maxIterations : Option Nat

/-- Where an actor is: before the test of `stop_signal`, before `pull_params`, with a trajectory to put, after the loop (`/repo/examples/impala/run_catch.py` 40-44). -/
inductive Actor where
  | test
  | pull
  | push (t : Traj)
  | stopped
deriving DecidableEq

/-- Where the worker is: before the test of `_done`, in the loop of `get`s, before `put`, after the loop (`/repo/examples/impala/learner.py` 171, 174-176, 184). -/
inductive Worker where
  | test
  | getting
  | putting
  | exited
deriving DecidableEq

/-- Where the learner is: before `get` or the end of the loop, with a batch, before `join`, after `run` (`/repo/examples/impala/learner.py` 199-217). -/
inductive Learner where
  | getting
  | updating (b : List Traj)
  | joining
  | finished
deriving DecidableEq

/-- What the threads have done so far (`/repo/examples/impala/learner.py` 73-79, 170, 195; `/repo/examples/impala/run_catch.py` 77): `made` counts the trajectories that each actor has put, `seen` are the batches that `update` was called with, `frames` is
the first part of `_params_for_actor`, `ended` says that `main` has joined all actors. -/
structure State where
  actor : Nat → Actor
  made : Nat → Nat
  hostQ : List Traj
  worker : Worker
  batch : List Traj
  deviceQ : List (List Traj)
  learner : Learner
  seen : List (List Traj)
  frames : Nat
  done : Bool
  stop : Bool
  ended : Bool

/-- Before the threads start (`/repo/examples/impala/learner.py` 73-79). -/
def start : State := ⟨fun _ => .test, fun _ => 0, [], .test, [], [], .getting, [], 0, false, false, false⟩

/-- The next access to something shared: by an actor (`/repo/examples/impala/run_catch.py` 42, 43, 44), the worker (`/repo/examples/impala/learner.py` 171, 176, 177, 180, 184), the learner (`/repo/examples/impala/learner.py` 200, 205, 215, 217) and `main` (`/repo/examples/impala/run_catch.py` 97-98). -/
inductive Event where
  | actorTest (i : Nat)
  | actorPull (i : Nat)
  | actorPush (i : Nat)
  | workerTest
  | workerGet
  | workerTimeout
  | workerFull
  | workerPut
  | learnerGet
  | learnerUpdate
  | learnerDone
  | learnerJoin
  | mainJoin
deriving DecidableEq

/-- The loop of the learner goes on (`/repo/examples/impala/learner.py` 198-199). -/
def more (c : Config) (n : Nat) : Bool :=
  match c.maxIterations with
  | some m => decide (n < m)
  | none => true

/-- One access, or `none` if it would block or does not come next in its thread (`/repo/examples/impala/run_catch.py` 40-44, 93-98; `/repo/examples/impala/learner.py` 168-217; `/repo/examples/impala/actor.py` 94-103).
`queue.Empty` is raised only if the queue is empty at the end of the timeout. -/
def step (c : Config) (s : State) : Event → Option State
  | .actorTest i =>
    if i < c.actors ∧ s.actor i = .test then some { s with actor := Function.update s.actor i (if s.stop then .stopped else .pull) } else none
  | .actorPull i =>
    if i < c.actors ∧ s.actor i = .pull then some { s with actor := Function.update s.actor i (.push ⟨i, s.made i, s.seen.length⟩) } else none
  | .actorPush i =>
    match s.actor i with
    | .push t =>
      if i < c.actors ∧ s.hostQ.length < c.batchSize then
        some { s with actor := Function.update s.actor i .test, made := Function.update s.made i (s.made i + 1), hostQ := s.hostQ ++ [t] }
      else none
    | _ => none
  | .workerTest => if s.worker = .test then some { s with worker := if s.done then .exited else .getting } else none
  | .workerGet =>
    if s.worker = .getting ∧ s.batch.length < c.batchSize then
      match s.hostQ with
      | t :: q => some { s with hostQ := q, batch := s.batch ++ [t] }
      | [] => none
    else none
  | .workerTimeout => if s.worker = .getting ∧ s.batch.length < c.batchSize ∧ s.hostQ = [] then some { s with worker := .test } else none
  | .workerFull => if s.worker = .getting ∧ s.batch.length = c.batchSize then some { s with worker := .putting } else none
  | .workerPut => if s.worker = .putting ∧ s.deviceQ.length < 1 then some { s with worker := .test, deviceQ := s.deviceQ ++ [s.batch], batch := [] } else none
  | .learnerGet =>
    if s.learner = .getting ∧ more c s.seen.length then
      match s.deviceQ with
      | b :: q => some { s with learner := .updating b, deviceQ := q }
      | [] => none
    else none
  | .learnerUpdate =>
    match s.learner with
    | .updating b => some { s with learner := .getting, seen := s.seen ++ [b], frames := s.frames + c.framesPerIter }
    | _ => none
  | .learnerDone => if s.learner = .getting ∧ more c s.seen.length = false then some { s with learner := .joining, done := true } else none
  | .learnerJoin => if s.learner = .joining ∧ s.worker = .exited then some { s with learner := .finished, stop := true } else none
  | .mainJoin => if s.learner = .finished ∧ (List.range c.actors).all (fun i => decide (s.actor i = .stopped)) then some { s with ended := true } else none

/-- The accesses of all threads in the order in which they happen (`/repo/examples/impala/run_catch.py` 91-98). -/
def run (c : Config) (s : State) : List Event → Option State
  | [] => some s
  | e :: es => (step c s e).bind fun s => run c s es

end Verif.Impala
