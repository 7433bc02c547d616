import Verif.Model.ImpalaLite
import Verif.Model.ImpalaLiteAgent

/-!
# What the threads of `examples/impala_lite.py` compute

The threads are those of `Verif.Model.ImpalaLite`, where trajectories are known by the actor that made them, their number and the version of the parameters; here they have contents, as objects that the queue refers to.
-/

namespace Verif.ImpalaLiteSystem
open Verif.ImpalaLite
open Verif.Shapes (Err)
open Verif.ImpalaActor (TimeStep)

variable {A P O G U D B : Type}

/-- What the threads call: one round of the loop of `run_actor` without `get_params` and `enqueue_traj` (`/repo/examples/impala_lite.py` 171-187) as a function of the variables of the actor, the number of the round and the parameters; the stacking in `dequeue` (239); `jax.grad` of the loss (204); the optimiser (205); `optax.apply_updates` (206); `opt.init` (228). -/
structure Work (A P O G U D B : Type) where
  unroll : A → Nat → P → D × A
  stack : List D → B
  grad : P → B → G
  optUpdate : G → O → U × O
  applyUpdates : P → U → P
  optInit : P → O

/-- `Learner.update` (`/repo/examples/impala_lite.py` 197-206). -/
def update (W : Work A P O G U D B) (params : P) (optState : O) (trajs : B) : P × O :=
  let g := W.grad params trajs
  let u := W.optUpdate g optState
  (W.applyUpdates params u.1, u.2)

/-- What there is besides the control of the threads: the contents of trajectories, the variables of each actor (`/repo/examples/impala_lite.py` 165-167), and `params` and `opt_state` of `run` (227-228), of which `current_params` reads the first (231). -/
structure Data (A P O D : Type) where
  contents : Traj → D
  actors : Nat → A
  params : P
  optState : O

/-- Before the threads start (`/repo/examples/impala_lite.py` 227-233).  There are no trajectories yet, so their contents are anything. -/
def begin (W : Work A P O G U D B) (contents : Traj → D) (actors : Nat → A) (params : P) : Data A P O D :=
  ⟨contents, actors, params, W.optInit params⟩

/-- What an access does to the data: an actor reads `params` and makes a trajectory with them (`/repo/examples/impala_lite.py` 170-187), the learner makes an update with its batch (253); the other accesses only move references. -/
def effect (W : Work A P O G U D B) (s : State) (d : Data A P O D) : Event → Data A P O D
  | .pull i =>
    let r := W.unroll (d.actors i) (s.made i) d.params
    { d with contents := Function.update d.contents ⟨i, s.made i, s.seen.length⟩ r.1, actors := Function.update d.actors i r.2 }
  | .update =>
    let r := update W d.params d.optState (W.stack (s.batch.map d.contents))
    { d with params := r.1, optState := r.2 }
  | _ => d

/-- One access (`/repo/examples/impala_lite.py` 169-187 for actors, 249-253 for the learner). -/
def step (W : Work A P O G U D B) (c : Config) (x : State × Data A P O D) (e : Event) : Option (State × Data A P O D) :=
  (ImpalaLite.step c x.1 e).map fun s => (s, effect W x.1 x.2 e)

/-- The accesses of all threads in the order in which they happen (`/repo/examples/impala_lite.py` 247). -/
def run (W : Work A P O G U D B) (c : Config) (x : State × Data A P O D) : List Event → Option (State × Data A P O D)
  | [] => some x
  | e :: es => (step W c x e).bind fun x => run W c x es

/-- One round of the loop of `run_actor` (`/repo/examples/impala_lite.py` 171-187) for an agent that does not fail: the trajectory that is put and the variables after it. -/
def actorRound {K Ob L Ac E : Type} [Zero K] [One K] (agentStep : P → Key → TimeStep K Ob → Ac × L) (envStep : E → Ac → E × TimeStep K Ob) (unrollLen : Nat) (s : ImpalaLiteAgent.Actor K Ob L Ac E) (i : Nat) (params : P) :
    List (ImpalaLiteAgent.Transition K Ob L Ac) × ImpalaLiteAgent.Actor K Ob L Ac E :=
  match ImpalaLiteAgent.rollout (fun p k t => (.ok (agentStep p k t) : Except Err (Ac × L))) envStep params (unrollLen + if i = 0 then 1 else 0) s with
  | .ok s => (s.traj, { s with traj := s.traj.drop (s.traj.length - 1) })
  | .error _ => ([], s)

end Verif.ImpalaLiteSystem
