import Verif.Model.ImpalaLearner

/-!
# What the threads of `examples/impala` compute

The threads are those of `Verif.Model.ImpalaLearner`, where trajectories are known by the actor that made them, their number and the version of the parameters; here they have contents, as objects that the queues refer to.
-/

namespace Verif.ImpalaSystem
open Verif.Impala
open Verif.ImpalaLite (Traj)

variable {A P O G U D B L : Type}

/-- What the threads call: `Actor.unroll_and_push` without the `put` (`/repo/examples/impala/actor.py` 94-103) as a function of what the actor keeps (its environment, key, state and bootstrap step), the number of frames and the parameters; stacking (`/repo/examples/impala/learner.py` 182-183); `value_and_grad` of the loss with its logs (148-149); the optimiser (152); `optax.apply_updates` (153); `l2_norm` of gradients and of parameters, put into the logs (151, 154-158). -/
structure Work (A P O G U D B L : Type) where
  unroll : A → Nat → P → D × A
  stack : List D → B
  lossGrad : P → B → L × G
  optUpdate : G → O → U × O
  applyUpdates : P → U → P
  addNorms : L → G → P → L
  optInit : P → O

/-- `Learner.update` (`/repo/examples/impala/learner.py` 146-159). -/
def update (W : Work A P O G U D B L) (params : P) (optState : O) (batch : B) : P × O × L :=
  let r := W.lossGrad params batch
  let u := W.optUpdate r.2 optState
  let params := W.applyUpdates params u.1
  (params, u.2, W.addNorms r.1 r.2 params)

/-- What there is besides the control of the threads: the contents of trajectories, what each actor keeps (`/repo/examples/impala/actor.py` 38-49), `params` and `opt_state` of `Learner.run` (`/repo/examples/impala/learner.py` 195-196), `_params_for_actor` (84, 205) and what the logger was given (208-212). -/
structure Data (A P O D L : Type) where
  contents : Traj → D
  actors : Nat → A
  params : P
  optState : O
  served : Nat × P
  written : List (L × Nat)

/-- Before the threads start (`/repo/examples/impala/learner.py` 77-84, 195-196; `/repo/examples/impala/run_catch.py` 79-87).  There are no trajectories yet, so their contents are anything. -/
def begin (W : Work A P O G U D B L) (contents : Traj → D) (actors : Nat → A) (params : P) : Data A P O D L :=
  ⟨contents, actors, params, W.optInit params, (0, params), []⟩

/-- What an access does to the data: an actor pulls the parameters and makes a trajectory with them (`/repo/examples/impala/run_catch.py` 43-44; `/repo/examples/impala/actor.py` 94-106; `/repo/examples/impala/learner.py` 165-166), the learner makes an update with its batch and serves and logs the result (`/repo/examples/impala/learner.py` 201-212); the other accesses only move references. -/
def effect (W : Work A P O G U D B L) (c : Config) (s : State) (d : Data A P O D L) : Event → Data A P O D L
  | .actorPull i =>
    let r := W.unroll (d.actors i) d.served.1 d.served.2
    { d with contents := Function.update d.contents ⟨i, s.made i, s.seen.length⟩ r.1, actors := Function.update d.actors i r.2 }
  | .learnerUpdate =>
    match s.learner with
    | .updating b =>
      let r := update W d.params d.optState (W.stack (b.map d.contents))
      let numFrames := s.frames + c.framesPerIter
      { d with params := r.1, optState := r.2.1, served := (numFrames, r.1), written := d.written ++ [(r.2.2, numFrames)] }
    | _ => d
  | _ => d

/-- One access (`/repo/examples/impala/run_catch.py` 91-98). -/
def step (W : Work A P O G U D B L) (c : Config) (x : State × Data A P O D L) (e : Event) : Option (State × Data A P O D L) :=
  (Impala.step c x.1 e).map fun s => (s, effect W c x.1 x.2 e)

/-- The accesses of all threads in the order in which they happen (`/repo/examples/impala/run_catch.py` 91-98). -/
def run (W : Work A P O G U D B L) (c : Config) (x : State × Data A P O D L) : List Event → Option (State × Data A P O D L)
  | [] => some x
  | e :: es => (step W c x e).bind fun x => run W c x es

end Verif.ImpalaSystem
