import Verif.Model.Transform

/-!
# `hk.lift` as a program

Models `LiftingModule` (`/repo/haiku/_src/lift.py` 41-82) on top of the frame operations `liftUnpack` and `liftPack`.
-/

namespace Verif.Lift
open Verif Names

/-- The body of `LiftingModule.__call__` (`/repo/haiku/_src/lift.py` 67-80).  `init_fn` returns the parameters of the inner transform; a result
that is not a mapping has no `items` (24). -/
def callBody (self : ModId) (initFn : Val → Prog) (args : Val) : Prog :=
  .bind (.op (.liftUnpack self)) fun r =>
    match r with
    | .none => .bind (initFn args) fun v =>
      match v with
      | .bundle params => .bind (.op (.liftPack self params)) fun _ => .ret (.bundle params)
      | _ => .raise .badMapping
    | r => .ret r

/-- `hk.lift(init_fn, name)(args)` (`/repo/haiku/_src/lift.py` 57-80). -/
def lift (name : Str) (initFn : Val → Prog) (args : Val) : Prog :=
  .bind (.newModule .unit fun id _ => .op (.superInit id (some name) "LiftingModule".toList)) fun m =>
    match m with
    | .mod id => .callMethod id sCall args (callBody id initFn)
    | _ => .raise .badMapping

end Verif.Lift
