import Verif.Model.Machine

/-!
# `hk.transform` and its variants as Python callables

`Verif.Model.Machine` has `init` and `apply` of `transform_with_state` as program constructors.  Here they are functions of positional arguments,
wrapped by `without_state` and `without_apply_rng` as in `/repo/haiku/_src/transform.py`.  Keyword arguments are not modelled.
-/

namespace Verif.Transform
open Verif Names

/-- The two named tuples (`/repo/haiku/_src/transform.py` 36-66). -/
inductive Kind where
  | transformed
  | transformedWithState
  deriving DecidableEq, Repr

/-- `Transformed` and `TransformedWithState` (`/repo/haiku/_src/transform.py` 36-66): two functions of positional arguments. -/
structure Transformed where
  kind : Kind
  init : List Val → Prog
  apply : List Val → Prog

/-- A Python value as rng argument (`/repo/haiku/_src/transform.py` 68-74). -/
def rngArg : Val → RngArg
  | .none => .none
  | .int n => .seed n
  | .key k => .key k
  | _ => .invalid

/-- `check_mapping` (`/repo/haiku/_src/transform.py` 319-331); `none` is the `TypeError`. -/
def checkMapping : Val → Option PDict
  | .none => some []
  | .bundle d => some d
  | _ => none

/-- `transform_with_state` (`/repo/haiku/_src/transform.py` 232-302). -/
def transformWithState (f : List Val → Prog) : Transformed where
  kind := .transformedWithState
  init
    | rng :: args => .initT (rngArg rng) (f args)
    | [] => .raise .missingArgument
  apply
    | params :: state :: rng :: args =>
      match checkMapping params, checkMapping state with
      | some params, some state => .applyT (some params) (some state) (rngArg rng) (f args)
      | _, _ => .raise .badMapping
    | _ => .raise .missingArgument

/-- `a, state = ...; if state: raise ...; return a` (`/repo/haiku/_src/transform.py` 111-115, 118-122).  Simplification: a result that is not a
pair ending in a mapping counts as one that cannot be unpacked. -/
def dropState : Val → Prog
  | .pair a (.bundle state) => if state.isEmpty then .ret a else .raise .usesState
  | _ => .raise .structureMismatch

/-- `without_state` (`/repo/haiku/_src/transform.py` 88-126). -/
def withoutState (f : Transformed) : Transformed where
  kind := .transformed
  init args := .bind (f.init args) dropState
  apply
    | params :: args => .bind (f.apply (params :: .bundle [] :: args)) dropState
    | [] => .raise .missingArgument

/-- `without_apply_rng` (`/repo/haiku/_src/transform.py` 132-148). -/
def withoutApplyRng (f : Transformed) : Transformed :=
  match f.kind with
  | .transformedWithState =>
    { kind := .transformedWithState
      init := f.init
      apply := fun
        | params :: state :: args => f.apply (params :: state :: .none :: args)
        | _ => .raise .missingArgument }
  | .transformed =>
    { kind := .transformedWithState
      init := f.init
      apply := fun
        | params :: args => f.apply (params :: .none :: args)
        | _ => .raise .missingArgument }

/-- `transform` (`/repo/haiku/_src/transform.py` 152-229). -/
def transform (f : List Val → Prog) : Transformed := withoutState (transformWithState f)

end Verif.Transform
