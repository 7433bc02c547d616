import Verif.Model.Machine

/-!
# `hk.to_module`
-/

namespace Verif.ToModule
open Verif Names Frame

/-- A function given to `to_module`: the attribute `__name__`, if there is one, and what a call does. -/
structure PyFn where
  name : Option Str
  body : Val → Prog

/-- The argument `name` of the constructor (`/repo/haiku/_src/basic.py` 348-351): `None`, a string, or anything else. -/
inductive NameArg where
  | none
  | str (s : Str)
  | other

/-- `TypeError` (`/repo/haiku/_src/basic.py` 352); the number stands for the class of the exception. -/
def typeError : Exc := .user 1

/-- `AttributeError` of `f.__name__` (`/repo/haiku/_src/basic.py` 350). -/
def attributeError : Exc := .user 2

/-- The name in the constructor (`/repo/haiku/_src/basic.py` 349-356). -/
def nameFor (f : PyFn) : NameArg → Except Exc Str
  | .none => match f.name with
    | some n => .ok n
    | Option.none => .error attributeError
  | .str s => .ok s
  | .other => .error typeError

/-- `ToModuleWrapper(name)` (`/repo/haiku/_src/basic.py` 345-358). -/
def new (f : PyFn) (name : NameArg) : Prog :=
  .newModule .unit fun id _ => match nameFor f name with
    | .ok n => .op (.superInit id (some n) "ToModuleWrapper".toList)
    | .error e => .raise e

/-- A call of the module (`/repo/haiku/_src/basic.py` 360-361); all arguments are one value. -/
def call (f : PyFn) (m : ModId) (x : Val) : Prog := .callMethod m sCall x f.body

/-- `to_module(f)(name)(x)` (`/repo/haiku/_src/basic.py` 324-367). -/
def newAndCall (f : PyFn) (name : NameArg) (x : Val) : Prog :=
  .bind (new f name) fun m => match m with
    | .mod id => call f id x
    | _ => .raise typeError

end Verif.ToModule
