import Verif.Model.Machine

/-!
# `hk.value_and_grad` and `hk.grad`

The derivative of JAX is any operator `D` that takes the function from arguments to values, as far as it is defined, and the argument.
-/

namespace Verif.Grad
open Verif Frame

section
variable {σ : Type} (K : Mach σ)

/-- `stateful_fun` in `value_and_grad` (`/repo/haiku/_src/stateful.py` 204-211) on the state `st`: the output, what comes beside it, and the difference that the function makes to the state. -/
def statefulFun (hasAux : Bool) (f : Val → M σ Val) (st : IState) (x : Val) : M σ (Val × Val × Diff) :=
  K.temp st (f x >>- fun out =>
    (if hasAux then asPair out else M.pure (out, Val.none)) >>- fun r =>
    K.top (fun _ => internalState true) >>- fun after => M.pure (r.1, r.2, difference st after))

/-- The value that is differentiated (`/repo/haiku/_src/stateful.py` 211, 213): the first of the pair that `stateful_fun` returns, if it returns. -/
def firstOf : Except Exc (Val × Val × Diff) → Option Val
  | .ok q => some q.1
  | .error _ => none

/-- `jax.value_and_grad(stateful_fun, has_aux=True)` (`/repo/haiku/_src/stateful.py` 213-214): the function is run at the argument; the derivative is that of its first output as a function of the argument, everything else being as it is. -/
def jaxValueAndGrad (D : (Val → Option Val) → Val → Val) (F : Val → M σ (Val × Val × Diff)) (x : Val) : M σ ((Val × Val × Diff) × Val) := fun s =>
  match F x s with
  | (.ok r, s') => (.ok (r, D (fun y => firstOf (F y s).1) x), s')
  | (.error e, s') => (.error e, s')

/-- `value_and_grad` and its `wrapper` (`/repo/haiku/_src/stateful.py` 200-226).  Simplifications: one argument; the check that a transform is running, made when the function is wrapped, is part of the call. -/
def valueAndGrad (D : (Val → Option Val) → Val → Val) (hasAux : Bool) (f : Val → M σ Val) (x : Val) : M σ (Val × Val) :=
  K.top (fun _ => internalState true) >>- fun st =>
  jaxValueAndGrad D (statefulFun K hasAux f st) x >>- fun r =>
  K.top (updateInternalState r.1.2.2) >>- fun _ =>
  if hasAux then M.pure (.pair r.1.1 r.1.2.1, r.2) else M.pure (r.1.1, r.2)

/-- `grad` (`/repo/haiku/_src/stateful.py` 145-156). -/
def grad (D : (Val → Option Val) → Val → Val) (hasAux : Bool) (f : Val → M σ Val) (x : Val) : M σ Val :=
  valueAndGrad K D hasAux f x >>- fun r =>
  if hasAux then asPair r.1 >>- fun v => M.pure (.pair r.2 v.2) else M.pure r.2

end

end Verif.Grad
