import Verif.Model.Attention
import Verif.Model.PRNG

/-!
# Functions and modules of basic.py

Models `one_hot`, `multinomial`, `Sequential` and `expand_apply` of `/repo/haiku/_src/basic.py` in exact arithmetic; the exponential function is any function.  (`Linear` and `dropout` are in
`Verif.Model.Mlp`, `BatchApply` in `Verif.Model.Shapes`.)  Dtypes are not modelled.
-/

namespace Verif.Basic
open Verif.Shapes (Err)
open Verif.Pool (Arr)
open Verif.Attention (softmax)

variable {K : Type}

/-- `one_hot` (`/repo/haiku/_src/basic.py` 38-52): `jax.nn.one_hot` compares the index with each class. -/
def oneHot [Field K] (x : Arr Int) (numClasses : Nat) : Arr K := ⟨x.shape ++ [numClasses], fun i => if x.val i.dropLast = (i.getLastD 0 : Int) then 1 else 0⟩

/-- `jnp.cumsum(probs, axis=-1)` (`/repo/haiku/_src/basic.py` 73). -/
def cumsum [Field K] (x : Arr K) : Arr K := ⟨x.shape, fun i => ∑ j ∈ Finset.range (i.getLastD 0 + 1), x.val (i.dropLast ++ [j])⟩

/-- `a > probs` (`/repo/haiku/_src/basic.py` 78, 82): the last axis of `a` has size 1, and `a` may have one more axis in front. -/
def greater [LinearOrder K] (a probs : Arr K) : Arr Bool :=
  ⟨a.shape.dropLast ++ [probs.shape.getLastD 0], fun i => decide (probs.val (i.drop (i.length - probs.shape.length)) < a.val (i.dropLast ++ [0]))⟩

/-- `jnp.argmin(x, axis=-1)` of booleans (`/repo/haiku/_src/basic.py` 78, 82): the first position of `False`, or 0 if there is none; no positions at all are a `ValueError`. -/
def argmin (x : Arr Bool) : Except Err (Arr Nat) :=
  let n := x.shape.getLastD 0
  if n = 0 then .error .value else .ok ⟨x.shape.dropLast, fun i => ((List.range n).find? fun j => !x.val (i ++ [j])).getD 0⟩

/-- `jnp.transpose(out)` (`/repo/haiku/_src/basic.py` 83). -/
def transpose (x : Arr Nat) : Arr Nat := ⟨x.shape.reverse, fun i => x.val i.reverse⟩

/-- `multinomial` (`/repo/haiku/_src/basic.py` 55-83); `uniform` is `jax.random.uniform`. -/
def multinomial [Field K] [LinearOrder K] (exp : K → K) (uniform : Key → List Nat → List Nat → K) (rng : Key) (logits : Arr K) (numSamples : Nat) : Except Err (Arr Nat) :=
  if logits.shape.length > 2 ∨ logits.shape = [] then .error .value
  else do
    let probs ← softmax exp logits
    let probs := cumsum probs
    if numSamples = 1 then do
      let shape := logits.shape.dropLast ++ [1]
      let out ← argmin (greater ⟨shape, uniform rng shape⟩ probs)
      .ok ⟨out.shape ++ [1], fun i => out.val i.dropLast⟩
    else do
      let shape := numSamples :: logits.shape.dropLast ++ [1]
      let out ← argmin (greater ⟨shape, uniform rng shape⟩ probs)
      .ok (transpose out)

/-- A layer of `Sequential` (`/repo/haiku/_src/basic.py` 119-127): a callable on positional arguments with effects in the monad `m`.  Simplification: no keyword arguments. -/
abbrev Layer (m : Type → Type) (V : Type) := List V → m V

/-- The loop of `Sequential.__call__` (`/repo/haiku/_src/basic.py` 121-127) from layer number `i` on. -/
def loop {m : Type → Type} [Monad m] {V : Type} (args : List V) : Nat → List (Layer m V) → V → m V
  | _, [], out => pure out
  | 0, layer :: layers, out => do
    let out ← layer (out :: args)
    loop args 1 layers out
  | i + 1, layer :: layers, out => do
    let out ← layer [out]
    loop args (i + 2) layers out

/-- `Sequential.__call__` (`/repo/haiku/_src/basic.py` 119-127). -/
def sequential {m : Type → Type} [Monad m] {V : Type} (layers : List (Layer m V)) (inputs : V) (args : List V) : m V := loop args 0 layers inputs

/-- `jnp.expand_dims(t, axis=axis)` (`/repo/haiku/_src/basic.py` 284), for the axes 0 and -1. -/
def expandDims (axis : Int) (x : Arr K) : Arr K := if axis = 0 then ⟨1 :: x.shape, fun i => x.val (i.drop 1)⟩ else ⟨x.shape ++ [1], fun i => x.val i.dropLast⟩

/-- `jnp.squeeze(t, axis=axis)` (`/repo/haiku/_src/basic.py` 288), for the axes 0 and -1: an axis that is missing or of another size than 1 is a `ValueError`. -/
def squeeze (axis : Int) (x : Arr K) : Except Err (Arr K) :=
  if axis = 0 then
    match x.shape with
    | 1 :: s => .ok ⟨s, fun i => x.val (0 :: i)⟩
    | _ => .error .value
  else if x.shape.getLast? = some 1 then .ok ⟨x.shape.dropLast, fun i => x.val (i ++ [0])⟩
  else .error .value

/-- `expand_apply` and its wrapper (`/repo/haiku/_src/basic.py` 260-290) on the leaves of the arguments; `f` gives the leaves of its result. -/
def expandApply (f : List (Arr K) → Except Err (List (Arr K))) (axis : Int) (args : List (Arr K)) : Except Err (List (Arr K)) :=
  if axis ∉ [0, -1] then .error .value
  else do
    let out ← f (args.map (expandDims axis))
    out.mapM (squeeze axis)

end Verif.Basic
