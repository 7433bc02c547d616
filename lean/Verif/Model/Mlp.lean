import Mathlib.Algebra.BigOperators.Group.Finset.Basic
import Mathlib.Algebra.Field.Defs
import Mathlib.Order.Defs.LinearOrder
import Verif.Model.PRNG
import Verif.Model.Pool

/-!
# Linear layers, dropout and multi-layer perceptrons

Models `Linear` and `dropout` of `/repo/haiku/_src/basic.py` and `MLP` of `/repo/haiku/_src/nets/mlp.py` in exact arithmetic.
-/

namespace Verif.Mlp
open Verif.Shapes (Err)
open Verif.Pool (Arr)

variable {K : Type}

/-- What `hk.get_parameter(name, shape, dtype, init)` finds or creates in the module of the given name (`/repo/haiku/_src/base.py` 239-302). -/
abbrev ParamFn (K : Type) := String → String → List Nat → Except Err (Arr K)

/-- `hk.get_parameter` with the check that the parameter has the shape that was asked for (`/repo/haiku/_src/base.py` 298-300). -/
def getParameter (get : ParamFn K) (module name : String) (shape : List Nat) : Except Err (Arr K) := do
  let p ← get module name shape
  if p.shape = shape then .ok p else .error .assertion

/-- A `Linear` object (`/repo/haiku/_src/basic.py` 153-158).  `outputSize` is `None` only in an `MLP` reversed before it was called.  The initializers only matter to `get_parameter`. -/
structure Linear where
  name : String
  inputSize : Option Nat
  outputSize : Option Nat
  withBias : Bool
  deriving DecidableEq, Repr

/-- `jnp.dot(inputs, w)` for a matrix `w`: the last axis of `inputs` against the first of `w` (`/repo/haiku/_src/basic.py` 174). -/
def dot [AddCommMonoid K] [Mul K] (x w : Arr K) (n m : Nat) : Arr K :=
  ⟨x.shape.dropLast ++ [m], fun i => ∑ k ∈ Finset.range n, x.val (i.dropLast ++ [k]) * w.val [k, i.getLastD 0]⟩

/-- `out + jnp.broadcast_to(b, out.shape)` for a vector `b` (`/repo/haiku/_src/basic.py` 178-179). -/
def addBias [Add K] (out b : Arr K) : Arr K := ⟨out.shape, fun i => out.val i + b.val [i.getLastD 0]⟩

/-- `Linear.__call__` (`/repo/haiku/_src/basic.py` 159-181): the output and the object with `input_size` set.  A shape containing `None` is an error of the initializer. -/
def Linear.call [AddCommMonoid K] [Mul K] (get : ParamFn K) (l : Linear) (x : Arr K) : Except Err (Arr K × Linear) :=
  match x.shape.getLast?, l.outputSize with
  | none, _ => .error .value
  | some _, none => .error .type
  | some n, some m => do
    let w ← getParameter get l.name "w" [n, m]
    if l.withBias then
      let b ← getParameter get l.name "b" [m]
      .ok (addBias (dot x w n m) b, { l with inputSize := some n })
    else .ok (dot x w n m, { l with inputSize := some n })

/-- `jax.random.bernoulli(rng, p, shape)` (`/repo/haiku/_src/basic.py` 314): any function of the key, the probability, the shape and the position. -/
abbrev Bernoulli (K : Type) := Key → K → List Nat → List Nat → Bool

/-- `hk.dropout` (`/repo/haiku/_src/basic.py` 293-315): `keep * x / keep_rate`, element by element. -/
def dropout [Field K] [LinearOrder K] (bern : Bernoulli K) (rng : Key) (rate : K) (x : Arr K) : Except Err (Arr K) :=
  if rate < 0 ∨ 1 ≤ rate then .error .value
  else if rate = 0 then .ok x
  else
    let keepRate := 1 - rate
    .ok ⟨x.shape, fun i => (if bern rng keepRate x.shape i then 1 else 0) * x.val i / keepRate⟩

/-- An `MLP` object (`/repo/haiku/_src/nets/mlp.py` 70-83). -/
structure MLP (K : Type) where
  name : String
  layers : List Linear
  withBias : Bool
  hasBInit : Bool
  activation : Arr K → Arr K
  activateFinal : Bool

/-- The layers built in `MLP.__init__` (`/repo/haiku/_src/nets/mlp.py` 76-83), counting from `index`. -/
def makeLayers (withBias : Bool) : Nat → List (Option Nat) → List Linear
  | _, [] => []
  | i, s :: ss => ⟨"linear_" ++ toString i, none, s, withBias⟩ :: makeLayers withBias (i + 1) ss

/-- `MLP.__init__` (`/repo/haiku/_src/nets/mlp.py` 42-83). -/
def MLP.make (outputSizes : List (Option Nat)) (withBias hasBInit : Bool) (activation : Arr K → Arr K) (activateFinal : Bool) (name : String) : Except Err (MLP K) :=
  if withBias = false ∧ hasBInit = true then .error .value
  else .ok ⟨name, makeLayers withBias 0 outputSizes, withBias, hasBInit, activation, activateFinal⟩

/-- Dropout where it is asked for: `hk.dropout(next(rng), dropout_rate, out)` (`/repo/haiku/_src/nets/mlp.py` 114-115). -/
def maybeDropout [Field K] [LinearOrder K] (bern : Bernoulli K) (rng : Option (K × PRNGSeq)) (x : Arr K) : Except Err (Arr K × Option (K × PRNGSeq)) :=
  match rng with
  | none => .ok (x, none)
  | some (rate, seq) =>
    match seq.next with
    | (some k, seq') => do
      let y ← dropout bern k rate x
      .ok (y, some (rate, seq'))
    | (none, _) => .error .value

/-- The loop of `MLP.__call__` (`/repo/haiku/_src/nets/mlp.py` 109-118), from layer `i` on. -/
def runLayers [Field K] [LinearOrder K] (get : ParamFn K) (bern : Bernoulli K) (activation : Arr K → Arr K) (activateFinal : Bool) (numLayers : Nat) :
    Nat → List Linear → Option (K × PRNGSeq) → Arr K → Except Err (Arr K × List Linear)
  | _, [], _, out => .ok (out, [])
  | i, l :: ls, rng, out => do
    let (out, l') ← l.call get out
    if i + 1 < numLayers ∨ activateFinal then
      let (out, rng) ← maybeDropout bern rng out
      let (y, ls') ← runLayers get bern activation activateFinal numLayers (i + 1) ls rng (activation out)
      .ok (y, l' :: ls')
    else
      let (y, ls') ← runLayers get bern activation activateFinal numLayers (i + 1) ls rng out
      .ok (y, l' :: ls')

/-- `MLP.__call__` (`/repo/haiku/_src/nets/mlp.py` 85-118): the output, and the object with the input sizes of its layers set.  Simplification: a call that raises leaves the object
as it was (in Python the layers before the failing one keep their input sizes). -/
def MLP.call [Field K] [LinearOrder K] (get : ParamFn K) (bern : Bernoulli K) (m : MLP K) (x : Arr K) (dropoutRate : Option K) (rng : Option Key) : Except Err (Arr K × MLP K) :=
  match dropoutRate, rng with
  | some _, none => .error .value
  | none, some _ => .error .value
  | none, none => do
    let (y, ls) ← runLayers get bern m.activation m.activateFinal m.layers.length 0 m.layers none x
    .ok (y, { m with layers := ls })
  | some rate, some key => do
    let (y, ls) ← runLayers get bern m.activation m.activateFinal m.layers.length 0 m.layers (some (rate, PRNGSeq.ofKey key)) x
    .ok (y, { m with layers := ls })

/-- `MLP.reverse` (`/repo/haiku/_src/nets/mlp.py` 120-164). -/
def MLP.reverse (m : MLP K) (activateFinal : Option Bool) (name : Option String) : Except Err (MLP K) :=
  MLP.make (m.layers.reverse.map Linear.inputSize) m.withBias m.hasBInit m.activation (activateFinal.getD m.activateFinal) (name.getD (m.name ++ "_reversed"))

end Verif.Mlp
