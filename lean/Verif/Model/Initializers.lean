import Verif.Model.Nd
import Verif.Model.VQ
import Mathlib.Data.Sign.Defs

/-!
# Initializers

Models `/repo/haiku/_src/initializers.py` and the default initializers of `Linear` and the convolutions in exact arithmetic.  Dtypes are not modelled; the square root and the QR decomposition are any functions.
-/

namespace Verif.Initializers
open Verif.Shapes (Err size)
open Verif.Pool (Arr)
open Verif.Nd (zip map broadcastTo)
open Verif.VQ (reshapeTo)

variable {K : Type}

/-- The samplers of `jax.random` (`/repo/haiku/_src/initializers.py` 82, 102, 121, 257): any functions of key, shape and position.  `uniform` is the sample before it is scaled to the bounds, and
`truncated` is the sample for the bounds -2 and 2. -/
structure Rand (K : Type) where
  normal : Key → List Nat → List Nat → K
  truncated : Key → List Nat → List Nat → K
  uniform : Key → List Nat → List Nat → K

/-- An initializer called with a shape (`/repo/haiku/_src/typing.py` 29) while `hk.next_rng_key` draws from the given sequence of keys: the array and the sequence afterwards. -/
abbrev Init (K : Type) := List Nat → PRNGSeq → Except Err (Arr K × PRNGSeq)

/-- `hk.next_rng_key()` (`/repo/haiku/_src/base.py` 602-619). -/
def nextKey (seq : PRNGSeq) : Except Err (Key × PRNGSeq) :=
  match seq.next with
  | (some k, seq) => .ok (k, seq)
  | (none, _) => .error .index

/-- `_compute_fans` (`/repo/haiku/_src/initializers.py` 34-48). -/
def computeFans (shape : List Nat) : Nat × Nat :=
  match shape with
  | [] => (1, 1)
  | [n] => (n, n)
  | [m, n] => (m, n)
  | _ =>
    let field := size (shape.take (shape.length - 2))
    (shape.getD (shape.length - 2) 0 * field, shape.getD (shape.length - 1) 0 * field)

/-- `Constant` (`/repo/haiku/_src/initializers.py` 51-63). -/
def constant (c : Arr K) : Init K := fun shape seq => do
  let y ← broadcastTo c shape
  .ok (y, seq)

/-- `RandomNormal` (`/repo/haiku/_src/initializers.py` 66-82). -/
def randomNormal [Field K] (rand : Rand K) (stddev mean : K) : Init K := fun shape seq => do
  let (k, seq) ← nextKey seq
  .ok (⟨shape, fun i => mean + stddev * rand.normal k shape i⟩, seq)

/-- `TruncatedNormal` (`/repo/haiku/_src/initializers.py` 85-104). -/
def truncatedNormal [Field K] (rand : Rand K) (stddev mean : K) : Init K := fun shape seq => do
  let (k, seq) ← nextKey seq
  .ok (⟨shape, fun i => stddev * rand.truncated k shape i + mean⟩, seq)

/-- `RandomUniform` (`/repo/haiku/_src/initializers.py` 107-122); `jax.random.uniform` scales a sample between 0 and 1. -/
def randomUniform [Field K] [LinearOrder K] (rand : Rand K) (minval maxval : K) : Init K := fun shape seq => do
  let (k, seq) ← nextKey seq
  .ok (⟨shape, fun i => max minval (rand.uniform k shape i * (maxval - minval) + minval)⟩, seq)

/-- A `VarianceScaling` object (`/repo/haiku/_src/initializers.py` 174-176). -/
structure VarianceScaling (K : Type) where
  scale : K
  mode : List Char
  distribution : List Char
  deriving DecidableEq

/-- `VarianceScaling.__init__` (`/repo/haiku/_src/initializers.py` 158-176). -/
def VarianceScaling.make [Field K] [LinearOrder K] (scale : K) (mode distribution : List Char) : Except Err (VarianceScaling K) :=
  if scale < 0 then .error .value
  else if mode ∉ ["fan_in".toList, "fan_out".toList, "fan_avg".toList] then .error .value
  else
    let distribution := distribution.map Char.toLower
    if distribution ∉ ["normal".toList, "truncated_normal".toList, "uniform".toList] then .error .value
    else .ok ⟨scale, mode, distribution⟩

/-- The scale of `VarianceScaling.__call__` (`/repo/haiku/_src/initializers.py` 179-186). -/
def VarianceScaling.factor [Field K] [LinearOrder K] (v : VarianceScaling K) (shape : List Nat) : K :=
  let (fanIn, fanOut) := computeFans shape
  if v.mode = "fan_in".toList then v.scale / max 1 (fanIn : K)
  else if v.mode = "fan_out".toList then v.scale / max 1 (fanOut : K)
  else v.scale / max 1 (((fanIn + fanOut : Nat) : K) / 2)

/-- `VarianceScaling.__call__` (`/repo/haiku/_src/initializers.py` 178-200). -/
def VarianceScaling.call [Field K] [LinearOrder K] (rand : Rand K) (sqrt : K → K) (v : VarianceScaling K) : Init K := fun shape seq =>
  let scale := v.factor shape
  if v.distribution = "truncated_normal".toList then truncatedNormal rand (sqrt scale / (87962566103423978 / 100000000000000000)) 0 shape seq
  else if v.distribution = "normal".toList then randomNormal rand (sqrt scale) 0 shape seq
  else
    let limit := sqrt (3 * scale)
    randomUniform rand (-limit) limit shape seq

/-- `UniformScaling` (`/repo/haiku/_src/initializers.py` 203-222).  Simplification: without inputs the bound is 0 instead of infinite; the array has no elements then. -/
def uniformScaling [Field K] [LinearOrder K] (rand : Rand K) (sqrt : K → K) (scale : K) : Init K := fun shape seq =>
  let inputSize := size shape.dropLast
  let maxVal := sqrt (3 / (inputSize : K)) * scale
  randomUniform rand (-maxVal) maxVal shape seq

/-- An axis of a shape (`shape[self.axis]`, `/repo/haiku/_src/initializers.py` 254): negative axes count from the end; an axis out of range is an `IndexError`. -/
def axisIndex (ndim : Nat) (axis : Int) : Except Err Nat :=
  if -(ndim : Int) ≤ axis ∧ axis < ndim then .ok (if axis < 0 then axis + ndim else axis).toNat else .error .index

/-- `jnp.moveaxis(x, 0, a)` to a shape (`/repo/haiku/_src/initializers.py` 264). -/
def moveFirst (x : Arr K) (shape : List Nat) (a : Nat) : Arr K := ⟨shape, fun i => x.val (i.getD a 0 :: i.eraseIdx a)⟩

/-- `q_mat.T` (`/repo/haiku/_src/initializers.py` 262). -/
def transpose (x : Arr K) : Arr K := ⟨x.shape.reverse, fun i => x.val i.reverse⟩

/-- `Orthogonal` (`/repo/haiku/_src/initializers.py` 225-265).  `jnp.sign` is 1, 0 or -1.  Simplification: a shape with size 0 along the axis is an error. -/
def orthogonal [Field K] [LinearOrder K] (rand : Rand K) (qr : Arr K → Arr K × Arr K) (scale : K) (axis : Int) : Init K := fun shape seq =>
  if shape.length < 2 then .error .value
  else do
    let a ← axisIndex shape.length axis
    let nRows := shape.getD a 0
    if nRows = 0 then .error .zeroDivision
    else
      let nCols := size shape / nRows
      let matrixShape := if nCols < nRows then [nRows, nCols] else [nCols, nRows]
      let (k, seq) ← nextKey seq
      let (q, r) := qr ⟨matrixShape, rand.normal k matrixShape⟩
      let q : Arr K := ⟨q.shape, fun i => q.val i * (SignType.sign (r.val [i.getLastD 0, i.getLastD 0]) : K)⟩
      let q := if nRows < nCols then transpose q else q
      let q ← reshapeTo q (nRows :: shape.eraseIdx a)
      .ok (map (scale * ·) (moveFirst q shape a), seq)

/-- `jnp.eye(n, m)` (`/repo/haiku/_src/initializers.py` 287). -/
def eye [Field K] (n m : Nat) : Arr K := ⟨[n, m], fun i => if i.getD 0 0 = i.getD 1 0 then 1 else 0⟩

/-- `Identity` (`/repo/haiku/_src/initializers.py` 268-291).  Broadcasting to the same shape changes nothing. -/
def identity [Field K] (gain : Arr K) : Init K := fun shape seq =>
  if shape.length < 2 then .error .value
  else do
    let e ← broadcastTo (eye (shape.getD (shape.length - 2) 0) (shape.getD (shape.length - 1) 0)) shape
    let y ← zip (· * ·) gain e
    .ok (y, seq)

/-- The default initializer of the weights of `Linear` (`/repo/haiku/_src/basic.py` 168-172), of convolutions (`/repo/haiku/_src/conv.py` 186-190) and of depthwise convolutions
(`/repo/haiku/_src/depthwise_conv.py` 109-113). -/
def defaultWeights [Field K] (rand : Rand K) (sqrt : K → K) : Init K := fun shape seq => truncatedNormal rand (1 / sqrt (size shape.dropLast : K)) 0 shape seq

end Verif.Initializers
