/-!
# Shapes: reshaping and batch application

Models `/repo/haiku/_src/reshape.py` and `BatchApply` in `/repo/haiku/_src/basic.py`.  An array is its shape and its elements in row-major order,
which is how `jnp.reshape` sees it.
-/

namespace Verif.Shapes

variable {α : Type}

/-- Python exceptions by class (`ValueError` at `/repo/haiku/_src/reshape.py` 98, `TypeError` of `jnp.reshape` at 117, `AssertionError` at
`/repo/haiku/_src/pool.py` 49, `ZeroDivisionError` of `%` at `/repo/haiku/_src/bias.py` 165, `IndexError` and `AttributeError` at `/repo/haiku/_src/embed.py` 112, 154,
`NameError` at `/repo/haiku/_src/spectral_norm.py` 138). -/
inductive Err where
  | value
  | type
  | assertion
  | zeroDivision
  | index
  | attribute
  | name
  deriving DecidableEq, Repr

/-- An array: shape and elements in row-major order (arguments of `jnp.reshape`, `/repo/haiku/_src/reshape.py` 117). -/
structure Tensor (α : Type) where
  shape : List Nat
  data : List α
  deriving DecidableEq, Repr

/-- Number of elements of a shape (`np.prod`, `/repo/haiku/_src/reshape.py` 42). -/
def size : List Nat → Nat
  | [] => 1
  | d :: ds => d * size ds

/-- `np.prod` of signed entries (`/repo/haiku/_src/reshape.py` 45). -/
def prodInt : List Int → Int
  | [] => 1
  | d :: ds => d * prodInt ds

/-- `jnp.reshape(x, shape)` for a shape without `-1` (as called at `/repo/haiku/_src/reshape.py` 117, `/repo/haiku/_src/basic.py` 209, 214): negative entries and
a different number of elements are errors.  Simplification: sizes do not overflow. -/
def reshape (x : Tensor α) (shape : List Int) : Except Err (Tensor α) :=
  if shape.any (· < 0) then .error .type
  else if prodInt shape = size x.shape then .ok ⟨shape.map Int.toNat, x.data⟩
  else .error .type

/-- `n // m` on numpy integers: 0 when dividing by 0 (`/repo/haiku/_src/reshape.py` 47). -/
def npDiv (n m : Nat) : Nat := if m = 0 then 0 else n / m

/-- `_infer_shape` (`/repo/haiku/_src/reshape.py` 30-48). -/
def inferShape (outputShape : List Int) (dimensions : List Nat) : List Int :=
  let n := size dimensions
  let m := (prodInt outputShape).natAbs
  outputShape.map fun d => if d = -1 then (npDiv n m : Int) else d

/-- An `hk.Reshape` object (`/repo/haiku/_src/reshape.py` 103-104). -/
structure Reshape where
  outputShape : List Int
  preserveDims : Nat
  deriving DecidableEq, Repr

/-- `Reshape.__init__` (`/repo/haiku/_src/reshape.py` 77-104). -/
def Reshape.make (outputShape : List Int) (preserveDims : Int) : Except Err Reshape :=
  if preserveDims ≤ 0 then .error .value
  else if outputShape.count (-1) > 1 then .error .value
  else .ok ⟨outputShape, preserveDims.toNat⟩

/-- `Reshape.__call__` (`/repo/haiku/_src/reshape.py` 106-117). -/
def Reshape.call (r : Reshape) (x : Tensor α) : Except Err (Tensor α) :=
  if x.shape.length ≤ r.preserveDims then .ok x
  else
    let reshaped := if (-1) ∈ r.outputShape then inferShape r.outputShape (x.shape.drop r.preserveDims) else r.outputShape
    reshape x ((x.shape.take r.preserveDims).map Int.ofNat ++ reshaped)

/-- `Flatten.__init__` (`/repo/haiku/_src/reshape.py` 139-148). -/
def Flatten.make (preserveDims : Int) : Except Err Reshape := Reshape.make [-1] preserveDims

/-! ### `BatchApply` -/

/-- `merge_leading_dims` (`/repo/haiku/_src/basic.py` 201-209).  The product of no dimensions is the float `1.0`, which is not a valid size.
Simplification: the number of dimensions is not negative. -/
def mergeLeadingDims (x : Tensor α) (numDims : Nat) : Except Err (Tensor α) :=
  if numDims ≤ x.shape.length then
    if numDims = 0 then .error .type
    else reshape x ((size (x.shape.take numDims) : Int) :: (x.shape.drop numDims).map Int.ofNat)
  else .ok x

/-- `split_leading_dim` (`/repo/haiku/_src/basic.py` 212-214). -/
def splitLeadingDim (x : Tensor α) (toDim : List Nat) : Except Err (Tensor α) :=
  reshape x ((toDim ++ x.shape.drop 1).map Int.ofNat)

/-- `arbitrary_mergeable_leaf` (`/repo/haiku/_src/basic.py` 190-198): positional arguments come before keyword arguments. -/
def mergeableLeaf (numDims : Nat) (args kwargs : List (Tensor α)) : Option (Tensor α) :=
  (args ++ kwargs).find? fun x => decide (numDims ≤ x.shape.length)

/-- `BatchApply.__call__` (`/repo/haiku/_src/basic.py` 244-257) on the leaves of the arguments; `f` gives the leaves of its result. -/
def batchApply (f : List (Tensor α) → List (Tensor α) → Except Err (List (Tensor α))) (numDims : Nat) (args kwargs : List (Tensor α)) :
    Except Err (List (Tensor α)) :=
  match mergeableLeaf numDims args kwargs with
  | none => .error .value
  | some ex => do
    let args ← args.mapM fun x => mergeLeadingDims x numDims
    let kwargs ← kwargs.mapM fun x => mergeLeadingDims x numDims
    let out ← f args kwargs
    out.mapM fun x => splitLeadingDim x (ex.shape.take numDims)

end Verif.Shapes
