import Verif.Model.Bias
import Verif.Model.Norm

/-!
# Adding a bias

Models `Bias` of `/repo/haiku/_src/bias.py` in exact arithmetic.  Dtypes are not modelled.
-/

namespace Verif.Bias
open Verif.Shapes (Err)
open Verif.Pool (Arr)
open Verif.Mlp (ParamFn getParameter)
open Verif.Nd (zip broadcastTo)

variable {K : Type}

/-- The argument `output_size` (`/repo/haiku/_src/bias.py` 75): in Python a list is never equal to a tuple. -/
inductive OutputSize where
  | tuple (l : List Nat)
  | list (l : List Nat)
  deriving DecidableEq

/-- A `Bias` object (`/repo/haiku/_src/bias.py` 93-97).  The initializer only matters to `get_parameter`. -/
structure Bias where
  name : String
  outputSize : Option OutputSize
  biasDims : Option (List Int)

/-- The check of the output size (`/repo/haiku/_src/bias.py` 118-120).  The message for a list raises itself: `(-1,) + self.output_size` is a `TypeError`. -/
def checkSize : Option OutputSize → List Nat → Except Err Unit
  | none, _ => .ok ()
  | some (.tuple l), s => if l = s then .ok () else .error .value
  | some (.list _), _ => .error .type

/-- `Bias.__call__` (`/repo/haiku/_src/bias.py` 99-131).  A scalar multiplier is an array of rank 0. -/
def Bias.call [Field K] (get : ParamFn K) (m : Bias) (x : Arr K) (multiplier : Option (Arr K)) : Except Err (Arr K) :=
  if x.shape.length < 2 then .error .value
  else do
    checkSize m.outputSize (x.shape.drop 1)
    let s ← calculateBiasShape x.shape m.biasDims
    let b ← getParameter get m.name "b" s
    let b ← broadcastTo b x.shape
    let b ← match multiplier with
      | none => .ok b
      | some v => zip (· * ·) b v
    zip (· + ·) x b

end Verif.Bias
