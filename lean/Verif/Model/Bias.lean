import Verif.Model.Shapes

/-!
# Shape of a bias

Models `calculate_bias_shape` of `/repo/haiku/_src/bias.py`.
-/

namespace Verif.Bias
open Verif.Shapes (Err)

/-- The loop over `bias_dims` (`/repo/haiku/_src/bias.py` 163-174). -/
def populate (inputShape : List Nat) : List Int → List Nat → Except Err (List Nat)
  | [], biasShape => .ok biasShape
  | dim :: dims, biasShape =>
    let rank : Int := inputShape.length
    if dim < 0 ∧ rank = 0 then .error .zeroDivision else
    let dim := if dim < 0 then Int.fmod dim rank else dim
    if dim = 0 then .error .value
    else if rank ≤ dim then .error .value
    else populate inputShape dims (biasShape.set dim.toNat (inputShape.getD dim.toNat 0))

/-- The loop that looks for the first dimension from 1 on that is not 1 (`/repo/haiku/_src/bias.py` 176-180). -/
def stripStart (biasShape : List Nat) (rank : Nat) : Nat := ((List.range' 1 (rank - 1)).find? fun d => biasShape.getD d 0 ≠ 1).getD rank

/-- `calculate_bias_shape` (`/repo/haiku/_src/bias.py` 134-181). -/
def calculateBiasShape (inputShape : List Nat) (biasDims : Option (List Int)) : Except Err (List Nat) :=
  match biasDims with
  | none => .ok (inputShape.drop 1)
  | some [] => .ok []
  | some dims => do
    let rank := inputShape.length
    let biasShape ← populate inputShape dims (List.replicate rank 1)
    return biasShape.drop (stripStart biasShape rank)

end Verif.Bias
