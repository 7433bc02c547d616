import Verif.Model.Conv

/-!
# Values of a transposed convolution

Models `ConvNDTranspose.__call__` of `/repo/haiku/_src/conv.py` with `output_shape`, on one example.
-/

namespace Verif.Conv
open Verif.Shapes (Err)

/-- The input position that is at a position of the input dilated by the strides, if that is not a hole (`lax.conv_transpose` at `/repo/haiku/_src/conv.py` 575-579 passes the strides as `lhs_dilation`). -/
def undilate : List Int → List Int → Option (List Int)
  | s :: ss, p :: ps => if p % s = 0 then (undilate ss ps).map (p / s :: ·) else none
  | _, _ => some []

/-- An element of the dilated and padded input (`lax.conv_transpose` at `/repo/haiku/_src/conv.py` 575-579). -/
def Image.getDilated {α : Type} [Zero α] (x : Image α) (stride : List Int) (p : List Int) (c : Nat) : α :=
  match undilate stride p with
  | none => 0
  | some q => x.get q c

/-- `ConvNDTranspose.__call__` on one example with `output_shape` given (`/repo/haiku/_src/conv.py` 528-592), with parameters `w` (kernel position, output channel, input channel: `w_shape` at line 551 and the dimension numbers
at line 54) and `b`.  `lax.conv_transpose` does not flip the kernel.  Not modelled: `mask`. -/
def ConvNDTranspose.call {α : Type} [Zero α] [Add α] [Mul α] (m : ConvNDTranspose) (outputChannels : Nat) (w : List Nat → Nat → Nat → α) (b : Nat → α) (x : Image α) : Except Err (Image α) :=
  if x.sizes.length ≠ m.numSpatialDims then .error .value
  else do
    let ps ← adjustedPaddings m.padding x.sizes m.outputShape m.kernelShape m.stride
    if m.stride.any (· ≤ 0) ∨ m.kernelShape.any (· < 0) then .error .type
    else .ok { sizes := transposedSizes x.sizes m.kernelShape m.stride ps
               channels := outputChannels
               val := fun t c => ((indices (m.kernelShape.map Int.toNat)).map fun j =>
                 ((List.range x.channels).map fun ci => w j c ci * x.getDilated m.stride (tap (List.replicate m.numSpatialDims 1) (List.replicate m.numSpatialDims 1) ps t j) ci).sum).sum + b c }

end Verif.Conv
