import Verif.Model.Utils

/-!
# Padding and convolution

Models `/repo/haiku/_src/pad.py` and the parts of `/repo/haiku/_src/conv.py` that decide sizes and which inputs an output reads.
-/

namespace Verif.Conv
open Verif.Shapes (Err)
open Verif.Utils

/-- A padding function (`/repo/haiku/_src/pad.py` 22). -/
abbrev PadFn := Int → Int × Int

/-- `valid` (`/repo/haiku/_src/pad.py` 29-32). -/
def valid : PadFn := fun _ => (0, 0)

/-- `same` (`/repo/haiku/_src/pad.py` 35-37); Python's `//` rounds down. -/
def same : PadFn := fun k => (Int.fdiv (k - 1) 2, Int.fdiv k 2)

/-- `full` (`/repo/haiku/_src/pad.py` 40-42). -/
def full : PadFn := fun k => (k - 1, k - 1)

/-- `causal` (`/repo/haiku/_src/pad.py` 45-47). -/
def causal : PadFn := fun k => (k - 1, 0)

/-- `reverse_causal` (`/repo/haiku/_src/pad.py` 50-52). -/
def reverseCausal : PadFn := fun k => (0, k - 1)

/-- `create` (`/repo/haiku/_src/pad.py` 55-89). -/
def create (padding : Arg PadFn) (kernel rate : Arg Int) (n : Nat) : Except Err (List (Int × Int)) := do
  let ks ← replicate kernel n
  let rs ← replicate rate n
  let effective := List.zipWith (fun kernel rate => (kernel - 1) * rate + 1) ks rs
  let ps ← replicate padding n
  return List.zipWith (fun x y => x y) ps effective

/-- Size of a dimension with `rate - 1` holes between neighbours (`lax`, for `lhs_dilation` and `rhs_dilation` at `/repo/haiku/_src/conv.py` 199-200). -/
def dilate (size rate : Int) : Int := if size = 0 then 0 else (size - 1) * rate + 1

/-- Output size of one spatial dimension of `lax.conv_general_dilated` (called at `/repo/haiku/_src/conv.py` 195-202): `size`, `kernel` are dilated sizes. -/
def outSize (size kernel stride lo hi : Int) : Int := max 0 (Int.fdiv (size + lo + hi - kernel) stride + 1)

/-- The padding that `lax` computes for the strings `"SAME"` (true) and `"VALID"` (`/repo/haiku/_src/conv.py` 198 passes the string through). -/
def stringPad (isSame : Bool) (size kernel stride : Int) : Int × Int :=
  if isSame then
    let out := - Int.fdiv (-size) stride
    let total := max 0 ((out - 1) * stride + kernel - size)
    (Int.fdiv total 2, total - Int.fdiv total 2)
  else (0, 0)

/-- The `padding` of a convolution: an upper-cased string or the result of `pad.create` (`/repo/haiku/_src/conv.py` 143-149). -/
inductive Padding where
  | str (s : List Char)
  | pairs (l : List (Int × Int))
  deriving DecidableEq, Repr

/-- The `padding` argument of `ConvND` (`/repo/haiku/_src/conv.py` 73-74), without the pairs of integers that its documentation allows: `pad.create` calls them (a
`TypeError`). -/
inductive PadArg where
  | str (s : List Char)
  | fns (p : Arg PadFn)

/-- How `ConvND` resolves its padding (`/repo/haiku/_src/conv.py` 143-149). -/
def PadArg.resolve (padding : PadArg) (kernelShape kernelDilation : List Int) (n : Nat) : Except Err Padding :=
  match padding with
  | .str s => .ok (.str (s.map Char.toUpper))
  | .fns p => (create p (.seq kernelShape) (.seq kernelDilation) n).map .pairs

/-- A `ConvND` object (`/repo/haiku/_src/conv.py` 119-149).  `data_format` and `mask` are in `Verif.Model.ConvArr`.  Not modelled: the initialisers
and the dtype. -/
structure ConvND where
  numSpatialDims : Nat
  outputChannels : Nat
  kernelShape : List Int
  stride : List Int
  kernelDilation : List Int
  featureGroupCount : Nat
  padding : Padding
  deriving DecidableEq, Repr

/-- `ConvND.__init__` (`/repo/haiku/_src/conv.py` 118-149). -/
def ConvND.make (numSpatialDims : Int) (outputChannels : Nat) (kernelShape stride rate : Arg Int) (padding : PadArg) (featureGroupCount : Nat := 1) : Except Err ConvND :=
  if numSpatialDims ≤ 0 then .error .value
  else do
    let ks ← replicate kernelShape numSpatialDims
    let ss ← replicate stride numSpatialDims
    let rs ← replicate rate numSpatialDims
    let p ← padding.resolve ks rs numSpatialDims.toNat
    return ⟨numSpatialDims.toNat, outputChannels, ks, ss, rs, featureGroupCount, p⟩

/-- One example of a batch: its spatial sizes, its number of channels, and its elements (`inputs` at `/repo/haiku/_src/conv.py` 151, 195).  Positions outside the sizes
carry no data. -/
structure Image (α : Type) where
  sizes : List Int
  channels : Nat
  val : List Int → Nat → α

/-- `p` lies inside the sizes `ns` (the padding of `lax`, `/repo/haiku/_src/conv.py` 198). -/
def inside : List Int → List Int → Bool
  | [], [] => true
  | n :: ns, p :: ps => decide (0 ≤ p) && decide (p < n) && inside ns ps
  | _, _ => false

/-- Padding reads zero (`lax` at `/repo/haiku/_src/conv.py` 195). -/
def Image.get {α : Type} [Zero α] (x : Image α) (p : List Int) (c : Nat) : α := if inside x.sizes p then x.val p c else 0

/-- All positions of a box in row-major order (the kernel positions that `lax` sums over, `/repo/haiku/_src/conv.py` 195). -/
def indices : List Nat → List (List Nat)
  | [] => [[]]
  | n :: ns => (List.range n).flatMap fun i => (indices ns).map (i :: ·)

/-- The input position that kernel position `j` reads for output position `t` (`lax` at `/repo/haiku/_src/conv.py` 195-202). -/
def tap : List Int → List Int → List (Int × Int) → List Int → List Nat → List Int
  | s :: ss, r :: rs, p :: ps, t :: ts, j :: js => (t * s + j * r - p.1) :: tap ss rs ps ts js
  | _, _, _, _, _ => []

/-- The explicit padding of each dimension (`lax` turns a string into pairs, `/repo/haiku/_src/conv.py` 198); other strings are rejected by `lax`. -/
def ConvND.pads (m : ConvND) (sizes : List Int) : Except Err (List (Int × Int)) :=
  match m.padding with
  | .pairs l => .ok l
  | .str s =>
    let ks := List.zipWith (fun k r => dilate k r) m.kernelShape m.kernelDilation
    if s = "SAME".toList then .ok (List.zipWith (fun nk s => stringPad true nk.1 nk.2 s) (sizes.zip ks) m.stride)
    else if s = "VALID".toList then .ok (List.zipWith (fun nk s => stringPad false nk.1 nk.2 s) (sizes.zip ks) m.stride)
    else .error .value

/-- Output sizes from sizes, dilated kernel sizes, strides and paddings (`lax` at `/repo/haiku/_src/conv.py` 195-202). -/
def outSizes : List Int → List Int → List Int → List (Int × Int) → List Int
  | n :: ns, k :: ks, s :: ss, p :: ps => outSize n k s p.1 p.2 :: outSizes ns ks ss ps
  | _, _, _, _ => []

/-- `lax.conv_general_dilated` and the bias on one example with explicit paddings `ps` and parameters `w` (kernel position, input channel in the group, output channel) and `b`
(`/repo/haiku/_src/conv.py` 195-211). -/
def ConvND.output {α : Type} [Zero α] [Add α] [Mul α] (m : ConvND) (w : List Nat → Nat → Nat → α) (b : Nat → α) (x : Image α) (ps : List (Int × Int)) : Image α :=
  let ks := List.zipWith (fun k r => dilate k r) m.kernelShape m.kernelDilation
  let inGroup := x.channels / m.featureGroupCount
  { sizes := outSizes x.sizes ks m.stride ps
    channels := m.outputChannels
    val := fun t c =>
      let group := c / (m.outputChannels / m.featureGroupCount)
      ((indices (m.kernelShape.map Int.toNat)).map fun j =>
        ((List.range inGroup).map fun ci => w j ci c * x.get (tap m.stride m.kernelDilation ps t j) (group * inGroup + ci)).sum).sum + b c }

/-- `ConvND.__call__` on one example (`/repo/haiku/_src/conv.py` 151-215).  The rank and group checks are lines 163-176; `lax` rejects non-positive strides and
dilations, and negative kernel sizes. -/
def ConvND.call {α : Type} [Zero α] [Add α] [Mul α] (m : ConvND) (w : List Nat → Nat → Nat → α) (b : Nat → α) (x : Image α) : Except Err (Image α) :=
  if x.sizes.length ≠ m.numSpatialDims then .error .value
  else if x.channels % m.featureGroupCount ≠ 0 ∨ m.featureGroupCount = 0 then .error .value
  else if m.stride.any (· ≤ 0) ∨ m.kernelDilation.any (· ≤ 0) ∨ m.kernelShape.any (· < 0) then .error .type
  else (m.pads x.sizes).map (m.output w b x)

/-- `compute_adjusted_padding` (`/repo/haiku/_src/conv.py` 419-452); `padding` is compared as given, not upper-cased. -/
def computeAdjustedPadding (inputSize outputSize kernelSize stride : Int) (padding : List Char) (dilation : Int := 1) : Except Err (Int × Int) :=
  let kernelSize := (kernelSize - 1) * dilation + 1
  let finish (paddingBefore : Int) : Int × Int :=
    let expandedInputSize := (inputSize - 1) * stride + 1
    let paddedOutSize := outputSize + kernelSize - 1
    let padBefore := kernelSize - 1 - paddingBefore
    (padBefore, paddedOutSize - expandedInputSize - padBefore)
  if padding = "VALID".toList then
    if inputSize ≠ Int.fdiv (outputSize - kernelSize + stride) stride then .error .value
    else .ok (finish 0)
  else if padding = "SAME".toList then
    if inputSize ≠ Int.fdiv (outputSize + stride - 1) stride then .error .value
    else .ok (finish (Int.fdiv (max 0 ((inputSize - 1) * stride + kernelSize - outputSize)) 2))
  else .error .value

/-- The paddings of a transposed convolution with `output_shape` (`/repo/haiku/_src/conv.py` 568-573). -/
def adjustedPaddings (padding : List Char) : List Int → List Int → List Int → List Int → Except Err (List (Int × Int))
  | i :: is, o :: os, k :: ks, s :: ss => do
    let p ← computeAdjustedPadding i o k s padding
    let ps ← adjustedPaddings padding is os ks ss
    return p :: ps
  | _, _, _, _ => .ok []

/-- A `ConvNDTranspose` object with an output shape and a padding string (`/repo/haiku/_src/conv.py` 499-526).  Not modelled: as for `ConvND`. -/
structure ConvNDTranspose where
  numSpatialDims : Nat
  kernelShape : List Int
  outputShape : List Int
  stride : List Int
  padding : List Char
  deriving DecidableEq, Repr

/-- `ConvNDTranspose.__init__` with `output_shape` given (`/repo/haiku/_src/conv.py` 497-526). -/
def ConvNDTranspose.make (numSpatialDims : Int) (kernelShape stride outputShape : Arg Int) (padding : List Char) : Except Err ConvNDTranspose :=
  if numSpatialDims ≤ 0 then .error .value
  else do
    let ks ← replicate kernelShape numSpatialDims
    let os ← replicate outputShape numSpatialDims
    let ss ← replicate stride numSpatialDims
    return ⟨numSpatialDims.toNat, ks, os, ss, padding⟩

/-- Output sizes of `lax.conv_transpose` with explicit paddings (`/repo/haiku/_src/conv.py` 575-579): a convolution of stride 1 of the dilated input. -/
def transposedSizes : List Int → List Int → List Int → List (Int × Int) → List Int
  | n :: ns, k :: ks, s :: ss, p :: ps => outSize (dilate n s) k 1 p.1 p.2 :: transposedSizes ns ks ss ps
  | _, _, _, _ => []

/-- Spatial sizes of the result of `ConvNDTranspose.__call__` on an input with spatial sizes `sizes` (`/repo/haiku/_src/conv.py` 528-592); `lax` rejects
non-positive strides and negative kernel sizes. -/
def ConvNDTranspose.sizes (m : ConvNDTranspose) (sizes : List Int) : Except Err (List Int) :=
  if sizes.length ≠ m.numSpatialDims then .error .value
  else do
    let ps ← adjustedPaddings m.padding sizes m.outputShape m.kernelShape m.stride
    if m.stride.any (· ≤ 0) ∨ m.kernelShape.any (· < 0) then .error .type
    else return transposedSizes sizes m.kernelShape m.stride ps

end Verif.Conv
