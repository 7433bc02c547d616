import Verif.Model.Cores

/-!
# Convolutions of arrays

Models `ConvND.__call__` of `/repo/haiku/_src/conv.py` on whole arrays with both data formats, masks, biases and unbatched inputs, `/repo/haiku/_src/depthwise_conv.py`, and `ConvNDLSTM` of
`/repo/haiku/_src/recurrent.py`, in exact arithmetic.  Dtypes and initializers are not modelled.
-/

namespace Verif.ConvArr
open Verif.Shapes (Err)
open Verif.Pool (Arr)
open Verif.Utils
open Verif.Mlp (ParamFn getParameter)
open Verif.Conv (ConvND Padding PadArg Image dilate stringPad outSizes indices tap)
open Verif.Nd (zip map broadcastTo)
open Verif.Cores (columns)

variable {K : Type}

/-- `lax.ConvDimensionNumbers`: for an image the axes of the batch, of the channels and of the spatial dimensions, for a kernel those of the output channels, of the input channels and of the spatial
dimensions (`/repo/haiku/_src/conv.py` 58-59). -/
structure DimNums where
  lhs : List Nat
  rhs : List Nat
  out : List Nat
  deriving DecidableEq, Repr

/-- `to_dimension_numbers` (`/repo/haiku/_src/conv.py` 38-59). -/
def toDimensionNumbers (numSpatialDims : Nat) (channelsLast transpose : Bool) : DimNums :=
  let numDims := numSpatialDims + 2
  let imageDn := if channelsLast then [0, numDims - 1] ++ List.range' 1 (numDims - 2) else [0, 1] ++ List.range' 2 (numDims - 2)
  let kernelDn := if transpose then [numDims - 2, numDims - 1] ++ List.range (numDims - 2) else [numDims - 1, numDims - 2] ++ List.range (numDims - 2)
  ⟨imageDn, kernelDn, imageDn⟩

/-- The sizes or the position along the axes that `spec` lists (`lax` at `/repo/haiku/_src/conv.py` 195). -/
def pick (spec l : List Nat) : List Nat := spec.map (l.getD · 0)

/-- The inverse of `pick`: sizes or a position given in the order of `spec`, put in the order of the axes (`lax` at `/repo/haiku/_src/conv.py` 195). -/
def place (spec l : List Nat) : List Nat := (List.range spec.length).map fun axis => l.getD (spec.idxOf axis) 0

/-- The padding in each dimension for an input of spatial sizes `sizes` and a dilated kernel of sizes `ks` (`lax` at `/repo/haiku/_src/conv.py` 198 and `/repo/haiku/_src/depthwise_conv.py` 119): `lax`
turns strings to upper case. -/
def laxPads (padding : Padding) (sizes ks strides : List Int) : Except Err (List (Int × Int)) :=
  match padding with
  | .pairs l => if l.length = sizes.length then .ok l else .error .type
  | .str s =>
    if s.map Char.toUpper = "SAME".toList then .ok (List.zipWith (fun nk s => stringPad true nk.1 nk.2 s) (sizes.zip ks) strides)
    else if s.map Char.toUpper = "VALID".toList then .ok (List.zipWith (fun nk s => stringPad false nk.1 nk.2 s) (sizes.zip ks) strides)
    else .error .value

/-- One example of an array laid out as `spec` says (`lax` at `/repo/haiku/_src/conv.py` 195). -/
def exampleOf (spec : List Nat) (x : Arr K) (n : Nat) : Image K :=
  ⟨((pick spec x.shape).drop 2).map Int.ofNat, (pick spec x.shape).getD 1 0, fun p c => x.val (place spec (n :: c :: p.map Int.toNat))⟩

/-- `lax.conv_general_dilated` without `lhs_dilation` (`/repo/haiku/_src/conv.py` 195-202, `/repo/haiku/_src/depthwise_conv.py` 115-123).  The ranks have to agree, strides and dilations to be positive, and the
channels to fit the groups. -/
def convGeneralDilated [AddCommMonoid K] [Mul K] (lhs rhs : Arr K) (strides : List Int) (padding : Padding) (rhsDilation : List Int) (dn : DimNums) (groups : Nat) : Except Err (Arr K) :=
  if lhs.shape.length ≠ strides.length + 2 ∨ rhs.shape.length ≠ strides.length + 2 ∨ rhsDilation.length ≠ strides.length then .error .type
  else if strides.any (· ≤ 0) ∨ rhsDilation.any (· ≤ 0) then .error .type
  else
    let l := pick dn.lhs lhs.shape
    let r := pick dn.rhs rhs.shape
    let inGroup := r.getD 1 0
    let outChannels := r.getD 0 0
    if groups = 0 ∨ l.getD 1 0 ≠ inGroup * groups ∨ outChannels % groups ≠ 0 then .error .value
    else do
      let sizes := (l.drop 2).map Int.ofNat
      let kernel := r.drop 2
      let ks := List.zipWith (fun k r => dilate k r) (kernel.map Int.ofNat) rhsDilation
      let ps ← laxPads padding sizes ks strides
      .ok ⟨place dn.out (l.getD 0 0 :: outChannels :: (outSizes sizes ks strides ps).map Int.toNat), fun i =>
        let t := pick dn.out i
        let c := t.getD 1 0
        let group := c / (outChannels / groups)
        ((indices kernel).map fun j => ((List.range inGroup).map fun ci =>
          rhs.val (place dn.rhs (c :: ci :: j)) * (exampleOf dn.lhs lhs (t.getD 0 0)).get (tap strides rhsDilation ps ((t.drop 2).map Int.ofNat) j) (group * inGroup + ci)).sum).sum⟩

/-- `b = jnp.broadcast_to(b, out.shape); out = out + b` for a bias with one element per channel (`/repo/haiku/_src/conv.py` 204-211, `/repo/haiku/_src/depthwise_conv.py` 125-132). -/
def biased [Add K] (get : ParamFn K) (module : String) (withBias : Bool) (shape : List Nat) (out : Arr K) : Except Err (Arr K) :=
  if withBias then do
    let b ← getParameter get module "b" shape
    let b ← broadcastTo b out.shape
    zip (· + ·) out b
  else .ok out

/-- A `ConvND` object (`/repo/haiku/_src/conv.py` 119-149). -/
structure Module (K : Type) where
  name : String
  conv : ConvND
  channelIndex : Int
  dn : DimNums
  withBias : Bool
  mask : Option (Arr K)

/-- `ConvND.__init__` (`/repo/haiku/_src/conv.py` 118-149).  Simplification: an unknown data format is reported after a bad padding. -/
def Module.make (name : String) (numSpatialDims : Int) (outputChannels : Nat) (kernelShape stride rate : Arg Int) (padding : PadArg) (withBias : Bool) (dataFormat : List Char) (mask : Option (Arr K))
    (featureGroupCount : Nat) : Except Err (Module K) := do
  let conv ← ConvND.make numSpatialDims outputChannels kernelShape stride rate padding featureGroupCount
  let channelIndex ← getChannelIndex dataFormat
  .ok ⟨name, conv, channelIndex, toDimensionNumbers numSpatialDims.toNat (channelIndex == -1) false, withBias, mask⟩

/-- `inputs.shape[channel_index]` (`/repo/haiku/_src/conv.py` 172, `/repo/haiku/_src/depthwise_conv.py` 106); an index out of range is an `IndexError`. -/
def channels (x : Arr K) (channelIndex : Int) : Except Err Nat :=
  if channelIndex = -1 then
    match x.shape.getLast? with
    | none => .error .index
    | some c => .ok c
  else
    match x.shape[1]? with
    | none => .error .index
    | some c => .ok c

/-- `w *= self.mask` (`/repo/haiku/_src/conv.py` 192-193). -/
def masked [Mul K] (mask : Option (Arr K)) (w : Arr K) : Except Err (Arr K) :=
  match mask with
  | none => .ok w
  | some mask => zip (· * ·) w mask

/-- `ConvND.__call__` from the check of the groups on (`/repo/haiku/_src/conv.py` 172-211).  A `%` by zero is a `ZeroDivisionError`; negative kernel sizes are rejected by the initializer. -/
def Module.batched [AddCommMonoid K] [Mul K] (get : ParamFn K) (m : Module K) (x : Arr K) : Except Err (Arr K) := do
  let c ← channels x m.channelIndex
  if m.conv.featureGroupCount = 0 then .error .zeroDivision
  else if c % m.conv.featureGroupCount ≠ 0 then .error .value
  else if m.conv.kernelShape.any (· < 0) then .error .type
  else
    let wShape := m.conv.kernelShape.map Int.toNat ++ [c / m.conv.featureGroupCount, m.conv.outputChannels]
    if m.mask.any (·.shape ≠ wShape) then .error .value
    else do
      let w ← getParameter get m.name "w" wShape
      let w ← masked m.mask w
      let out ← convGeneralDilated x w m.conv.stride m.conv.padding m.conv.kernelDilation m.dn m.conv.featureGroupCount
      let biasShape := if m.channelIndex = -1 then [m.conv.outputChannels] else m.conv.outputChannels :: List.replicate m.conv.numSpatialDims 1
      biased get m.name m.withBias biasShape out

/-- `ConvND.__call__` (`/repo/haiku/_src/conv.py` 151-215): an input without batch axis gets one that is removed from the result. -/
def Module.call [AddCommMonoid K] [Mul K] (get : ParamFn K) (m : Module K) (x : Arr K) : Except Err (Arr K) :=
  let unbatchedRank := m.conv.numSpatialDims + 1
  if x.shape.length ≠ unbatchedRank ∧ x.shape.length ≠ unbatchedRank + 1 then .error .value
  else if x.shape.length = unbatchedRank then do
    let y ← m.batched get ⟨1 :: x.shape, fun i => x.val i.tail⟩
    .ok ⟨y.shape.tail, fun i => y.val (0 :: i)⟩
  else m.batched get x

/-- The dimension numbers that `lax` reads from a string for an image (`"NHWC"`, `"NCHW"`) and one for a kernel (`"HWIO"`) (`/repo/haiku/_src/depthwise_conv.py` 36-46): spatial axes in the order of the
kernel. -/
def parseDimensionNumbers (image kernel : List Char) : DimNums :=
  let spatial := kernel.filter fun c => c ≠ 'O' ∧ c ≠ 'I'
  let lhs := [image.idxOf 'N', image.idxOf 'C'] ++ spatial.map (image.idxOf ·)
  ⟨lhs, [kernel.idxOf 'O', kernel.idxOf 'I'] ++ spatial.map (kernel.idxOf ·), lhs⟩

/-- A `DepthwiseConv2D` object (`/repo/haiku/_src/depthwise_conv.py` 85-101); its dilations are 1. -/
structure Depthwise where
  name : String
  channelMultiplier : Nat
  kernelShape : List Int
  stride : List Int
  padding : Padding
  channelIndex : Int
  dn : DimNums
  withBias : Bool
  deriving DecidableEq, Repr

/-- `DepthwiseConv2D.__init__` (`/repo/haiku/_src/depthwise_conv.py` 53-101); the padding is passed to `lax` as it is. -/
def Depthwise.make (name : String) (channelMultiplier : Nat) (kernelShape stride : Arg Int) (padding : Padding) (withBias : Bool) (dataFormat : List Char) : Except Err Depthwise := do
  let ks ← replicate kernelShape 2
  let ss ← replicate stride 2
  let channelIndex ← getChannelIndex dataFormat
  let dn := if channelIndex = -1 then parseDimensionNumbers "NHWC".toList "HWIO".toList else parseDimensionNumbers "NCHW".toList "HWIO".toList
  .ok ⟨name, channelMultiplier, ks, ss, padding, channelIndex, dn, withBias⟩

/-- `DepthwiseConv2D.__call__` (`/repo/haiku/_src/depthwise_conv.py` 103-134); negative kernel sizes are rejected by the initializer. -/
def Depthwise.call [AddCommMonoid K] [Mul K] (get : ParamFn K) (m : Depthwise) (x : Arr K) : Except Err (Arr K) := do
  let c ← channels x m.channelIndex
  if m.kernelShape.any (· < 0) then .error .type
  else do
    let w ← getParameter get m.name "w" (m.kernelShape.map Int.toNat ++ [1, m.channelMultiplier * c])
    let out ← convGeneralDilated x w m.stride m.padding [1, 1] m.dn c
    biased get m.name m.withBias (if m.channelIndex = -1 then [m.channelMultiplier * c] else [m.channelMultiplier * c, 1, 1]) out

/-- A `SeparableDepthwiseConv2D` object (`/repo/haiku/_src/depthwise_conv.py` 172-192). -/
structure Separable where
  conv1 : Depthwise
  conv2 : Depthwise
  deriving DecidableEq, Repr

/-- `SeparableDepthwiseConv2D.__init__` (`/repo/haiku/_src/depthwise_conv.py` 140-192); `name1` and `name2` are the names of the two modules. -/
def Separable.make (name1 name2 : String) (channelMultiplier : Nat) (kernelShape stride : Arg Int) (padding : Padding) (withBias : Bool) (dataFormat : List Char) : Except Err Separable := do
  let ks ← replicate kernelShape 2
  let conv1 ← Depthwise.make name1 channelMultiplier (.seq [ks.getD 0 0, 1]) stride padding false dataFormat
  let conv2 ← Depthwise.make name2 1 (.seq [1, ks.getD 1 0]) (.scalar 1) padding withBias dataFormat
  .ok ⟨conv1, conv2⟩

/-- `SeparableDepthwiseConv2D.__call__` (`/repo/haiku/_src/depthwise_conv.py` 194-195). -/
def Separable.call [AddCommMonoid K] [Mul K] (get : ParamFn K) (m : Separable) (x : Arr K) : Except Err (Arr K) := do
  let y ← m.conv1.call get x
  m.conv2.call get y

/-- A `ConvNDLSTM` object (`/repo/haiku/_src/recurrent.py` 367-371). -/
structure ConvLSTM where
  name : String
  numSpatialDims : Nat
  inputShape : List Nat
  outputChannels : Nat
  kernelShape : Arg Int

/-- One of the two convolutions made in `ConvNDLSTM.__call__` (`/repo/haiku/_src/recurrent.py` 378-388): stride, rate, padding, bias and data format are the defaults of `ConvND`
(`/repo/haiku/_src/conv.py` 70-78). -/
def ConvLSTM.part (m : ConvLSTM) (name : String) : Except Err (Module K) :=
  Module.make (m.name ++ name) m.numSpatialDims (4 * m.outputChannels) m.kernelShape (.scalar 1) (.scalar 1) (.str "SAME".toList) true "channels_last".toList none 1

/-- `ConvNDLSTM.__call__` (`/repo/haiku/_src/recurrent.py` 373-396): the next hidden state, which is also the output, and the next cell state. -/
def ConvLSTM.call [Field K] (get : ParamFn K) (sigmoid tanh : K → K) (m : ConvLSTM) (x h c : Arr K) : Except Err (Arr K × Arr K) := do
  let inputToHidden ← m.part "/input_to_hidden"
  let hiddenToHidden ← m.part "/hidden_to_hidden"
  let a ← inputToHidden.call get x
  let b ← hiddenToHidden.call get h
  let gates ← zip (· + ·) a b
  let i := columns 0 m.outputChannels gates
  let g := columns m.outputChannels m.outputChannels gates
  let f := columns (2 * m.outputChannels) m.outputChannels gates
  let o := columns (3 * m.outputChannels) m.outputChannels gates
  let f := map (fun v => sigmoid (v + 1)) f
  let fc ← zip (· * ·) f c
  let ig ← zip (· * ·) (map sigmoid i) (map tanh g)
  let c ← zip (· + ·) fc ig
  let h ← zip (· * ·) (map sigmoid o) (map tanh c)
  .ok (h, c)

/-- `ConvNDLSTM.initial_state` (`/repo/haiku/_src/recurrent.py` 398-403): hidden and cell state. -/
def ConvLSTM.initialState [Zero K] (m : ConvLSTM) (batchSize : Option Nat) : Arr K × Arr K :=
  let z : Arr K := ⟨batchSize.toList ++ (m.inputShape ++ [m.outputChannels]), fun _ => 0⟩
  (z, z)

end Verif.ConvArr
