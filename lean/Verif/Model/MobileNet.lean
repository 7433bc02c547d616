import Verif.Model.ResNet

/-!
# MobileNetV1

Models `/repo/haiku/_src/nets/mobilenetv1.py` on the models of convolutions, batch normalisation and linear layers, in exact arithmetic.  Parameters are what `hk.get_parameter` gives; dtypes and initializers are not modelled.
-/

namespace Verif.MobileNet
open Verif.Shapes (Err)
open Verif.Pool (Arr)
open Verif.Mlp (ParamFn Linear)
open Verif.ConvArr (Module Depthwise)
open Verif.Norm (BatchNorm)
open Verif.ResNet (States runBn relu spatialMean index)

variable {K : Type}

/-- The name of the `n`-th module, counted from 0, that is made with the same name in one call (`unique_and_canonical_name` at `/repo/haiku/_src/module.py` 575-592). -/
def numbered (name : String) (n : Nat) : String := if n = 0 then name else name ++ "_" ++ toString n

/-- `if self.use_bn: bn = hk.BatchNorm(create_scale=True, create_offset=True, decay_rate=0.999); out = bn(out, is_training)` (`/repo/haiku/_src/nets/mobilenetv1.py` 85-88, 91-94, 143-145); `eps` and the other arguments are the defaults at
`/repo/haiku/_src/batch_norm.py` 61-73, and so is `test_local_stats` at 122-129. -/
def normed [Field K] (get : ParamFn K) (rsqrt : K → K) (useBn : Bool) (name : String) (st : States K) (x : Arr K) (tr : Bool) : Except Err (Arr K × States K) :=
  if useBn then do
    let bn ← BatchNorm.make name true true (999 / 1000) (1 / 100000) false false none false false "channels_last".toList
    runBn get rsqrt tr false bn st x
  else .ok (x, st)

/-- A `MobileNetV1Block` object (`/repo/haiku/_src/nets/mobilenetv1.py` 61-65). -/
structure Block where
  name : String
  channels : Nat
  stride : Int
  useBn : Bool
  withBias : Bool
  deriving DecidableEq, Repr

/-- `MobileNetV1Block.__init__` (`/repo/haiku/_src/nets/mobilenetv1.py` 54-65). -/
def Block.make (name : String) (channels : Nat) (stride : Int) (useBn : Bool) : Block := ⟨name, channels, stride, useBn, !useBn⟩

/-- `MobileNetV1Block.__call__` (`/repo/haiku/_src/nets/mobilenetv1.py` 67-96): the output and the states afterwards.  The two batch normalisations are made with the same name. -/
def Block.call [Field K] [LinearOrder K] (get : ParamFn K) (rsqrt : K → K) (m : Block) (st : States K) (x : Arr K) (tr : Bool) : Except Err (Arr K × States K) := do
  let depthwise ← Depthwise.make (m.name ++ "/depthwise_conv") 1 (.scalar 3) (.scalar m.stride) (.pairs [(1, 1), (1, 1)]) m.withBias "NHWC".toList
  let pointwise ← Module.make (K := K) (m.name ++ "/pointwise_conv") 2 m.channels (.seq [1, 1]) (.scalar 1) (.scalar 1) (.str "VALID".toList) m.withBias "NHWC".toList none 1
  let out ← depthwise.call get x
  let (out, st) ← normed get rsqrt m.useBn (m.name ++ "/" ++ numbered "batch_norm" 0) st out tr
  let out ← pointwise.call get (relu out)
  let (out, st) ← normed get rsqrt m.useBn (m.name ++ "/" ++ numbered "batch_norm" 1) st out tr
  .ok (relu out, st)

/-- A `MobileNetV1` object (`/repo/haiku/_src/nets/mobilenetv1.py` 124-132). -/
structure Net where
  name : String
  strides : List Int
  channels : List Nat
  useBn : Bool
  withBias : Bool
  numClasses : Nat
  deriving DecidableEq, Repr

/-- `MobileNetV1.__init__` (`/repo/haiku/_src/nets/mobilenetv1.py` 103-132). -/
def Net.make (name : String) (strides : List Int) (channels : List Nat) (numClasses : Nat) (useBn : Bool) : Except Err Net :=
  if strides.length ≠ channels.length then .error .value else .ok ⟨name, strides, channels, useBn, !useBn, numClasses⟩

/-- The defaults of `strides` (`/repo/haiku/_src/nets/mobilenetv1.py` 105). -/
def defaultStrides : List Int := [1, 2, 1, 2, 1, 2, 1, 1, 1, 1, 1, 2, 1]

/-- The defaults of `channels` (`/repo/haiku/_src/nets/mobilenetv1.py` 106-107). -/
def defaultChannels : List Nat := [64, 128, 128, 256, 256, 512, 512, 512, 512, 512, 512, 1024, 1024]

/-- The loop of `MobileNetV1.__call__` (`/repo/haiku/_src/nets/mobilenetv1.py` 147-151), `n` rounds from `i` on. -/
def runBlocks [Field K] [LinearOrder K] (get : ParamFn K) (rsqrt : K → K) (m : Net) (tr : Bool) : Nat → Nat → States K → Arr K → Except Err (Arr K × States K)
  | 0, _, st, x => .ok (x, st)
  | n + 1, i, st, x => do
    let channels ← index m.channels i
    let stride ← index m.strides i
    let (x, st) ← (Block.make (m.name ++ "/" ++ numbered "mobile_net_v1_block" i) channels stride m.useBn).call get rsqrt st x tr
    runBlocks get rsqrt m tr n (i + 1) st x

/-- `hk.Flatten()(out)` (`/repo/haiku/_src/nets/mobilenetv1.py` 153): all axes but the first become one (`/repo/haiku/_src/reshape.py` 30-49, 108-118, 140-148). -/
def flatten (x : Arr K) : Arr K :=
  if x.shape.length ≤ 1 then x else ⟨x.shape.take 1 ++ [Verif.Shapes.size (x.shape.drop 1)], fun i => x.val (i.take 1 ++ Verif.Nd.unravel (x.shape.drop 1) (i.getD 1 0))⟩

/-- `MobileNetV1.__call__` (`/repo/haiku/_src/nets/mobilenetv1.py` 134-155): the output and the states afterwards.  Simplification: the mean of nothing is 0 instead of NaN. -/
def Net.call [Field K] [LinearOrder K] (get : ParamFn K) (rsqrt : K → K) (m : Net) (st : States K) (x : Arr K) (tr : Bool) : Except Err (Arr K × States K) := do
  let initialConv ← Module.make (K := K) (m.name ++ "/conv2_d") 2 32 (.seq [3, 3]) (.scalar 2) (.scalar 1) (.str "VALID".toList) m.withBias "NHWC".toList none 1
  let out ← initialConv.call get x
  let (out, st) ← normed get rsqrt m.useBn (m.name ++ "/" ++ numbered "batch_norm" 0) st out tr
  let (out, st) ← runBlocks get rsqrt m tr m.strides.length 0 st (relu out)
  let out ← spatialMean out
  let (out, _) ← (⟨m.name ++ "/logits", none, some m.numClasses, true⟩ : Linear).call get (flatten out)
  .ok (out, st)

end Verif.MobileNet
