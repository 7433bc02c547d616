import Mathlib.Order.WithBot
import Verif.Model.ConvArr
import Verif.Model.Norm

/-!
# Residual networks

Models `/repo/haiku/_src/nets/resnet.py` on the models of convolutions, batch normalisation, pooling and linear layers, in exact arithmetic.  Parameters are what `hk.get_parameter` gives; dtypes and initializers are not modelled.
-/

namespace Verif.ResNet
open Verif.Shapes (Err)
open Verif.Pool (Arr)
open Verif.Utils (Arg)
open Verif.Mlp (ParamFn Linear)
open Verif.ConvArr (Module)
open Verif.Norm (BatchNorm BnState)

variable {K : Type}

/-- The states of all batch normalisations, by the name of the module (`hk.get_state` at `/repo/haiku/_src/moving_averages.py` 112, 121, 131). -/
abbrev States (K : Type) := String → BnState K

/-- `bn_config` (`/repo/haiku/_src/nets/resnet.py` 289, 320-324): the keys that are present; of the initializers only whether they are.  Simplification: `axis`, `cross_replica_axis`, `cross_replica_axis_index_groups` and `data_format` are not
among the keys. -/
structure BnConfig (K : Type) where
  createScale : Option Bool := none
  createOffset : Option Bool := none
  decayRate : Option K := none
  eps : Option K := none
  scaleInit : Bool := false
  offsetInit : Bool := false

/-- `hk.BatchNorm(name=name, **bn_config)`, with another keyword argument `scale_init` if `zeroScale` (`/repo/haiku/_src/nets/resnet.py` 67, 99).  A keyword given twice and a missing argument are `TypeError`s; the default of `eps` is at
`/repo/haiku/_src/batch_norm.py` 66. -/
def BnConfig.batchNorm [Field K] (c : BnConfig K) (name : String) (zeroScale : Bool) : Except Err (BatchNorm K) :=
  if zeroScale = true ∧ c.scaleInit = true then .error .type
  else
    match c.createScale, c.createOffset, c.decayRate with
    | some cs, some co, some d => BatchNorm.make name cs co d (c.eps.getD (1 / 100000)) (zeroScale || c.scaleInit) c.offsetInit none false false "channels_last".toList
    | _, _, _ => .error .type

/-- `bn_config.setdefault` of `create_scale` and `create_offset` (`/repo/haiku/_src/nets/resnet.py` 54-55, 136-137). -/
def BnConfig.withCreate (c : BnConfig K) : BnConfig K := { c with createScale := some (c.createScale.getD true), createOffset := some (c.createOffset.getD true) }

/-- `hk.Conv2D(output_channels=…, kernel_shape=…, stride=…, with_bias=False, padding="SAME", name=…)` (`/repo/haiku/_src/nets/resnet.py` 59-65, 70-76); the other arguments are the defaults at `/repo/haiku/_src/conv.py` 289-303. -/
def conv2d (name : String) (outputChannels : Nat) (kernelShape : Int) (stride : Arg Int) : Except Err (Module K) :=
  Module.make name 2 outputChannels (.scalar kernelShape) stride (.scalar 1) (.str "SAME".toList) false "NHWC".toList none 1

/-- `jax.nn.relu` (`/repo/haiku/_src/nets/resnet.py` 115). -/
def relu [Zero K] [Max K] (x : Arr K) : Arr K := Verif.Nd.map (fun v => max v 0) x

/-- A batch normalisation with the state of its module (`/repo/haiku/_src/nets/resnet.py` 109, 113). -/
def runBn [Field K] (get : ParamFn K) (rsqrt : K → K) (tr tl : Bool) (m : BatchNorm K) (st : States K) (x : Arr K) : Except Err (Arr K × States K) := do
  let (y, s) ← m.call get rsqrt (st m.name) x [] tr tl none none
  .ok (y, fun n => if n = m.name then s else st n)

/-! ### Blocks -/

/-- A `BlockV1` object (`/repo/haiku/_src/nets/resnet.py` 50-102): the projection if `use_projection`, and `layers`. -/
structure BlockV1 (K : Type) where
  proj : Option (Module K × BatchNorm K)
  layers : List (Module K × BatchNorm K)

/-- One pair of `layers` (`/repo/haiku/_src/nets/resnet.py` 70-77). -/
def layer [Field K] (cfg : BnConfig K) (name : String) (i : Nat) (outputChannels : Nat) (kernelShape : Int) (stride : Arg Int) (zeroScale : Bool) : Except Err (Module K × BatchNorm K) := do
  let c ← conv2d (name ++ "/~/conv_" ++ toString i) outputChannels kernelShape stride
  let b ← cfg.batchNorm (name ++ "/~/batchnorm_" ++ toString i) zeroScale
  .ok (c, b)

/-- `layers` of a block (`/repo/haiku/_src/nets/resnet.py` 69-102, 148-184). -/
def makeLayers [Field K] (cfg : BnConfig K) (name : String) (channels : Nat) (stride : Arg Int) (bottleneck zeroScale : Bool) : Except Err (List (Module K × BatchNorm K)) := do
  let inner := channels / (if bottleneck then 4 else 1)
  let l0 ← layer cfg name 0 inner (if bottleneck then 1 else 3) (if bottleneck then .scalar 1 else stride) false
  let l1 ← layer cfg name 1 inner 3 (if bottleneck then stride else .scalar 1) false
  if bottleneck then do
    let l2 ← layer cfg name 2 channels 1 (.scalar 1) zeroScale
    .ok [l0, l1, l2]
  else .ok [l0, l1]

/-- `BlockV1.__init__` (`/repo/haiku/_src/nets/resnet.py` 41-102). -/
def BlockV1.make [Field K] (name : String) (channels : Nat) (stride : Arg Int) (useProjection : Bool) (cfg : BnConfig K) (bottleneck : Bool) : Except Err (BlockV1 K) := do
  let cfg := cfg.withCreate
  let cfg := { cfg with decayRate := some (cfg.decayRate.getD (999 / 1000)) }
  let proj ← if useProjection then do
      let c ← conv2d (name ++ "/~/shortcut_conv") channels 1 stride
      let b ← cfg.batchNorm (name ++ "/~/shortcut_batchnorm") false
      .ok (some (c, b))
    else .ok none
  let ls ← makeLayers cfg name channels stride bottleneck true
  .ok ⟨proj, ls⟩

/-- The loop of `BlockV1.__call__` (`/repo/haiku/_src/nets/resnet.py` 111-115): no `relu` after the last layer. -/
def BlockV1.loop [Field K] [LinearOrder K] (get : ParamFn K) (rsqrt : K → K) (tr tl : Bool) : List (Module K × BatchNorm K) → States K → Arr K → Except Err (Arr K × States K)
  | [], st, out => .ok (out, st)
  | (c, b) :: rest, st, out => do
    let out ← c.call get out
    let (out, st) ← runBn get rsqrt tr tl b st out
    BlockV1.loop get rsqrt tr tl rest st (if rest.isEmpty then out else relu out)

/-- The shortcut of `BlockV1.__call__` (`/repo/haiku/_src/nets/resnet.py` 105-109). -/
def BlockV1.shortcut [Field K] [LinearOrder K] (get : ParamFn K) (rsqrt : K → K) (tr tl : Bool) (proj : Option (Module K × BatchNorm K)) (st : States K) (x : Arr K) : Except Err (Arr K × States K) :=
  match proj with
  | none => .ok (x, st)
  | some (c, b) => do
    let y ← c.call get x
    runBn get rsqrt tr tl b st y

/-- `BlockV1.__call__` (`/repo/haiku/_src/nets/resnet.py` 104-117). -/
def BlockV1.call [Field K] [LinearOrder K] (get : ParamFn K) (rsqrt : K → K) (tr tl : Bool) (m : BlockV1 K) (st : States K) (x : Arr K) : Except Err (Arr K × States K) := do
  let (shortcut, st) ← BlockV1.shortcut get rsqrt tr tl m.proj st x
  let (out, st) ← BlockV1.loop get rsqrt tr tl m.layers st x
  let sum ← Verif.Nd.zip (· + ·) out shortcut
  .ok (relu sum, st)

/-- A `BlockV2` object (`/repo/haiku/_src/nets/resnet.py` 132-184). -/
structure BlockV2 (K : Type) where
  proj : Option (Module K)
  layers : List (Module K × BatchNorm K)

/-- `BlockV2.__init__` (`/repo/haiku/_src/nets/resnet.py` 123-184). -/
def BlockV2.make [Field K] (name : String) (channels : Nat) (stride : Arg Int) (useProjection : Bool) (cfg : BnConfig K) (bottleneck : Bool) : Except Err (BlockV2 K) := do
  let cfg := cfg.withCreate
  let proj ← if useProjection then (conv2d (name ++ "/~/shortcut_conv") channels 1 stride).map some else .ok none
  let ls ← makeLayers cfg name channels stride bottleneck false
  .ok ⟨proj, ls⟩

/-- The projection in the first round of the loop, if there is one (`/repo/haiku/_src/nets/resnet.py` 192-193). -/
def BlockV2.project [Field K] (get : ParamFn K) (proj : Option (Module K)) (x shortcut : Arr K) : Except Err (Arr K) :=
  match proj with
  | none => .ok shortcut
  | some p => p.call get x

/-- The loop of `BlockV2.__call__` (`/repo/haiku/_src/nets/resnet.py` 189-194): the output and the shortcut.  `proj` is `none` after the first round. -/
def BlockV2.loop [Field K] [LinearOrder K] (get : ParamFn K) (rsqrt : K → K) (tr tl : Bool) (proj : Option (Module K)) :
    List (Module K × BatchNorm K) → States K → Arr K → Arr K → Except Err ((Arr K × Arr K) × States K)
  | [], st, x, shortcut => .ok ((x, shortcut), st)
  | (c, b) :: rest, st, x, shortcut => do
    let (x, st) ← runBn get rsqrt tr tl b st x
    let x := relu x
    let shortcut ← BlockV2.project get proj x shortcut
    let x ← c.call get x
    BlockV2.loop get rsqrt tr tl none rest st x shortcut

/-- `BlockV2.__call__` (`/repo/haiku/_src/nets/resnet.py` 186-196). -/
def BlockV2.call [Field K] [LinearOrder K] (get : ParamFn K) (rsqrt : K → K) (tr tl : Bool) (m : BlockV2 K) (st : States K) (x : Arr K) : Except Err (Arr K × States K) := do
  let ((out, shortcut), st) ← BlockV2.loop get rsqrt tr tl m.proj m.layers st x x
  let sum ← Verif.Nd.zip (· + ·) out shortcut
  .ok (sum, st)

/-- An object of `block_cls` (`/repo/haiku/_src/nets/resnet.py` 215). -/
inductive Block (K : Type) where
  | v1 (b : BlockV1 K)
  | v2 (b : BlockV2 K)

/-- A call of a block (`/repo/haiku/_src/nets/resnet.py` 230). -/
def Block.call [Field K] [LinearOrder K] (get : ParamFn K) (rsqrt : K → K) (tr tl : Bool) (b : Block K) (st : States K) (x : Arr K) : Except Err (Arr K × States K) :=
  match b with
  | .v1 b => b.call get rsqrt tr tl st x
  | .v2 b => b.call get rsqrt tr tl st x

/-- `block_cls(…)` (`/repo/haiku/_src/nets/resnet.py` 215-225). -/
def Block.make [Field K] (resnetV2 : Bool) (name : String) (channels : Nat) (stride : Arg Int) (useProjection : Bool) (cfg : BnConfig K) (bottleneck : Bool) : Except Err (Block K) :=
  if resnetV2 then (BlockV2.make name channels stride useProjection cfg bottleneck).map .v2 else (BlockV1.make name channels stride useProjection cfg bottleneck).map .v1

/-- `BlockGroup.__init__` (`/repo/haiku/_src/nets/resnet.py` 202-225), the `n` blocks from number `i` on: only the first has the stride and the projection. -/
def groupBlocks [Field K] (resnetV2 : Bool) (name : String) (channels : Nat) (stride : Arg Int) (useProjection : Bool) (cfg : BnConfig K) (bottleneck : Bool) : Nat → Nat → Except Err (List (Block K))
  | _, 0 => .ok []
  | i, n + 1 => do
    let b ← Block.make resnetV2 (name ++ "/~/block_" ++ toString i) channels (if i = 0 then stride else .scalar 1) (decide (i = 0) && useProjection) cfg bottleneck
    let bs ← groupBlocks resnetV2 name channels stride useProjection cfg bottleneck (i + 1) n
    .ok (b :: bs)

/-- Blocks one after the other (`/repo/haiku/_src/nets/resnet.py` 227-231). -/
def runBlocks [Field K] [LinearOrder K] (get : ParamFn K) (rsqrt : K → K) (tr tl : Bool) : List (Block K) → States K → Arr K → Except Err (Arr K × States K)
  | [], st, x => .ok (x, st)
  | b :: bs, st, x => do
    let (x, st) ← b.call get rsqrt tr tl st x
    runBlocks get rsqrt tr tl bs st x

/-! ### The network -/

/-- A `ResNet` object (`/repo/haiku/_src/nets/resnet.py` 317-362). -/
structure Net (K : Type) where
  resnetV2 : Bool
  initialConv : Module K
  initialBn : Option (BatchNorm K)
  groups : List (List (Block K))
  finalBn : Option (BatchNorm K)
  logits : Linear

/-- The arguments of `ResNet.__init__` but the name (`/repo/haiku/_src/nets/resnet.py` 285-296); of `logits_config` the name and `with_bias`.  Simplification: the name is not that of another layer, where a number would be added to it. -/
structure Args (K : Type) where
  blocksPerGroup : List Nat
  numClasses : Nat
  bnConfig : BnConfig K := {}
  resnetV2 : Bool := false
  bottleneck : Bool := true
  channelsPerGroup : List Nat := [256, 512, 1024, 2048]
  useProjection : List Bool := [true, true, true, true]
  logitsName : String := "logits"
  logitsBias : Bool := true

/-- `bn_config.setdefault` (`/repo/haiku/_src/nets/resnet.py` 320-324). -/
def BnConfig.withDefaults [Field K] (c : BnConfig K) : BnConfig K :=
  { c with decayRate := some (c.decayRate.getD (9 / 10)), eps := some (c.eps.getD (1 / 100000)), createScale := some (c.createScale.getD true), createOffset := some (c.createOffset.getD true) }

/-- `xs[i]` of a sequence (`/repo/haiku/_src/nets/resnet.py` 350-356). -/
def index {α : Type} (l : List α) (i : Nat) : Except Err α :=
  match l[i]? with
  | some a => .ok a
  | none => .error .index

/-- `BlockGroup(…)` in the loop of `ResNet.__init__` (`/repo/haiku/_src/nets/resnet.py` 348-357). -/
def group [Field K] (a : Args K) (name : String) (cfg : BnConfig K) (i : Nat) : Except Err (List (Block K)) := do
  let ch ← index a.channelsPerGroup i
  let n ← index a.blocksPerGroup i
  let s ← index [1, 2, 2, 2] i
  let p ← index a.useProjection i
  groupBlocks a.resnetV2 (name ++ "/~/block_group_" ++ toString i) ch (.scalar s) p cfg a.bottleneck 0 n

/-- `ResNet.__init__` (`/repo/haiku/_src/nets/resnet.py` 285-362); `check_length` is at 234-236. -/
def Net.make [Field K] (name : String) (a : Args K) : Except Err (Net K) :=
  if a.blocksPerGroup.length ≠ 4 then .error .value
  else if a.channelsPerGroup.length ≠ 4 then .error .value
  else do
    let cfg := a.bnConfig.withDefaults
    let initialConv ← conv2d (name ++ "/~/initial_conv") 64 7 (.scalar 2)
    let initialBn ← if a.resnetV2 then .ok none else (cfg.batchNorm (name ++ "/~/initial_batchnorm") false).map some
    let groups ← [0, 1, 2, 3].mapM (group a name cfg)
    let finalBn ← if a.resnetV2 then (cfg.batchNorm (name ++ "/~/final_batchnorm") false).map some else .ok none
    .ok ⟨a.resnetV2, initialConv, initialBn, groups, finalBn, ⟨name ++ "/~/" ++ a.logitsName, none, some a.numClasses, a.logitsBias⟩⟩

/-- `hk.max_pool` (`/repo/haiku/_src/nets/resnet.py` 371-374): numbers with `-inf`, which is no maximum, since with `"SAME"` every window has elements. -/
def maxPool [Field K] [LinearOrder K] (x : Arr K) (window strides : List Int) : Except Err (Arr K) := do
  let y ← Verif.Pool.maxPool (⊥ : WithBot K) ⟨x.shape, fun i => (x.val i : WithBot K)⟩ (.seq window) (.seq strides) "SAME".toList (some (-1))
  .ok ⟨y.shape, fun i => (y.val i).unbotD 0⟩

/-- A batch normalisation and `relu`, where there is one (`/repo/haiku/_src/nets/resnet.py` 367-369, 379-381). -/
def normed [Field K] [LinearOrder K] (get : ParamFn K) (rsqrt : K → K) (tr tl : Bool) (b : Option (BatchNorm K)) (st : States K) (x : Arr K) : Except Err (Arr K × States K) :=
  match b with
  | none => .ok (x, st)
  | some b => do
    let (y, st) ← runBn get rsqrt tr tl b st x
    .ok (relu y, st)

/-- `jnp.mean(out, axis=[1, 2])` (`/repo/haiku/_src/nets/resnet.py` 382).  Simplification: the mean of nothing is 0 instead of NaN. -/
def spatialMean [Field K] (x : Arr K) : Except Err (Arr K) := do
  let m ← Verif.Nd.mean x [1, 2]
  .ok ⟨m.shape.take 1 ++ m.shape.drop 3, fun i => m.val (i.take 1 ++ [0, 0] ++ i.drop 1)⟩

/-- The loop over the groups (`/repo/haiku/_src/nets/resnet.py` 376-377). -/
def runGroups [Field K] [LinearOrder K] (get : ParamFn K) (rsqrt : K → K) (tr tl : Bool) : List (List (Block K)) → States K → Arr K → Except Err (Arr K × States K)
  | [], st, x => .ok (x, st)
  | g :: gs, st, x => do
    let (x, st) ← runBlocks get rsqrt tr tl g st x
    runGroups get rsqrt tr tl gs st x

/-- `ResNet.__call__` (`/repo/haiku/_src/nets/resnet.py` 364-383): the output and the states afterwards. -/
def Net.call [Field K] [LinearOrder K] (get : ParamFn K) (rsqrt : K → K) (m : Net K) (st : States K) (x : Arr K) (tr tl : Bool) : Except Err (Arr K × States K) := do
  let out ← m.initialConv.call get x
  let (out, st) ← normed get rsqrt tr tl m.initialBn st out
  let out ← maxPool out [1, 3, 3, 1] [1, 2, 2, 1]
  let (out, st) ← runGroups get rsqrt tr tl m.groups st out
  let (out, st) ← normed get rsqrt tr tl m.finalBn st out
  let out ← spatialMean out
  let (out, _) ← m.logits.call get out
  .ok (out, st)

/-- `ResNet.CONFIGS` (`/repo/haiku/_src/nets/resnet.py` 242-279), of which each class `ResNet18` … `ResNet200` passes one to `ResNet.__init__` (386-551). -/
def configs : List (Nat × (List Nat × Bool × List Nat × List Bool)) :=
  [(18, [2, 2, 2, 2], false, [64, 128, 256, 512], [false, true, true, true]),
   (34, [3, 4, 6, 3], false, [64, 128, 256, 512], [false, true, true, true]),
   (50, [3, 4, 6, 3], true, [256, 512, 1024, 2048], [true, true, true, true]),
   (101, [3, 4, 23, 3], true, [256, 512, 1024, 2048], [true, true, true, true]),
   (152, [3, 8, 36, 3], true, [256, 512, 1024, 2048], [true, true, true, true]),
   (200, [3, 24, 36, 3], true, [256, 512, 1024, 2048], [true, true, true, true])]

end Verif.ResNet
