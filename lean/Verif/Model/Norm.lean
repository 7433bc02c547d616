import Verif.Model.Nd
import Verif.Model.Ema

/-!
# Normalisation layers

Models `LayerNorm` and `InstanceNorm` of `/repo/haiku/_src/layer_norm.py`, `BatchNorm` of `/repo/haiku/_src/batch_norm.py` and `GroupNorm` of
`/repo/haiku/_src/group_norm.py`, in exact arithmetic.  `rsqrt` is any function.  Dtypes are not modelled.
-/

namespace Verif.Norm
open Verif.Shapes (Err)
open Verif.Pool (Arr)
open Verif.Mlp (ParamFn getParameter)
open Verif.Nd

variable {K : Type}

/-- The `axis` argument of the constructors: an int, a slice without step, an iterable of ints, or something else (`/repo/haiku/_src/layer_norm.py` 74-82). -/
inductive AxisArg where
  | int (a : Int)
  | slice (start stop : Option Int)
  | ints (l : List Int)
  | other
  deriving DecidableEq, Repr

/-- `self.axis` (`/repo/haiku/_src/layer_norm.py` 74-82, `/repo/haiku/_src/group_norm.py` 108-116). -/
inductive Axis where
  | slice (start stop : Option Int)
  | ints (l : List Int)
  deriving DecidableEq, Repr

/-- What the constructors make of `axis` (`/repo/haiku/_src/layer_norm.py` 74-82, `/repo/haiku/_src/group_norm.py` 108-116).  The name `collections.Iterable` is taken to exist (Python before 3.10). -/
def AxisArg.check : AxisArg → Except Err Axis
  | .int a => .ok (.ints [a])
  | .slice s t => .ok (.slice s t)
  | .ints l => .ok (.ints l)
  | .other => .error .value

/-- A bound of a slice of a sequence of `n` elements (`/repo/haiku/_src/layer_norm.py` 121). -/
def bound (n : Nat) (a : Int) : Nat := if a < 0 then (a + n).toNat else min a.toNat n

/-- `tuple(range(ndim)[axis])` for a slice (`/repo/haiku/_src/layer_norm.py` 119-121, `/repo/haiku/_src/group_norm.py` 220-222). -/
def Axis.resolve (n : Nat) : Axis → List Int
  | .slice s t =>
    let lo := match s with | none => 0 | some a => bound n a
    let hi := match t with | none => n | some a => bound n a
    (List.range' lo (hi - lo)).map Int.ofNat
  | .ints l => l

/-- A `LayerNorm` object (`/repo/haiku/_src/layer_norm.py` 74-88). -/
structure LayerNorm (K : Type) where
  name : String
  axis : Axis
  createScale : Bool
  createOffset : Bool
  eps : K

/-- `LayerNorm.__init__` (`/repo/haiku/_src/layer_norm.py` 43-88); of the initializers only whether they are given. -/
def LayerNorm.make (name : String) (axis : AxisArg) (createScale createOffset : Bool) (eps : K) (scaleInit offsetInit : Bool) : Except Err (LayerNorm K) :=
  if createScale = false ∧ scaleInit = true then .error .value
  else if createOffset = false ∧ offsetInit = true then .error .value
  else do
    let axis ← axis.check
    .ok ⟨name, axis, createScale, createOffset, eps⟩

/-- `InstanceNorm.__init__` (`/repo/haiku/_src/layer_norm.py` 153-194). -/
def instanceNorm (name : String) (createScale createOffset : Bool) (eps : K) (scaleInit offsetInit : Bool) (dataFormat : List Char) : Except Err (LayerNorm K) := do
  let c ← Verif.Utils.getChannelIndex dataFormat
  LayerNorm.make name (if c = 1 then .slice (some 2) none else .slice (some 1) (some (-1))) createScale createOffset eps scaleInit offsetInit

/-- The scale or offset of a call: an own parameter, the argument, or a constant (`/repo/haiku/_src/layer_norm.py` 127-137, `/repo/haiku/_src/batch_norm.py` 188-196). -/
def affine (get : ParamFn K) (create : Bool) (module name : String) (shape : List Nat) (arg : Option (Arr K)) (default : K) : Except Err (Arr K) :=
  if create then getParameter get module name shape else .ok (arg.getD (scalar default))

/-- `LayerNorm.__call__` (`/repo/haiku/_src/layer_norm.py` 90-144). -/
def LayerNorm.call [Field K] (get : ParamFn K) (rsqrt : K → K) (m : LayerNorm K) (x : Arr K) (scale offset : Option (Arr K)) : Except Err (Arr K) :=
  if m.createScale = true ∧ scale.isSome then .error .value
  else if m.createOffset = true ∧ offset.isSome then .error .value
  else do
    let axis := m.axis.resolve x.shape.length
    let mean ← mean x axis
    let variance ← var x axis
    let paramShape := x.shape.drop (x.shape.length - 1)
    let scale ← affine get m.createScale m.name "scale" paramShape scale 1
    let offset ← affine get m.createOffset m.name "offset" paramShape offset 0
    let scale ← broadcastTo scale x.shape
    let offset ← broadcastTo offset x.shape
    let mean ← broadcastTo mean x.shape
    let inv ← zip (· * ·) scale (map (fun v => rsqrt (v + m.eps)) variance)
    let centered ← zip (· - ·) x mean
    let scaled ← zip (· * ·) inv centered
    zip (· + ·) scaled offset

/-! ### `BatchNorm` -/

/-- The state of an `ExponentialMovingAverage` of arrays (`/repo/haiku/_src/moving_averages.py` 112, 121, 131). -/
structure EmaState (K : Type) where
  counter : Option Int
  hidden : Option (Arr K)
  average : Option (Arr K)

/-- `ExponentialMovingAverage.__call__` on arrays, with `update_stats` (`/repo/haiku/_src/moving_averages.py` 92-133): the state afterwards. -/
def emaCall [Field K] (m : Verif.Ema.EMA K) (st : EmaState K) (value : Arr K) : Except Err (EmaState K) := do
  let counter := st.counter.getD (-m.warmupLength) + 1
  let decay := if 0 < m.warmupLength ∧ counter ≤ 0 then 0 else m.decay
  let hidden0 := st.hidden.getD ⟨value.shape, fun _ => 0⟩
  let hidden ← zip (· + ·) (map (· * decay) hidden0) (map (· * (1 - decay)) value)
  let average := if m.zeroDebias then map (· / (1 - decay ^ counter)) hidden else hidden
  .ok ⟨some counter, some hidden, some average⟩

/-- The state of a `BatchNorm` module (`/repo/haiku/_src/batch_norm.py` 119-120). -/
structure BnState (K : Type) where
  mean : EmaState K
  var : EmaState K

/-- No state yet (`/repo/haiku/_src/batch_norm.py` 119-120). -/
def BnState.empty : BnState K := ⟨⟨none, none, none⟩, ⟨none, none, none⟩⟩

/-- A `BatchNorm` object (`/repo/haiku/_src/batch_norm.py` 109-120). -/
structure BatchNorm (K : Type) where
  name : String
  createScale : Bool
  createOffset : Bool
  eps : K
  axis : Option (List Int)
  crossReplica : Bool
  channelIndex : Int
  ema : Verif.Ema.EMA K

/-- `BatchNorm.__init__` (`/repo/haiku/_src/batch_norm.py` 61-120); of the initializers and index groups only whether they are given. -/
def BatchNorm.make (name : String) (createScale createOffset : Bool) (decayRate eps : K) (scaleInit offsetInit : Bool) (axis : Option (List Int))
    (crossReplica indexGroups : Bool) (dataFormat : List Char) : Except Err (BatchNorm K) :=
  if createScale = false ∧ scaleInit = true then .error .value
  else if createOffset = false ∧ offsetInit = true then .error .value
  else if crossReplica = false ∧ indexGroups = true then .error .value
  else do
    let c ← Verif.Utils.getChannelIndex dataFormat
    .ok ⟨name, createScale, createOffset, eps, axis, crossReplica, c, ⟨decayRate, true, 0⟩⟩

/-- The axes to reduce over (`/repo/haiku/_src/batch_norm.py` 155-162). -/
def BatchNorm.axes (m : BatchNorm K) (ndim : Nat) : List Int :=
  let c := if m.channelIndex < 0 then m.channelIndex + ndim else m.channelIndex
  match m.axis with
  | some l => l
  | none => ((List.range ndim).map Int.ofNat).filter (· ≠ c)

/-- `jax.lax.pmean` of the values on the devices of one group (`/repo/haiku/_src/batch_norm.py` 168-175); all have one shape. -/
def pmean [Field K] (x : Arr K) (devices : List (Arr K)) : Arr K := ⟨x.shape, fun i => (devices.map (·.val i)).sum / (devices.length : K)⟩

/-- The statistics of the inputs (`/repo/haiku/_src/batch_norm.py` 165-176).  `group` are the inputs on all devices of the group of this device; it only matters with a cross-replica axis. -/
def BatchNorm.stats [Field K] (m : BatchNorm K) (x : Arr K) (group : List (Arr K)) : Except Err (Arr K × Arr K) := do
  let axis := m.axes x.shape.length
  let mu ← mean x axis
  let sq ← mean (map (fun v => v * v) x) axis
  let (mu, sq) ← if m.crossReplica then do
      let mus ← group.mapM fun y => mean y axis
      let sqs ← group.mapM fun y => mean (map (fun v => v * v) y) axis
      .ok (pmean mu mus, pmean sq sqs)
    else .ok (mu, sq)
  let v ← zip (· - ·) sq (map (fun v => v * v) mu)
  .ok (mu, v)

/-- A value that `hk.get_state` without `init` has to find (`/repo/haiku/_src/base.py` 702-706). -/
def present : Option (Arr K) → Except Err (Arr K)
  | some v => .ok v
  | none => .error .value

/-- The mean and variance that are used (`/repo/haiku/_src/batch_norm.py` 164-179). -/
def BatchNorm.chosenStats [Field K] (m : BatchNorm K) (st : BnState K) (x : Arr K) (group : List (Arr K)) (isTraining testLocalStats : Bool) : Except Err (Arr K × Arr K) :=
  if isTraining || testLocalStats then m.stats x group
  else do
    let a ← present st.mean.average
    let b ← present st.var.average
    .ok (a, b)

/-- The update of the moving averages (`/repo/haiku/_src/batch_norm.py` 181-183). -/
def BatchNorm.updated [Field K] (m : BatchNorm K) (st : BnState K) (mean var : Arr K) (isTraining : Bool) : Except Err (BnState K) :=
  if isTraining then do
    let a ← emaCall m.ema st.mean mean
    let b ← emaCall m.ema st.var var
    .ok ⟨a, b⟩
  else .ok st

/-- `BatchNorm.__call__` (`/repo/haiku/_src/batch_norm.py` 122-200): the output and the state afterwards. -/
def BatchNorm.call [Field K] (get : ParamFn K) (rsqrt : K → K) (m : BatchNorm K) (st : BnState K) (x : Arr K) (group : List (Arr K)) (isTraining testLocalStats : Bool)
    (scale offset : Option (Arr K)) : Except Err (Arr K × BnState K) :=
  if m.createScale = true ∧ scale.isSome then .error .value
  else if m.createOffset = true ∧ offset.isSome then .error .value
  else do
    let (mean, var) ← m.chosenStats st x group isTraining testLocalStats
    let st ← m.updated st mean var isTraining
    let axis := m.axes x.shape.length
    let wShape := x.shape.mapIdx fun i n => if Int.ofNat i ∈ axis then 1 else n
    let scale ← affine get m.createScale m.name "scale" wShape scale 1
    let offset ← affine get m.createOffset m.name "offset" wShape offset 0
    let inv ← zip (· * ·) scale (map (fun v => rsqrt (v + m.eps)) var)
    let centered ← zip (· - ·) x mean
    let scaled ← zip (· * ·) centered inv
    let out ← zip (· + ·) scaled offset
    .ok (out, st)

/-! ### `GroupNorm` -/

/-- What `_initialize` sets at the first call (`/repo/haiku/_src/group_norm.py` 215-234); the shapes without their leading `-1`. -/
structure GnShapes where
  rank : Nat
  axis : List Int
  groupShape : List Nat
  firstInputShape : List Nat
  deriving DecidableEq, Repr

/-- A `GroupNorm` object (`/repo/haiku/_src/group_norm.py` 108-138).  Simplification: the number of groups is not negative. -/
structure GroupNorm (K : Type) where
  name : String
  groups : Nat
  axis : Axis
  createScale : Bool
  createOffset : Bool
  eps : K
  channelIndex : Int
  shapes : Option GnShapes

/-- `GroupNorm.__init__` (`/repo/haiku/_src/group_norm.py` 69-138); of the initializers only whether they are given. -/
def GroupNorm.make (name : String) (groups : Nat) (axis : AxisArg) (createScale createOffset : Bool) (eps : K) (scaleInit offsetInit : Bool) (dataFormat : List Char) :
    Except Err (GroupNorm K) := do
  let axis ← axis.check
  let c ← Verif.Utils.getChannelIndex dataFormat
  if createScale = false ∧ scaleInit = true then .error .value
  else if createOffset = false ∧ offsetInit = true then .error .value
  else .ok ⟨name, groups, axis, createScale, createOffset, eps, c, none⟩

/-- `_initialize` (`/repo/haiku/_src/group_norm.py` 215-234). -/
def GroupNorm.initialize (m : GroupNorm K) (shape : List Nat) (channels : Nat) : GnShapes :=
  let rank := shape.length
  let axis := m.axis.resolve rank
  if m.channelIndex = -1 then
    ⟨rank, axis.map fun (a : Int) => if a ≠ (rank : Int) - 1 then a else a + 1, (shape.drop 1).dropLast ++ [m.groups, channels / m.groups], shape.drop 1⟩
  else
    ⟨rank, axis.map fun a => if a = 0 then a else a + 1, m.groups :: channels / m.groups :: shape.drop 2, shape.drop 1⟩

/-- `x.shape[self.channel_index]` (`/repo/haiku/_src/group_norm.py` 177); the index is 1 or -1. -/
def channelsOf (c : Int) (shape : List Nat) : Except Err Nat :=
  match (if c = -1 then shape.getLast? else shape[1]?) with
  | some n => .ok n
  | none => .error .index

/-- `jax.lax.broadcast_to_rank(v, rank)` (`/repo/haiku/_src/group_norm.py` 206, 210). -/
def broadcastToRank (v : Arr K) (rank : Nat) : Except Err (Arr K) :=
  if rank < v.shape.length then .error .value
  else .ok ⟨List.replicate (rank - v.shape.length) 1 ++ v.shape, fun i => v.val (i.drop (rank - v.shape.length))⟩

/-- The parameter or the argument (`/repo/haiku/_src/group_norm.py` 193-197). -/
def paramOr (get : ParamFn K) (create : Bool) (module name : String) (shape : List Nat) (arg : Option (Arr K)) : Except Err (Option (Arr K)) :=
  if create then do
    let p ← getParameter get module name shape
    .ok (some p)
  else .ok arg

/-- `x * scale` or `x + offset` where it is given (`/repo/haiku/_src/group_norm.py` 205-211). -/
def applyOpt (f : K → K → K) (x : Arr K) : Option (Arr K) → Except Err (Arr K)
  | none => .ok x
  | some v => do
    let v ← broadcastToRank v x.shape.length
    zip f x v

/-- The rank differs from that of the first call (`/repo/haiku/_src/group_norm.py` 163). -/
def rankChanged (ndim : Nat) : Option GnShapes → Bool
  | some s => decide (ndim ≠ s.rank)
  | none => false

/-- `GroupNorm.__call__` (`/repo/haiku/_src/group_norm.py` 140-213): the output and the object afterwards.  Simplification: a call that raises leaves the object as it was. -/
def GroupNorm.call [Field K] (get : ParamFn K) (rsqrt : K → K) (m : GroupNorm K) (x : Arr K) (scale offset : Option (Arr K)) : Except Err (Arr K × GroupNorm K) :=
  if rankChanged x.shape.length m.shapes = true then .error .value
  else if m.createScale = true ∧ scale.isSome then .error .value
  else if m.createOffset = true ∧ offset.isSome then .error .value
  else do
    let channels ← channelsOf m.channelIndex x.shape
    if m.groups = 0 then .error .zeroDivision
    else if channels % m.groups ≠ 0 then .error .value
    else do
      let s := m.shapes.getD (m.initialize x.shape channels)
      let paramsShape := if m.channelIndex = -1 then [channels] else channels :: List.replicate (s.rank - 2) 1
      let scale ← paramOr get m.createScale m.name "scale" paramsShape scale
      let offset ← paramOr get m.createOffset m.name "offset" paramsShape offset
      let g ← reshapeLead x s.groupShape
      let mean ← mean g s.axis
      let var ← var g s.axis
      let centered ← zip (· - ·) g mean
      let normed ← zip (· * ·) centered (map (fun v => rsqrt (v + m.eps)) var)
      let y ← reshapeLead normed s.firstInputShape
      let y ← applyOpt (· * ·) y scale
      let y ← applyOpt (· + ·) y offset
      .ok (y, { m with shapes := some s })

end Verif.Norm
