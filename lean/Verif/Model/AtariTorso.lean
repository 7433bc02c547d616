import Verif.Model.MobileNet

/-!
# The torsos of the Atari network

Models `AtariShallowTorso`, `ResidualBlock` and `AtariDeepTorso` of `/repo/examples/impala/haiku_nets.py` on the models of convolutions, pooling and linear layers, in exact arithmetic.  Parameters are what `hk.get_parameter` gives; dtypes and initializers
are not modelled.
-/

namespace Verif.AtariTorso
open Verif.Shapes (Err)
open Verif.Pool (Arr)
open Verif.Mlp (ParamFn Linear)
open Verif.ConvArr (Module)
open Verif.ResNet (relu maxPool)
open Verif.MobileNet (numbered flatten)

variable {K : Type}

/-- `hk.Conv2D(output_channels, kernel_shape=[k, k], stride=[s, s], padding=…)` and its call (`/repo/examples/impala/haiku_nets.py` 66, 68, 70, 89-93, 95-99, 113-115); the other arguments are the defaults at `/repo/haiku/_src/conv.py` 289-303. -/
def conv2d [Field K] (get : ParamFn K) (name : String) (outputChannels : Nat) (k s : Int) (padding : String) (x : Arr K) : Except Err (Arr K) := do
  let m ← Module.make (K := K) name 2 outputChannels (.seq [k, k]) (.seq [s, s]) (.scalar 1) (.str padding.toList) true "NHWC".toList none 1
  m.call get x

/-- `x / 255.` (`/repo/examples/impala/haiku_nets.py` 65, 111). -/
def scaled [Field K] (x : Arr K) : Arr K := Verif.Nd.map (fun v => v / 255) x

/-- `hk.Linear(output_size)` and its call (`/repo/examples/impala/haiku_nets.py` 73, 128). -/
def linear [Field K] [LinearOrder K] (get : ParamFn K) (name : String) (outputSize : Nat) (x : Arr K) : Except Err (Arr K) := do
  let (out, _) ← (⟨name, none, some outputSize, true⟩ : Linear).call get x
  .ok out

/-- `AtariShallowTorso.__call__` (`/repo/examples/impala/haiku_nets.py` 63-76); the layers are made in `__call__`, so that their names are below that of the torso, numbered in order. -/
def shallow [Field K] [LinearOrder K] (get : ParamFn K) (name : String) (x : Arr K) : Except Err (Arr K) := do
  let x ← conv2d get (name ++ "/" ++ numbered "conv2_d" 0) 32 8 4 "VALID" (scaled x)
  let x ← conv2d get (name ++ "/" ++ numbered "conv2_d" 1) 64 4 2 "VALID" (relu x)
  let x ← conv2d get (name ++ "/" ++ numbered "conv2_d" 2) 64 3 1 "VALID" (relu x)
  let x ← linear get (name ++ "/linear") 512 (flatten (relu x))
  .ok (relu x)

/-- `ResidualBlock.__call__` (`/repo/examples/impala/haiku_nets.py` 86-101). -/
def residualBlock [Field K] [LinearOrder K] (get : ParamFn K) (name : String) (numChannels : Nat) (x : Arr K) : Except Err (Arr K) := do
  let y ← conv2d get (name ++ "/" ++ numbered "conv2_d" 0) numChannels 3 1 "SAME" (relu x)
  let y ← conv2d get (name ++ "/" ++ numbered "conv2_d" 1) numChannels 3 1 "SAME" (relu y)
  Verif.Nd.zip (· + ·) y x

/-- `for j in range(num_blocks)` (`/repo/examples/impala/haiku_nets.py` 122-124), `n` rounds from `j` on. -/
def blocks [Field K] [LinearOrder K] (get : ParamFn K) (name : String) (i numChannels : Nat) : Nat → Nat → Arr K → Except Err (Arr K)
  | _, 0, x => .ok x
  | j, n + 1, x => do
    let x ← residualBlock get (name ++ "/residual_" ++ toString i ++ "_" ++ toString j) numChannels x
    blocks get name i numChannels (j + 1) n x

/-- The loop over the sections (`/repo/examples/impala/haiku_nets.py` 112-124), from number `i` on. -/
def sections [Field K] [LinearOrder K] (get : ParamFn K) (name : String) : Nat → List (Nat × Nat) → Arr K → Except Err (Arr K)
  | _, [], x => .ok x
  | i, (numChannels, numBlocks) :: rest, x => do
    let x ← conv2d get (name ++ "/" ++ numbered "conv2_d" i) numChannels 3 1 "SAME" x
    let x ← maxPool x [1, 3, 3, 1] [1, 2, 2, 1]
    let x ← blocks get name i numChannels 0 numBlocks x
    sections get name (i + 1) rest x

/-- `[(16, 2), (32, 2), (32, 2)]` (`/repo/examples/impala/haiku_nets.py` 112). -/
def layout : List (Nat × Nat) := [(16, 2), (32, 2), (32, 2)]

/-- `AtariDeepTorso.__call__` (`/repo/examples/impala/haiku_nets.py` 110-130). -/
def deep [Field K] [LinearOrder K] (get : ParamFn K) (name : String) (x : Arr K) : Except Err (Arr K) := do
  let x ← sections get name 0 layout (scaled x)
  let x ← linear get (name ++ "/linear") 256 (flatten (relu x))
  .ok (relu x)

end Verif.AtariTorso
