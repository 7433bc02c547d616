import Verif.Model.Recurrent

/-!
# `DeepRNN`

Models `_DeepRNN`, `DeepRNN` and `deep_rnn_with_skip_connections` of `/repo/haiku/_src/recurrent.py`.
-/

namespace Verif.DeepRnn
open Verif.Shapes (Err)
open Verif.Pool (Arr)
open Verif.Recurrent (Nest)

variable {K T σ : Type}

/-- A layer: an `RNNCore`, called with inputs and its state, with an initial state per batch size (`/repo/haiku/_src/recurrent.py` 42-80), or any other callable (`/repo/haiku/_src/recurrent.py` 723-729).  `T` is the type of
states of the cores (of any structure), `σ` the Haiku state. -/
inductive Layer (K T σ : Type) where
  | core (call : Nest K → T → σ → Except Err (Nest K × T × σ)) (initialState : Option Nat → Except Err T)
  | fn (f : Nest K → σ → Except Err (Nest K × σ))

/-- `isinstance(layer, RNNCore)` (`/repo/haiku/_src/recurrent.py` 709, 723, 742). -/
def Layer.isCore : Layer K T σ → Bool
  | .core _ _ => true
  | .fn _ => false

/-- A `_DeepRNN` object (`/repo/haiku/_src/recurrent.py` 704-705). -/
structure DeepRNN (K T σ : Type) where
  layers : List (Layer K T σ)
  skipConnections : Bool

/-- `_DeepRNN.__init__` (`/repo/haiku/_src/recurrent.py` 697-711). -/
def DeepRNN.make (layers : List (Layer K T σ)) (skip : Bool) : Except Err (DeepRNN K T σ) :=
  if skip && layers.any (fun l => !l.isCore) then .error .value else .ok ⟨layers, skip⟩

/-- The element of `jnp.concatenate` along the last axis, at position `i ++ [j]`: the pieces one after the other (`/repo/haiku/_src/recurrent.py` 718). -/
def pick : Arr K → List (Arr K) → List Nat → Nat → K
  | x, [], i, j => x.val (i ++ [j])
  | x, y :: ys, i, j => if j < x.shape.getLastD 0 then x.val (i ++ [j]) else pick y ys i (j - x.shape.getLastD 0)

/-- `jnp.concatenate(args, axis=-1)` (`/repo/haiku/_src/recurrent.py` 718): at least one argument; no scalars; equal shapes but for the last axis. -/
def concat : List (Arr K) → Except Err (Arr K)
  | [] => .error .value
  | x :: xs =>
    if x.shape = [] ∨ xs.any (fun y => y.shape = [] || y.shape.dropLast ≠ x.shape.dropLast) then .error .value
    else .ok ⟨x.shape.dropLast ++ [((x :: xs).map fun y => y.shape.getLastD 0).sum], fun i => pick x xs i.dropLast (i.getLastD 0)⟩

/-- The leaves of several nests, column by column (`jax.tree_multimap` at `/repo/haiku/_src/recurrent.py` 721, 732): they need the structure of the first. -/
def columns {α : Type} : List α → List (List α) → Except Err (List (List α))
  | xs, [] => .ok (xs.map fun x => [x])
  | xs, ys :: rest => do
    let cols ← columns ys rest
    if cols.length = xs.length then .ok (List.zipWith (· :: ·) xs cols) else .error .value

/-- `jax.tree_multimap(concat, *nests)` (`/repo/haiku/_src/recurrent.py` 721, 732): without a nest the call lacks an argument. -/
def concatNests : List (Nest K) → Except Err (Nest K)
  | [] => .error .type
  | x :: xs => do
    let cols ← columns x xs
    cols.mapM concat

/-- The inputs for the layer number `idx` (`/repo/haiku/_src/recurrent.py` 720-721). -/
def layerInput (skip : Bool) (inputs : Nest K) (idx : Nat) (current : Nest K) : Except Err (Nest K) :=
  if skip && decide (0 < idx) then concatNests [inputs, current] else .ok current

/-- `state[state_idx]` (`/repo/haiku/_src/recurrent.py` 724). -/
def getState (state : List T) (i : Nat) : Except Err T :=
  match state[i]? with
  | some t => .ok t
  | none => .error .index

/-- The local variables of `__call__` (`/repo/haiku/_src/recurrent.py` 714-717), with the Haiku state. -/
structure Loop (K T σ : Type) where
  current : Nest K
  nextStates : List T
  outputs : List (Nest K)
  stateIdx : Nat
  hk : σ

/-- One round of the loop (`/repo/haiku/_src/recurrent.py` 719-729). -/
def step (skip : Bool) (inputs : Nest K) (state : List T) (idx : Nat) (layer : Layer K T σ) (l : Loop K T σ) : Except Err (Loop K T σ) := do
  let current ← layerInput skip inputs idx l.current
  match layer with
  | .core call _ =>
    let t ← getState state l.stateIdx
    let r ← call current t l.hk
    .ok ⟨r.1, l.nextStates ++ [r.2.1], l.outputs ++ [r.1], l.stateIdx + 1, r.2.2⟩
  | .fn f =>
    let r ← f current l.hk
    .ok { l with current := r.1, hk := r.2 }

/-- The loop (`/repo/haiku/_src/recurrent.py` 719-729). -/
def loop (skip : Bool) (inputs : Nest K) (state : List T) : Nat → List (Layer K T σ) → Loop K T σ → Except Err (Loop K T σ)
  | _, [], l => .ok l
  | idx, layer :: layers, l => do
    let l ← step skip inputs state idx layer l
    loop skip inputs state (idx + 1) layers l

/-- `_DeepRNN.__call__` (`/repo/haiku/_src/recurrent.py` 713-736). -/
def DeepRNN.call (d : DeepRNN K T σ) (inputs : Nest K) (state : List T) (s : σ) : Except Err (Nest K × List T × σ) := do
  let l ← loop d.skipConnections inputs state 0 d.layers ⟨inputs, [], [], 0, s⟩
  let out ← if d.skipConnections then concatNests l.outputs else .ok l.current
  .ok (out, l.nextStates, l.hk)

/-- The initial states of the cores among the layers, in order (`/repo/haiku/_src/recurrent.py` 739-742). -/
def initialStates (batch : Option Nat) : List (Layer K T σ) → Except Err (List T)
  | [] => .ok []
  | .core _ init :: layers => do
    let t ← init batch
    let ts ← initialStates batch layers
    .ok (t :: ts)
  | .fn _ :: layers => initialStates batch layers

/-- `_DeepRNN.initial_state` (`/repo/haiku/_src/recurrent.py` 738-742). -/
def DeepRNN.initialState (d : DeepRNN K T σ) (batch : Option Nat) : Except Err (List T) := initialStates batch d.layers

/-- `hk.DeepRNN(layers)` (`/repo/haiku/_src/recurrent.py` 759-760). -/
def deepRNN (layers : List (Layer K T σ)) : Except Err (DeepRNN K T σ) := DeepRNN.make layers false

/-- `hk.deep_rnn_with_skip_connections(layers)` (`/repo/haiku/_src/recurrent.py` 763-791). -/
def deepRNNWithSkipConnections (layers : List (Layer K T σ)) : Except Err (DeepRNN K T σ) := DeepRNN.make layers true

end Verif.DeepRnn
