import Verif.Model.Recurrent

/-!
# `ResetCore`

Models `ResetCore` of `/repo/haiku/_src/recurrent.py`.
-/

namespace Verif.Recurrent
open Verif.Shapes (Err)
open Verif.Pool (Arr)

variable {K σ : Type}

/-- `_validate_and_conform` (`/repo/haiku/_src/recurrent.py` 578-586): axes of size 1 are added on the right.  The index into the result is cut to the axes of the original. -/
def validateAndConform (r : Arr Bool) (state : Arr K) : Except Err (Arr Bool) :=
  if r.shape = state.shape.take r.shape.length then
    .ok ⟨r.shape ++ List.replicate (state.shape.length - r.shape.length) 1, fun i => r.val (i.take r.shape.length)⟩
  else .error .value

/-- The common shape of two arrays, aligned on the right, given reversed (numpy broadcasting, as used by `jnp.where` at `/repo/haiku/_src/recurrent.py` 680). -/
def broadcastRev : List Nat → List Nat → Option (List Nat)
  | [], s => some s
  | s, [] => some s
  | a :: s, b :: t =>
    if a = b then (broadcastRev s t).map (a :: ·)
    else if a = 1 then (broadcastRev s t).map (b :: ·)
    else if b = 1 then (broadcastRev s t).map (a :: ·)
    else none

/-- The common shape of two arrays (`jnp.where`, `/repo/haiku/_src/recurrent.py` 680). -/
def broadcast (s t : List Nat) : Option (List Nat) := (broadcastRev s.reverse t.reverse).map List.reverse

/-- The position that is read in an array of shape `s` for position `i` of the broadcast result (`jnp.where`, `/repo/haiku/_src/recurrent.py` 680). -/
def project (s i : List Nat) : List Nat := List.zipWith (fun d j => if d = 1 then 0 else j) s (i.drop (i.length - s.length))

/-- `jnp.where(cond, x, y)` (`/repo/haiku/_src/recurrent.py` 680). -/
def jnpWhere (c : Arr Bool) (x y : Arr K) : Except Err (Arr K) :=
  match (broadcast c.shape x.shape).bind (broadcast · y.shape) with
  | none => .error .value
  | some s => .ok ⟨s, fun i => if c.val (project c.shape i) then x.val (project x.shape i) else y.val (project y.shape i)⟩

/-- `should_reset`: an array or a nest (`/repo/haiku/_src/recurrent.py` 624-629). -/
inductive ShouldReset where
  | leaf (r : Arr Bool)
  | nest (rs : List (Arr Bool))

/-- `jax.tree_map(lambda _: should_reset, state)` for an array (`/repo/haiku/_src/recurrent.py` 625-628). -/
def ShouldReset.expand (state : Nest K) : ShouldReset → List (Arr Bool)
  | .leaf r => state.map fun _ => r
  | .nest rs => rs

/-- `jax.tree_multimap(f, xs, ys)`: the structures have to match (`/repo/haiku/_src/recurrent.py` 673, 678-680). -/
def multimap {α β γ : Type} (f : α → β → Except Err γ) : List α → List β → Except Err (List γ)
  | [], [] => .ok []
  | x :: xs, y :: ys => do
    let z ← f x y
    let zs ← multimap f xs ys
    .ok (z :: zs)
  | _, _ => .error .value

/-- A core with its initial state for a batch size or without batch (`RNNCore`, `/repo/haiku/_src/recurrent.py` 42-80). -/
structure RNNCore (K σ : Type) where
  call : Core K σ
  initialState : Option Nat → Except Err (Nest K)

/-- `_is_batched` (`/repo/haiku/_src/recurrent.py` 686-691). -/
def isBatched (core : RNNCore K σ) (state : Nest K) : Except Err Bool :=
  if state = [] then .ok false
  else do
    let batched ← core.initialState (some 1)
    .ok ((batched.zip state).all fun p => p.1.shape.tail = p.2.shape.tail)

/-- `jax.tree_leaves(inputs)[0].shape[0]` (`/repo/haiku/_src/recurrent.py` 675). -/
def batchSize (inputs : Nest K) : Except Err Nat :=
  match inputs with
  | ⟨n :: _, _⟩ :: _ => .ok n
  | _ => .error .index

/-- The batch size for the initial state (`/repo/haiku/_src/recurrent.py` 674-677). -/
def resetBatch (core : RNNCore K σ) (inputs state : Nest K) : Except Err (Option Nat) := do
  let b ← isBatched core state
  if b then
    let n ← batchSize inputs
    .ok (some n)
  else .ok none

/-- The state that the wrapped core is called with (`/repo/haiku/_src/recurrent.py` 624-680).  Simplification: dtypes are not modelled. -/
def resetState (core : RNNCore K σ) (inputs : Nest K) (r : ShouldReset) (state : Nest K) : Except Err (Nest K) := do
  let rs ← multimap validateAndConform (r.expand state) state
  let n ← resetBatch core inputs state
  let init ← core.initialState n
  let init ← multimap (fun _ i => .ok i) state init
  multimap (fun p s => jnpWhere p.1 p.2 s) (rs.zip init) state

/-- `ResetCore.__call__` (`/repo/haiku/_src/recurrent.py` 605-681). -/
def resetCall (core : RNNCore K σ) (inputs : Nest K) (r : ShouldReset) (state : Nest K) (s : σ) : Except Err (Nest K × Nest K × σ) := do
  let st ← resetState core inputs r state
  core.call inputs st s

/-- Calling the `ResetCore` on one step after another, from some state (`/repo/haiku/_src/recurrent.py` 122-129, 605-681): the outputs in order, the final state and the Haiku state. -/
def resetUnroll (core : RNNCore K σ) : List (Nest K × ShouldReset) → Nest K → σ → Except Err (List (Nest K) × Nest K × σ)
  | [], st, s => .ok ([], st, s)
  | (x, r) :: xs, st, s => do
    let a ← resetCall core x r st s
    let b ← resetUnroll core xs a.2.1 a.2.2
    .ok (a.1 :: b.1, b.2)

end Verif.Recurrent
