import Verif.Model.Pool

/-!
# Recurrent cores

Models `static_unroll`, `dynamic_unroll`, `ResetCore` and `_DeepRNN` of `/repo/haiku/_src/recurrent.py`.

A nested structure is the list of its leaves.  A core is any function of inputs, state and the Haiku state (parameters, state and keys, of any type `σ`), which may raise.
-/

namespace Verif.Recurrent
open Verif.Shapes (Err)
open Verif.Pool (Arr)

variable {K σ : Type}

/-- The leaves of a nested structure, in order (`jax.tree_leaves`, `/repo/haiku/_src/recurrent.py` 121).  Simplification: the shape of the nest itself is not modelled. -/
abbrev Nest (K : Type) := List (Arr K)

/-- The shapes of the leaves (`/repo/haiku/_src/recurrent.py` 121, 691). -/
def shapes (n : Nest K) : List (List Nat) := n.map Arr.shape

/-- A core as a function of inputs and previous state (`RNNCore.__call__`, `/repo/haiku/_src/recurrent.py` 54-67), reading and changing Haiku's own state. -/
abbrev Core (K σ : Type) := Nest K → Nest K → σ → Except Err (Nest K × Nest K × σ)

/-- `x[t]` and `x[:, t]` for `t ≥ 0` (`/repo/haiku/_src/recurrent.py` 125, 127); JAX clamps an index that is too large. -/
def sliceAt (timeMajor : Bool) (t : Nat) (x : Arr K) : Except Err (Arr K) :=
  match timeMajor, x.shape with
  | true, n :: s => .ok ⟨s, fun i => x.val (min t (n - 1) :: i)⟩
  | false, b :: n :: s => .ok ⟨b :: s, fun i => match i with
      | j :: r => x.val (j :: min t (n - 1) :: r)
      | [] => x.val [min t (n - 1)]⟩
  | _, _ => .error .index

/-- `jnp.stack(args, axis)` for axis 0 (`timeMajor`) or 1 (`/repo/haiku/_src/recurrent.py` 133). -/
def stack (timeMajor : Bool) : List (Arr K) → Except Err (Arr K)
  | [] => .error .value
  | x :: xs =>
    if xs.any (fun y => y.shape != x.shape) then .error .value
    else
      match timeMajor, x.shape with
      | true, s => .ok ⟨(xs.length + 1) :: s, fun i => match i with
          | t :: r => ((x :: xs).getD t x).val r
          | [] => x.val []⟩
      | false, b :: s => .ok ⟨b :: (xs.length + 1) :: s, fun i => match i with
          | j :: t :: r => ((x :: xs).getD t x).val (j :: r)
          | [t] => ((x :: xs).getD t x).val []
          | [] => x.val []⟩
      | false, [] => .error .value

/-- `jax.tree_multimap(lambda *args: jnp.stack(args, axis), *outputs)` (`/repo/haiku/_src/recurrent.py` 132-134): without arguments a `TypeError`, with different structures a `ValueError`. -/
def stackNests (timeMajor : Bool) : List (Nest K) → Except Err (Nest K)
  | [] => .error .type
  | o :: os =>
    if os.any (fun p => p.length != o.length) then .error .value
    else (List.range o.length).mapM fun j => stack timeMajor ((o :: os).filterMap (·[j]?))

/-- The loop of `static_unroll` (`/repo/haiku/_src/recurrent.py` 122-129) over the steps that remain. -/
def staticLoop (core : Core K σ) (timeMajor : Bool) (seq : Nest K) : List Nat → Nest K → List (Nest K) → σ → Except Err (List (Nest K) × Nest K × σ)
  | [], state, outs, s => .ok (outs, state, s)
  | t :: ts, state, outs, s => do
    let inputs ← seq.mapM (sliceAt timeMajor t)
    let r ← core inputs state s
    staticLoop core timeMajor seq ts r.2.1 (outs ++ [r.1]) r.2.2

/-- `jax.tree_leaves(input_sequence)[0].shape[time_axis]` (`/repo/haiku/_src/recurrent.py` 120-121). -/
def numSteps (timeMajor : Bool) (seq : Nest K) : Except Err Nat :=
  match seq with
  | [] => .error .index
  | x :: _ =>
    match timeMajor, x.shape with
    | true, n :: _ => .ok n
    | false, _ :: n :: _ => .ok n
    | _, _ => .error .index

/-- `static_unroll` (`/repo/haiku/_src/recurrent.py` 83-135). -/
def staticUnroll (core : Core K σ) (seq : Nest K) (init : Nest K) (timeMajor : Bool) (s : σ) : Except Err (Nest K × Nest K × σ) := do
  let n ← numSteps timeMajor seq
  let r ← staticLoop core timeMajor seq (List.range n) init [] s
  let out ← stackNests timeMajor r.1
  .ok (out, r.2.1, r.2.2)

/-- `jnp.swapaxes(x, 0, 1)` (`/repo/haiku/_src/recurrent.py` 140). -/
def swapaxes (x : Arr K) : Except Err (Arr K) :=
  match x.shape with
  | a :: b :: s => .ok ⟨b :: a :: s, fun i => match i with
      | j :: k :: r => x.val (k :: j :: r)
      | i => x.val i⟩
  | _ => .error .value

/-- `_swap_batch_time` (`/repo/haiku/_src/recurrent.py` 138-140). -/
def swapBatchTime (n : Nest K) : Except Err (Nest K) := n.mapM swapaxes

/-- The steps of `jax.lax.scan` with `scan_f` (`/repo/haiku/_src/recurrent.py` 174-176, 180-183): the carry has to keep its shapes.  The Haiku state is threaded as `hk.scan` does
(`/repo/haiku/_src/stateful.py` 482-510). -/
def scanLoop (core : Core K σ) (seq : Nest K) : List Nat → Nest K → σ → Except Err (List (Nest K) × Nest K × σ)
  | [], state, s => .ok ([], state, s)
  | t :: ts, state, s => do
    let inputs ← seq.mapM (sliceAt true t)
    let r ← core inputs state s
    if shapes r.2.1 ≠ shapes state then .error .type
    else
      let q ← scanLoop core seq ts r.2.1 r.2.2
      .ok (r.1 :: q.1, q.2)

/-- The leading axis of a leaf (`jax.lax.scan`, called at `/repo/haiku/_src/recurrent.py` 180). -/
def leading : Arr K → Except Err Nat
  | ⟨n :: _, _⟩ => .ok n
  | ⟨[], _⟩ => .error .value

/-- `scan(scan_f, initial_state, input_sequence)` (`/repo/haiku/_src/recurrent.py` 180-183): all leaves need the same leading size.  Without steps the body is only traced, here on a default value, to find the
shapes of its outputs.  Simplification: what the core raises while it is traced is what it raises on the values. -/
def scan [Inhabited K] (core : Core K σ) (seq : Nest K) (init : Nest K) (s : σ) : Except Err (Nest K × Nest K × σ) := do
  let ns ← seq.mapM leading
  match ns with
  | [] => .error .value
  | n :: ns =>
    if ns.any (· != n) then .error .value
    else if n = 0 then do
      let r ← core (seq.map fun x => ⟨x.shape.tail, fun _ => default⟩) init s
      if shapes r.2.1 ≠ shapes init then .error .type
      else .ok (r.1.map fun y => ⟨0 :: y.shape, fun _ => default⟩, init, s)
    else do
      let r ← scanLoop core seq (List.range n) init s
      let out ← stackNests true r.1
      .ok (out, r.2.1, r.2.2)

/-- `dynamic_unroll` (`/repo/haiku/_src/recurrent.py` 143-186). -/
def dynamicUnroll [Inhabited K] (core : Core K σ) (seq : Nest K) (init : Nest K) (timeMajor : Bool) (s : σ) : Except Err (Nest K × Nest K × σ) :=
  if timeMajor then scan core seq init s
  else do
    let seq ← swapBatchTime seq
    let r ← scan core seq init s
    let out ← swapBatchTime r.1
    .ok (out, r.2)

end Verif.Recurrent
