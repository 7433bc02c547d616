import Mathlib.Algebra.Field.Defs
import Verif.Model.Mlp
import Verif.Model.Reset

/-!
# Array functions of JAX used by the normalisation layers

Value semantics of `jnp.mean`, `jnp.var`, `jnp.broadcast_to`, `jnp.reshape` and element-wise arithmetic, as called by `/repo/haiku/_src/batch_norm.py`,
`/repo/haiku/_src/layer_norm.py` and `/repo/haiku/_src/group_norm.py`, in exact arithmetic.
-/

namespace Verif.Nd
open Verif.Shapes (Err)
open Verif.Pool (Arr)
open Verif.Conv (indices)
open Verif.Recurrent (broadcast project)

variable {K : Type}

/-- One axis argument of a reduction (`axis` of `jnp.mean`, `/repo/haiku/_src/layer_norm.py` 123): negative axes count from the end; an axis out of range is a `ValueError`. -/
def canonAxis (ndim : Nat) (a : Int) : Except Err Nat :=
  if -(ndim : Int) ≤ a ∧ a < ndim then .ok (if a < 0 then a + ndim else a).toNat else .error .value

/-- The axes of a reduction (`jnp.mean`, `/repo/haiku/_src/layer_norm.py` 123): an axis given twice is a `ValueError`. -/
def canonAxes (ndim : Nat) (axes : List Int) : Except Err (List Nat) := do
  let l ← axes.mapM (canonAxis ndim)
  if l.Nodup then .ok l else .error .value

/-- The two positions differ at most on the reduced axes (`jnp.mean`, `/repo/haiku/_src/layer_norm.py` 123). -/
def agree (axes i j : List Nat) : Bool := (List.range j.length).all fun k => decide (k ∈ axes) || i.getD k 0 == j.getD k 0

/-- The shape after a reduction with `keepdims=True` (`/repo/haiku/_src/layer_norm.py` 123). -/
def keepShape (axes : List Nat) (shape : List Nat) : List Nat := shape.mapIdx fun k n => if k ∈ axes then 1 else n

/-- The positions that are reduced to position `i` (`jnp.mean`, `/repo/haiku/_src/layer_norm.py` 123). -/
def cell (axes shape i : List Nat) : List (List Nat) := (indices shape).filter (agree axes i)

/-- `jnp.mean(x, axis, keepdims=True)` (`/repo/haiku/_src/layer_norm.py` 123).  Simplification: the mean of nothing is 0 instead of NaN. -/
def mean [Field K] (x : Arr K) (axes : List Int) : Except Err (Arr K) := do
  let axes ← canonAxes x.shape.length axes
  .ok ⟨keepShape axes x.shape, fun i => ((cell axes x.shape i).map x.val).sum / ((cell axes x.shape i).length : K)⟩

/-- Element-wise function of one array (`jax.lax.rsqrt`, `/repo/haiku/_src/layer_norm.py` 143). -/
def map (f : K → K) (x : Arr K) : Arr K := ⟨x.shape, fun i => f (x.val i)⟩

/-- Element-wise function of two arrays with broadcasting (`+`, `-`, `*` at `/repo/haiku/_src/layer_norm.py` 143-144); shapes that do not fit are a `TypeError`. -/
def zip (f : K → K → K) (x y : Arr K) : Except Err (Arr K) :=
  match broadcast x.shape y.shape with
  | none => .error .type
  | some s => .ok ⟨s, fun i => f (x.val (project x.shape i)) (y.val (project y.shape i))⟩

/-- `jnp.var(x, axis, keepdims=True)` (`/repo/haiku/_src/layer_norm.py` 124): the mean of the squared distances from the mean. -/
def var [Field K] (x : Arr K) (axes : List Int) : Except Err (Arr K) := do
  let m ← mean x axes
  let c ← zip (· - ·) x m
  mean (map (fun v => v * v) c) axes

/-- `jnp.broadcast_to(x, shape)` (`/repo/haiku/_src/layer_norm.py` 139-141). -/
def broadcastTo (x : Arr K) (shape : List Nat) : Except Err (Arr K) :=
  if broadcast x.shape shape = some shape then .ok ⟨shape, fun i => x.val (project x.shape i)⟩ else .error .value

/-- An array of rank 0 (`np.array(1., dtype=...)`, `/repo/haiku/_src/layer_norm.py` 131). -/
def scalar (v : K) : Arr K := ⟨[], fun _ => v⟩

/-- Row-major position of an index (`jnp.reshape`, `/repo/haiku/_src/group_norm.py` 199, 203). -/
def ravel : List Nat → List Nat → Nat
  | _ :: ns, i :: is => i * Verif.Shapes.size ns + ravel ns is
  | _, _ => 0

/-- Index of a row-major position (`jnp.reshape`, `/repo/haiku/_src/group_norm.py` 199, 203). -/
def unravel : List Nat → Nat → List Nat
  | [], _ => []
  | _ :: ns, p => p / Verif.Shapes.size ns :: unravel ns (p % Verif.Shapes.size ns)

/-- `x.reshape((-1,) + rest)` (`/repo/haiku/_src/group_norm.py` 199, 203): the first size is inferred; the number of elements has to be a multiple of the rest (a `TypeError` otherwise).
Simplification: with no elements in `rest` the call is an error. -/
def reshapeLead (x : Arr K) (rest : List Nat) : Except Err (Arr K) :=
  let n := Verif.Shapes.size x.shape
  let m := Verif.Shapes.size rest
  if m = 0 ∨ n % m ≠ 0 then .error .type
  else .ok ⟨n / m :: rest, fun i => x.val (unravel x.shape (ravel (n / m :: rest) i))⟩

end Verif.Nd
