import Mathlib.Algebra.BigOperators.Group.Finset.Basic
import Verif.Model.VQ

/-!
# Spectral normalisation

Models `SpectralNorm` of `/repo/haiku/_src/spectral_norm.py` in exact arithmetic.
-/

namespace Verif.Spectral
open Verif.Shapes (Err size)
open Verif.Pool (Arr)
open Verif.Nd (reshapeLead map)
open Verif.VQ (reshapeTo)

variable {K : Type} [Field K]

/-- `_l2_normalize(x, eps=eps)` of a row vector with `n` entries (`/repo/haiku/_src/spectral_norm.py` 46-61). -/
def l2Normalize (rsqrt : K → K) (eps : K) (n : Nat) (x : Nat → K) : Nat → K := fun i => x i * rsqrt (∑ k ∈ Finset.range n, x k * x k + eps)

/-- `jnp.matmul(u0, value.transpose([1, 0]))` for a row `u` (`/repo/haiku/_src/spectral_norm.py` 134). -/
def timesTranspose (cols : Nat) (u : Nat → K) (w : Nat → Nat → K) : Nat → K := fun r => ∑ c ∈ Finset.range cols, u c * w r c

/-- `jnp.matmul(v0, value)` for a row `v` (`/repo/haiku/_src/spectral_norm.py` 135, 140). -/
def times (rows : Nat) (v : Nat → K) (w : Nat → Nat → K) : Nat → K := fun c => ∑ r ∈ Finset.range rows, v r * w r c

/-- One step of the power iteration: `v0` and the new `u0` (`/repo/haiku/_src/spectral_norm.py` 134-135). -/
def step (rsqrt : K → K) (eps : K) (rows cols : Nat) (w : Nat → Nat → K) (u : Nat → K) : (Nat → K) × (Nat → K) :=
  let v := l2Normalize rsqrt eps rows (timesTranspose cols u w)
  (v, l2Normalize rsqrt eps cols (times rows v w))

/-- The loop (`/repo/haiku/_src/spectral_norm.py` 133-135): the last `v0`, which is not bound before the first step, and `u0`. -/
def iterate (rsqrt : K → K) (eps : K) (rows cols : Nat) (w : Nat → Nat → K) : Nat → Option (Nat → K) × (Nat → K) → Option (Nat → K) × (Nat → K)
  | 0, s => s
  | n + 1, s => iterate rsqrt eps rows cols w n (some (step rsqrt eps rows cols w s.2).1, (step rsqrt eps rows cols w s.2).2)

/-- A `SpectralNorm` object (`/repo/haiku/_src/spectral_norm.py` 86-87). -/
structure SpectralNorm (K : Type) where
  eps : K
  nSteps : Int

/-- The state entries (`/repo/haiku/_src/spectral_norm.py` 129, 146-147). -/
structure State (K : Type) where
  u0 : Option (Arr K)
  sigma : Option K

/-- The matrix that is normalised (`/repo/haiku/_src/spectral_norm.py` 114-127). -/
def matrix (value : Arr K) (errorOnNonMatrix : Bool) : Except Err (Arr K) :=
  if value.shape.length ≤ 1 then .error .value
  else if 2 < value.shape.length then
    if errorOnNonMatrix then .error .value else reshapeLead value [value.shape.getLastD 0]
  else .ok value

/-- `SpectralNorm.__call__` (`/repo/haiku/_src/spectral_norm.py` 89-149): the result and the state.  `init` is what the initializer of `u0` returns; the state keeps it even without `update_stats`.
Without a step `v0` is not bound (an `UnboundLocalError`, which is a `NameError`).  Simplification: a division by zero gives zero. -/
def SpectralNorm.call (m : SpectralNorm K) (rsqrt : K → K) (init : List Nat → Arr K) (st : State K) (value : Arr K) (updateStats errorOnNonMatrix : Bool) : Except Err (Arr K × State K) := do
  let w ← matrix value errorOnNonMatrix
  let rows := w.shape.headD 0
  let cols := w.shape.getLastD 0
  let u0 := st.u0.getD (init [1, cols])
  if u0.shape ≠ [1, cols] then .error .type
  else
    match iterate rsqrt m.eps rows cols (fun r c => w.val [r, c]) m.nSteps.toNat (none, fun c => u0.val [0, c]) with
    | (none, _) => .error .name
    | (some v, u) => do
      let sigma := ∑ c ∈ Finset.range cols, times rows v (fun r c => w.val [r, c]) c * u c
      let out ← reshapeTo (map (· / sigma) w) value.shape
      .ok (out, if updateStats then ⟨some ⟨[1, cols], fun i => u (i.getD 1 0)⟩, some sigma⟩ else ⟨some u0, st.sigma⟩)

/-- A history of calls (`/repo/haiku/_src/spectral_norm.py` 89-149, called any number of times). -/
def SpectralNorm.after (m : SpectralNorm K) (rsqrt : K → K) (init : List Nat → Arr K) (st : State K) : List (Arr K × Bool × Bool) → Except Err (State K)
  | [] => .ok st
  | (value, u, e) :: rest => do
    let (_, st) ← m.call rsqrt init st value u e
    m.after rsqrt init st rest

end Verif.Spectral
