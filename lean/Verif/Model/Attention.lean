import Verif.Model.Nd
import Verif.Model.VQ

/-!
# Multi-head attention

Models `MultiHeadAttention` of `/repo/haiku/_src/attention.py` in exact arithmetic; the exponential function and the square root are any functions.  Dtypes are not modelled.
-/

namespace Verif.Attention
open Verif.Shapes (Err size)
open Verif.Pool (Arr)
open Verif.Mlp (ParamFn Linear)
open Verif.Nd (zip map ravel unravel)
open Verif.VQ (reshapeTo)

variable {K : Type}

/-- A `MultiHeadAttention` object (`/repo/haiku/_src/attention.py` 53-59); the initializer only matters to `get_parameter`. -/
structure MHA where
  name : String
  numHeads : Nat
  keySize : Nat
  querySize : Nat
  valueSize : Nat
  modelSize : Nat
  deriving DecidableEq, Repr

/-- `x or y` for an optional size (`/repo/haiku/_src/attention.py` 56-58): a size of 0 counts as not given. -/
def orElse (x : Option Nat) (y : Nat) : Nat :=
  match x with
  | some (n + 1) => n + 1
  | _ => y

/-- `MultiHeadAttention.__init__` (`/repo/haiku/_src/attention.py` 43-59). -/
def MHA.make (name : String) (numHeads keySize : Nat) (querySize valueSize modelSize : Option Nat) : MHA :=
  ⟨name, numHeads, keySize, orElse querySize keySize, orElse valueSize keySize, orElse modelSize (keySize * numHeads)⟩

/-- `_linear_projection` (`/repo/haiku/_src/attention.py` 86-94).  The method is transparent, so the linear layer belongs to the scope of the module. -/
def MHA.project [Field K] (get : ParamFn K) (m : MHA) (x : Arr K) (headSize : Nat) (name : String) : Except Err (Arr K) := do
  let (y, _) ← (⟨m.name ++ "/" ++ name, none, some (m.numHeads * headSize), true⟩ : Linear).call get x
  reshapeTo y (x.shape.take 2 ++ [m.numHeads, headSize])

/-- The size of a label that two operands of `jnp.einsum` share (`/repo/haiku/_src/attention.py` 73, 80): equal, or one of them 1. -/
def shared (a b : Nat) : Except Err Nat := if a = b then .ok a else if a = 1 then .ok b else if b = 1 then .ok a else .error .value

/-- The index of an operand whose size for the label is `n` (`/repo/haiku/_src/attention.py` 73, 80). -/
def pick (n i : Nat) : Nat := if n = 1 then 0 else i

/-- `jnp.einsum("bthd,bThd->bhtT", q, k)` (`/repo/haiku/_src/attention.py` 73); operands of another rank are a `ValueError`. -/
def einsumQK [Field K] (q k : Arr K) : Except Err (Arr K) :=
  match q.shape, k.shape with
  | [b, t, h, d], [b', t', h', d'] => do
    let B ← shared b b'
    let H ← shared h h'
    let D ← shared d d'
    .ok ⟨[B, H, t, t'], fun i => ∑ e ∈ Finset.range D, q.val [pick b (i.getD 0 0), i.getD 2 0, pick h (i.getD 1 0), pick d e] * k.val [pick b' (i.getD 0 0), i.getD 3 0, pick h' (i.getD 1 0), pick d' e]⟩
  | _, _ => .error .value

/-- `jnp.einsum("bhtT,bThd->bthd", w, v)` (`/repo/haiku/_src/attention.py` 80); operands of another rank are a `ValueError`. -/
def einsumWV [Field K] (w v : Arr K) : Except Err (Arr K) :=
  match w.shape, v.shape with
  | [b, h, t, t'], [b', t'', h', d] => do
    let B ← shared b b'
    let H ← shared h h'
    let T ← shared t' t''
    .ok ⟨[B, t, H, d], fun i => ∑ e ∈ Finset.range T, w.val [pick b (i.getD 0 0), pick h (i.getD 2 0), i.getD 1 0, pick t' e] * v.val [pick b' (i.getD 0 0), pick t'' e, pick h' (i.getD 2 0), i.getD 3 0]⟩
  | _, _ => .error .value

/-- The maximum of `f 0`, …, `f (n - 1)` (`jax.nn.softmax`, `/repo/haiku/_src/attention.py` 79). -/
def maximum [LinearOrder K] (n : Nat) (f : Nat → K) : K := (List.range n).foldl (fun a j => max a (f j)) (f 0)

/-- `jax.nn.softmax(x)` over the last axis (`/repo/haiku/_src/attention.py` 79): the exponentials of the distances from the maximum, divided by their sum.  The maximum of nothing is a `ValueError`. -/
def softmax [Field K] [LinearOrder K] (exp : K → K) (x : Arr K) : Except Err (Arr K) :=
  match x.shape.getLast? with
  | none => .error .value
  | some n =>
    if n = 0 then .error .value
    else .ok ⟨x.shape, fun i =>
      let row := fun j => x.val (i.dropLast ++ [j])
      let top := maximum n row
      exp (x.val i - top) / ∑ j ∈ Finset.range n, exp (row j - top)⟩

/-- `attention_logits -= 1e10 * (1. - mask)` if there is a mask (`/repo/haiku/_src/attention.py` 76-77). -/
def applyMask [Field K] (logits : Arr K) (mask : Option (Arr K)) : Except Err (Arr K) :=
  match mask with
  | none => .ok logits
  | some mask => zip (· - ·) logits (map (fun v => 10000000000 * (1 - v)) mask)

/-- `jnp.reshape(x, (*lead, -1))` (`/repo/haiku/_src/attention.py` 82): the last size is inferred.  Simplification: with no elements in `lead` the call is an error. -/
def reshapeLast (x : Arr K) (lead : List Nat) : Except Err (Arr K) :=
  let n := size x.shape
  let m := size lead
  if m = 0 then .error .zeroDivision
  else if n % m ≠ 0 then .error .type
  else .ok ⟨lead ++ [n / m], fun i => x.val (unravel x.shape (ravel (lead ++ [n / m]) i))⟩

/-- `MultiHeadAttention.__call__` (`/repo/haiku/_src/attention.py` 61-84).  Simplification: with a key size of 0 the logits are 0 instead of NaN. -/
def MHA.call [Field K] [LinearOrder K] (get : ParamFn K) (exp : K → K) (sqrt : Nat → K) (m : MHA) (query key value : Arr K) (mask : Option (Arr K)) : Except Err (Arr K) := do
  let q ← m.project get query m.querySize "query"
  let k ← m.project get key m.keySize "key"
  let v ← m.project get value m.valueSize "value"
  let logits ← einsumQK q k
  let logits ← applyMask (map (· / sqrt m.keySize) logits) mask
  let weights ← softmax exp logits
  let attention ← einsumWV weights v
  let vec ← reshapeLast attention (query.shape.take 2)
  let (out, _) ← (⟨m.name ++ "/linear", none, some m.modelSize, true⟩ : Linear).call get vec
  .ok out

end Verif.Attention
