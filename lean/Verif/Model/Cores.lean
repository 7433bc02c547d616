import Verif.Model.Nd

/-!
# Recurrent cores

Models `VanillaRNN`, `LSTM`, `GRU` and `IdentityCore` of `/repo/haiku/_src/recurrent.py` in exact arithmetic; the logistic function and the hyperbolic tangent are any functions.
Dtypes are not modelled.
-/

namespace Verif.Cores
open Verif.Shapes (Err)
open Verif.Pool (Arr)
open Verif.Mlp (ParamFn getParameter Linear dot)
open Verif.Recurrent (Nest Core RNNCore)
open Verif.Nd (zip map broadcastTo)

variable {K : Type}

/-- `jnp.concatenate([x, y], axis=-1)` (`/repo/haiku/_src/recurrent.py` 299): all sizes but the last have to be equal; arrays of different rank are a `TypeError`, arrays of rank 0 a `ValueError`. -/
def concatLast (x y : Arr K) : Except Err (Arr K) :=
  match x.shape.getLast?, y.shape.getLast? with
  | some n, some m =>
    if x.shape.dropLast = y.shape.dropLast then
      .ok ⟨x.shape.dropLast ++ [n + m], fun i => if i.getLastD 0 < n then x.val i else y.val (i.dropLast ++ [i.getLastD 0 - n])⟩
    else .error .type
  | _, _ => .error .value

/-- The columns `start` to `start + n` of the last axis, one of the results of `jnp.split` (`/repo/haiku/_src/recurrent.py` 303, 541-542, 545-546, 549). -/
def columns (start n : Nat) (x : Arr K) : Arr K := ⟨x.shape.dropLast ++ [n], fun i => x.val (i.dropLast ++ [start + i.getLastD 0])⟩

/-- `jnp.zeros([hidden_size])`, with `add_batch` if a batch size is given (`/repo/haiku/_src/recurrent.py` 189-192, 234-238, 309-314, 557-561). -/
def zeroState [Zero K] (hiddenSize : Nat) (batchSize : Option Nat) : Arr K := ⟨batchSize.toList ++ [hiddenSize], fun _ => 0⟩

/-- A `VanillaRNN` object (`/repo/haiku/_src/recurrent.py` 223-225). -/
structure VanillaRNN where
  name : String
  hiddenSize : Nat
  doubleBias : Bool

/-- `VanillaRNN.__call__` (`/repo/haiku/_src/recurrent.py` 227-232); `jax.nn.relu` is `max(x, 0)`.  Output and next state are the same array. -/
def VanillaRNN.call [Field K] [LinearOrder K] (get : ParamFn K) (m : VanillaRNN) (x h : Arr K) : Except Err (Arr K) := do
  let (a, _) ← (⟨m.name ++ "/linear", none, some m.hiddenSize, true⟩ : Linear).call get x
  let (b, _) ← (⟨m.name ++ "/linear_1", none, some m.hiddenSize, m.doubleBias⟩ : Linear).call get h
  let s ← zip (· + ·) a b
  .ok (map (max · 0) s)

/-- An `LSTM` object (`/repo/haiku/_src/recurrent.py` 289-290). -/
structure LSTM where
  name : String
  hiddenSize : Nat

/-- `LSTM.__call__` (`/repo/haiku/_src/recurrent.py` 292-307): the next hidden state, which is also the output, and the next cell state.  The linear layer has `4 * hidden_size` outputs, so that `jnp.split`
never fails. -/
def LSTM.call [Field K] (get : ParamFn K) (sigmoid tanh : K → K) (m : LSTM) (x h c : Arr K) : Except Err (Arr K × Arr K) :=
  if 2 < x.shape.length ∨ x.shape = [] then .error .value
  else do
    let xh ← concatLast x h
    let (gated, _) ← (⟨m.name ++ "/linear", none, some (4 * m.hiddenSize), true⟩ : Linear).call get xh
    let i := columns 0 m.hiddenSize gated
    let g := columns m.hiddenSize m.hiddenSize gated
    let f := columns (2 * m.hiddenSize) m.hiddenSize gated
    let o := columns (3 * m.hiddenSize) m.hiddenSize gated
    let f := map (fun v => sigmoid (v + 1)) f
    let fc ← zip (· * ·) f c
    let ig ← zip (· * ·) (map sigmoid i) (map tanh g)
    let c ← zip (· + ·) fc ig
    let h ← zip (· * ·) (map sigmoid o) (map tanh c)
    .ok (h, c)

/-- A `GRU` object (`/repo/haiku/_src/recurrent.py` 524-528). -/
structure GRU where
  name : String
  hiddenSize : Nat

/-- `jnp.matmul(x, w)` for a matrix `w` with `n` rows and `m` columns (`/repo/haiku/_src/recurrent.py` 544, 547, 551): a rank of 0 or another last size is a `TypeError`. -/
def matmul [AddCommMonoid K] [Mul K] (x w : Arr K) (n m : Nat) : Except Err (Arr K) :=
  if x.shape.getLast? = some n then .ok (dot x w n m) else .error .type

/-- `GRU.__call__` (`/repo/haiku/_src/recurrent.py` 530-555).  Output and next state are the same array. -/
def GRU.call [Field K] (get : ParamFn K) (sigmoid tanh : K → K) (m : GRU) (x h : Arr K) : Except Err (Arr K) :=
  if x.shape.length ≠ 1 ∧ x.shape.length ≠ 2 then .error .value
  else do
    let n := x.shape.getLastD 0
    let hs := m.hiddenSize
    let wi ← getParameter get m.name "w_i" [n, 3 * hs]
    let wh ← getParameter get m.name "w_h" [hs, 3 * hs]
    let b ← getParameter get m.name "b" [3 * hs]
    let whz := columns 0 (2 * hs) wh
    let wha := columns (2 * hs) hs wh
    let bz := columns 0 (2 * hs) b
    let ba := columns (2 * hs) hs b
    let gatesX ← matmul x wi n (3 * hs)
    let zrX := columns 0 (2 * hs) gatesX
    let aX := columns (2 * hs) hs gatesX
    let zrH ← matmul h whz hs (2 * hs)
    let zr ← zip (· + ·) zrX zrH
    let bz ← broadcastTo bz zrH.shape
    let zr ← zip (· + ·) zr bz
    let z := columns 0 hs (map sigmoid zr)
    let r := columns hs hs (map sigmoid zr)
    let rh ← zip (· * ·) r h
    let aH ← matmul rh wha hs hs
    let a ← zip (· + ·) aX aH
    let ba ← broadcastTo ba aH.shape
    let a ← zip (· + ·) a ba
    let zh ← zip (· * ·) (map (1 - ·) z) h
    let za ← zip (· * ·) z (map tanh a)
    zip (· + ·) zh za

/-- A core made of one array of inputs and one of state (`/repo/haiku/_src/recurrent.py` 227-232, 530-555). -/
def core1 {σ : Type} (f : Arr K → Arr K → Except Err (Arr K)) : Core K σ := fun x st s =>
  match x, st with
  | [x], [h] => do
    let h ← f x h
    .ok ([h], [h], s)
  | _, _ => .error .attribute

/-- `LSTM` as a core; the state is the pair of hidden and cell state (`/repo/haiku/_src/recurrent.py` 292-307). -/
def LSTM.core {σ : Type} [Field K] (get : ParamFn K) (sigmoid tanh : K → K) (m : LSTM) : Core K σ := fun x st s =>
  match x, st with
  | [x], [h, c] => do
    let (h, c) ← m.call get sigmoid tanh x h c
    .ok ([h], [h, c], s)
  | _, _ => .error .attribute

/-- `IdentityCore` (`/repo/haiku/_src/recurrent.py` 564-575). -/
def identityCore {σ : Type} : Core K σ := fun x st s => .ok (x, st, s)

/-- `LSTM` with its initial state (`/repo/haiku/_src/recurrent.py` 292-314). -/
def lstmCore {σ : Type} [Field K] (get : ParamFn K) (sigmoid tanh : K → K) (m : LSTM) : RNNCore K σ := ⟨m.core get sigmoid tanh, fun b => .ok [zeroState m.hiddenSize b, zeroState m.hiddenSize b]⟩

/-- `GRU` with its initial state (`/repo/haiku/_src/recurrent.py` 530-561). -/
def gruCore {σ : Type} [Field K] (get : ParamFn K) (sigmoid tanh : K → K) (m : GRU) : RNNCore K σ := ⟨core1 (m.call get sigmoid tanh), fun b => .ok [zeroState m.hiddenSize b]⟩

end Verif.Cores
