import Verif.Model.Cores
import Verif.Model.DeepRnn
import Verif.Model.Transformer
import Verif.Model.ResNet

/-!
# The character model example

Models `/repo/examples/rnn/train.py` and `/repo/examples/rnn/dataset.py` on the models of `DeepRNN`, `LSTM`, `MLP` and `dynamic_unroll`, in exact arithmetic.  Elementary functions and `jax.random.categorical` are any functions;
parameters are what `hk.get_parameter` gives.  The optimiser, `jax.grad`, `jax.jit` and flags are not modelled.
-/

namespace Verif.CharRnn
open Verif.Shapes (Err)
open Verif.Pool (Arr)
open Verif.Mlp (ParamFn MLP)
open Verif.Nd (zip map)
open Verif.Recurrent (Nest Core dynamicUnroll sliceAt)
open Verif.Cores (LSTM lstmCore)
open Verif.DeepRnn (Layer DeepRNN deepRNN)
open Verif.Transformer (logSoftmax)
open Verif.ResNet (relu)
open Verif.Conv (indices)

variable {K : Type}

/-- `NUM_CHARS` (`/repo/examples/rnn/dataset.py` 24). -/
def numChars : Nat := 128

/-- What the example takes from elsewhere: parameters, elementary functions and `jax.random.categorical(key, logits)` of a vector (`/repo/examples/rnn/train.py` 112, 118). -/
structure Setting (K : Type) where
  get : ParamFn K
  sigmoid : K → K
  tanh : K → K
  exp : K → K
  log : K → K
  categorical : Key → List K → Nat

/-- `jax.nn.one_hot(x, num_classes)` for integers given as numbers (`/repo/examples/rnn/train.py` 61, 83): all zeros for a number that is no class. -/
def oneHot [Field K] [DecidableEq K] (n : Nat) (x : Arr K) : Arr K := ⟨x.shape ++ [n], fun i => if x.val i.dropLast = (i.getLastD 0 : Nat) then 1 else 0⟩

/-- A layer that is a function of one array (`/repo/examples/rnn/train.py` 61, 63, 65). -/
def fnLayer {T : Type} (f : Arr K → Except Err (Arr K)) : Layer K T Unit := .fn fun x s =>
  match x with
  | [x] => do
    let y ← f x
    .ok ([y], s)
  | _ => .error .attribute

/-- `hk.nets.MLP([hidden_size, NUM_CHARS])`, called (`/repo/examples/rnn/train.py` 65).  Its layers are made in its `__init__`, so their parameters are in modules `mlp/~/linear_0` and `mlp/~/linear_1`. -/
def head [Field K] [LinearOrder K] (S : Setting K) (hiddenSize : Nat) (x : Arr K) : Except Err (Arr K) := do
  let m ← MLP.make [some hiddenSize, some numChars] true false relu false "mlp"
  let (y, _) ← m.call (fun md nm => S.get ("mlp/~/" ++ md) nm) (fun _ _ _ _ => true) x none none
  .ok y

/-- `make_network` (`/repo/examples/rnn/train.py` 58-67). -/
def makeNetwork [Field K] [LinearOrder K] (S : Setting K) (hiddenSize : Nat) : Except Err (DeepRNN K (Nest K) Unit) :=
  let lstm := fun name => Layer.core (lstmCore S.get S.sigmoid S.tanh (⟨name, hiddenSize⟩ : LSTM)).call (lstmCore (σ := Unit) S.get S.sigmoid S.tanh (⟨name, hiddenSize⟩ : LSTM)).initialState
  deepRNN [fnLayer fun x => .ok (oneHot numChars x), lstm "lstm", fnLayer fun x => .ok (relu x), lstm "lstm_1", fnLayer (head S hiddenSize)]

/-- The leaves of the states of LSTMs, two by two (`jax.lax.scan`, at `/repo/haiku/_src/recurrent.py` 180, flattens its carry). -/
def pairs : Nest K → List (Nest K)
  | h :: c :: rest => [h, c] :: pairs rest
  | _ => []

/-- A `DeepRNN` of LSTMs as a core on the leaves of its state (`/repo/haiku/_src/recurrent.py` 174-183). -/
def asCore (d : DeepRNN K (Nest K) Unit) : Core K Unit := fun x st s => do
  let r ← d.call x (pairs st) s
  .ok (r.1, r.2.1.flatten, r.2.2)

/-- Integers as numbers (the batches of `/repo/examples/rnn/dataset.py` 39 are of integers). -/
def numbers [NatCast K] (x : Arr Nat) : Arr K := ⟨x.shape, fun i => (x.val i : K)⟩

/-- `hk.dynamic_unroll(core, x, core.initial_state(batch_size))` (`/repo/examples/rnn/train.py` 80-81, 116): logits and the final state. -/
def unroll [Field K] [LinearOrder K] [Inhabited K] (S : Setting K) (hiddenSize : Nat) (batch : Option Nat) (x : Arr Nat) : Except Err (Arr K × Nest K) := do
  let core ← makeNetwork S hiddenSize
  let init ← core.initialState batch
  let r ← dynamicUnroll (asCore core) [numbers x] init.flatten true ()
  match r.1 with
  | [y] => .ok (y, r.2.1)
  | _ => .error .attribute

/-- `jnp.sum(x)` (`/repo/examples/rnn/train.py` 84). -/
def total [AddCommMonoid K] (x : Arr K) : K := ((indices x.shape).map x.val).sum

/-- `sequence_loss` (`/repo/examples/rnn/train.py` 75-84).  Inputs that are not of rank 2 cannot be unpacked.  Simplification: the mean over nothing is 0. -/
def sequenceLoss [Field K] [LinearOrder K] [Inhabited K] (S : Setting K) (hiddenSize : Nat) (input target : Arr Nat) : Except Err K :=
  match input.shape with
  | [sequenceLength, batchSize] => do
    let (logits, _) ← unroll S hiddenSize (some batchSize) input
    let logProbs := logSoftmax S.exp S.log (logits.shape.getLastD 0) logits
    let labels := oneHot (logits.shape.getLastD 0) (numbers target)
    let p ← zip (· * ·) labels logProbs
    .ok (-total p / ((sequenceLength * batchSize : Nat) : K))
  | _ => .error .value

/-- The entries of a vector, for `jax.random.categorical` (`/repo/examples/rnn/train.py` 112, 118). -/
def entries (x : Arr K) : List K := (List.range (x.shape.headD 0)).map fun k => x.val [k]

/-- `LoopValues` (`/repo/examples/rnn/train.py` 47-50). -/
structure LoopValues (K : Type) where
  tokens : List Nat
  state : Nest K
  rngKey : Key

/-- `body_fn` of `sample` (`/repo/examples/rnn/train.py` 108-114).  An update out of bounds is dropped. -/
def body [Field K] [LinearOrder K] (S : Setting K) (core : DeepRNN K (Nest K) Unit) (t : Nat) (v : LoopValues K) : Except Err (LoopValues K) := do
  let token := v.tokens.getD t 0
  let r ← asCore core [⟨[], fun _ => (token : K)⟩] v.state ()
  match r.1 with
  | [nextLogits] =>
    let key := Key.child v.rngKey 2 0
    let subkey := Key.child v.rngKey 2 1
    let nextToken := S.categorical subkey (entries nextLogits)
    .ok ⟨v.tokens.set (t + 1) nextToken, r.2.1, key⟩
  | _ => .error .attribute

/-- `lax.fori_loop(t, t + n, body_fn, v)` (`/repo/examples/rnn/train.py` 122). -/
def foriLoop [Field K] [LinearOrder K] (S : Setting K) (core : DeepRNN K (Nest K) Unit) : Nat → Nat → LoopValues K → Except Err (LoopValues K)
  | _, 0, v => .ok v
  | t, n + 1, v => do
    let v ← body S core t v
    foriLoop S core (t + 1) n v

/-- `sample` (`/repo/examples/rnn/train.py` 98-124). -/
def sample [Field K] [LinearOrder K] [Inhabited K] (S : Setting K) (hiddenSize : Nat) (rngKey : Key) (context : Arr Nat) (sampleLength : Nat) : Except Err (List Nat) := do
  if context.shape.length ≠ 1 then .error .assertion
  else
    let core ← makeNetwork S hiddenSize
    let (logits, state) ← unroll S hiddenSize none context
    let last ← sliceAt true (logits.shape.headD 0 - 1) logits
    let key := Key.child rngKey 2 0
    let subkey := Key.child rngKey 2 1
    let firstToken := S.categorical subkey (entries last)
    let tokens := (List.replicate sampleLength 0).set 0 firstToken
    let values ← foriLoop S core 0 sampleLength ⟨tokens, state, key⟩
    .ok values.tokens

/-! ### The data set -/

/-- `preprocess_fn` (`/repo/examples/rnn/dataset.py` 35-40) on the bytes of the characters of a text: `decode_raw` makes a matrix with a row of bytes per character, which `squeeze` makes a vector if all characters have one
byte, and which is an error otherwise. -/
def preprocess (text : List (List Nat)) : Except Err (List (Nat × Nat)) := do
  let x ← text.mapM fun bytes => match bytes with
    | [b] => .ok b
    | _ => .error .value
  .ok (x.dropLast.zip x.tail)

/-- `ds.batch(n, drop_remainder=True)` (`/repo/examples/rnn/dataset.py` 45): `count` is what bounds the loop. -/
def chunks {α : Type} (n : Nat) : Nat → List α → List (List α)
  | 0, _ => []
  | count + 1, xs => if xs.length < n ∨ n = 0 then [] else xs.take n :: chunks n count (xs.drop n)

/-- The chunks of a split, before they are shuffled (`/repo/examples/rnn/dataset.py` 43-45): `unbatch` joins the texts of the split. -/
def examples (texts : List (List (List Nat))) (sequenceLength : Nat) : Except Err (List (List (Nat × Nat))) := do
  let xs ← texts.mapM preprocess
  .ok (chunks sequenceLength xs.flatten.length xs.flatten)

/-- `ds.shuffle(100).repeat().batch(batch_size)` (`/repo/examples/rnn/dataset.py` 46-48): the batch number `k` of the stream made by the epochs one after the other, where `order e` is the order of epoch `e`.
Simplification: an empty data set gives no batches in TensorFlow. -/
def batch {α : Type} [Inhabited α] (n : Nat) (order : Nat → List α) (batchSize k : Nat) : List α :=
  (List.range batchSize).map fun j => (order ((k * batchSize + j) / n)).getD ((k * batchSize + j) % n) default

/-- `tf.transpose` of inputs and targets (`/repo/examples/rnn/dataset.py` 49): time major. -/
def timeMajor (sequenceLength : Nat) (b : List (List (Nat × Nat))) : Arr Nat × Arr Nat :=
  (⟨[sequenceLength, b.length], fun i => ((b.getD (i.getD 1 0) []).getD (i.getD 0 0) (0, 0)).1⟩,
   ⟨[sequenceLength, b.length], fun i => ((b.getD (i.getD 1 0) []).getD (i.getD 0 0) (0, 0)).2⟩)

/-- `decode` (`/repo/examples/rnn/dataset.py` 54-55), to a string as its code points; `chr` raises for numbers that are none. -/
def decode (x : List Nat) : Except Err (List Nat) := x.mapM fun c => if c < 0x110000 then .ok c else .error .value

/-- `encode` (`/repo/examples/rnn/dataset.py` 58-59) of the code points of a string. -/
def encode (x : List Nat) : List Nat := x

end Verif.CharRnn
