import Verif.Model.Attention
import Verif.Model.Embed
import Verif.Model.Norm

/-!
# The transformer example

Models `/repo/examples/transformer/model.py` and the forward pass and the loss of `/repo/examples/transformer/train.py` on the models of attention, layer normalisation, linear layers,
dropout and embeddings, in exact arithmetic.  The exponential and logarithm functions, the square roots and `gelu` are any functions.  Parameters are what `hk.get_parameter` gives; dtypes and
initializers are not modelled.
-/

namespace Verif.Transformer
open Verif.Shapes (Err)
open Verif.Pool (Arr)
open Verif.Mlp (ParamFn Linear Bernoulli dropout getParameter)
open Verif.Nd (zip map)
open Verif.Attention (MHA maximum)
open Verif.Norm (LayerNorm)

variable {K : Type}

/-- `np.tril(np.ones((n, n)))` (`/repo/examples/transformer/model.py` 39). -/
def tril [Zero K] [One K] (n : Nat) : Arr K := ⟨[n, n], fun i => if i.getD 1 0 ≤ i.getD 0 0 then 1 else 0⟩

/-- `CausalSelfAttention.__call__` (`/repo/examples/transformer/model.py` 28-42).  `query.shape[1]` raises `IndexError` for a query of rank less than 2. -/
def causalAttention [Field K] [LinearOrder K] (get : ParamFn K) (exp : K → K) (sqrt : Nat → K) (m : MHA) (query : Arr K) (key value mask : Option (Arr K)) : Except Err (Arr K) :=
  let key := key.getD query
  let value := value.getD query
  match query.shape with
  | _ :: n :: _ => do
    let mask ← match mask with
      | some a => zip (· * ·) a (tril n)
      | none => .ok (tril n)
    m.call get exp sqrt query key value (some mask)
  | _ => .error .index

/-- `DenseBlock.__call__` (`/repo/examples/transformer/model.py` 56-61).  `x.shape[-1]` raises `IndexError` for a scalar. -/
def dense [Field K] (get : ParamFn K) (gelu : K → K) (name : String) (widening : Nat) (x : Arr K) : Except Err (Arr K) :=
  match x.shape.getLast? with
  | none => .error .index
  | some n => do
    let (y, _) ← (⟨name ++ "/linear", none, some (widening * n), true⟩ : Linear).call get x
    let (z, _) ← (⟨name ++ "/linear_1", none, some n, true⟩ : Linear).call get (map gelu y)
    .ok z

/-- `layer_norm` (`/repo/examples/transformer/model.py` 117-122); `eps` is the default of `LayerNorm` (`/repo/haiku/_src/layer_norm.py` 48). -/
def layerNorm [Field K] (get : ParamFn K) (rsqrt : K → K) (name : String) (x : Arr K) : Except Err (Arr K) := do
  let m ← LayerNorm.make name (.int (-1)) true true (1 / 100000) false false
  m.call get rsqrt x none none

/-- What the transformer takes from elsewhere: the parameters, the elementary functions, the random numbers and the keys that `hk.next_rng_key` returns, in their order
(`/repo/examples/transformer/model.py` 98, 106, 108, 111). -/
structure Setting (K : Type) where
  get : ParamFn K
  exp : K → K
  sqrt : Nat → K
  rsqrt : K → K
  gelu : K → K
  bern : Bernoulli K
  keys : Nat → Key

/-- A `Transformer` object (`/repo/examples/transformer/model.py` 67-75). -/
structure Net (K : Type) where
  name : String
  numHeads : Nat
  numLayers : Nat
  dropoutRate : K

/-- The attention module of layer `i` (`/repo/examples/transformer/model.py` 101-105). -/
def Net.attention (m : Net K) (i : Nat) : MHA := MHA.make (m.name ++ "/h" ++ toString i ++ "_attn") m.numHeads 64 none none none

/-- The body of the loop over layers (`/repo/examples/transformer/model.py` 99-112). -/
def Net.layer [Field K] [LinearOrder K] (S : Setting K) (m : Net K) (rate : K) (mask : Option (Arr K)) (i : Nat) (h : Arr K) : Except Err (Arr K) := do
  let n1 ← layerNorm S.get S.rsqrt (m.name ++ "/h" ++ toString i ++ "_ln_1") h
  let a ← causalAttention S.get S.exp S.sqrt (m.attention i) n1 none none mask
  let a ← dropout S.bern (S.keys (2 * i)) rate a
  let h ← zip (· + ·) h a
  let n2 ← layerNorm S.get S.rsqrt (m.name ++ "/h" ++ toString i ++ "_ln_2") h
  let d ← dense S.get S.gelu (m.name ++ "/h" ++ toString i ++ "_mlp") 4 n2
  let d ← dropout S.bern (S.keys (2 * i + 1)) rate d
  zip (· + ·) h d

/-- The loop over layers (`/repo/examples/transformer/model.py` 99-112), `n` of them from layer `i` on. -/
def Net.layers [Field K] [LinearOrder K] (S : Setting K) (m : Net K) (rate : K) (mask : Option (Arr K)) : Nat → Nat → Arr K → Except Err (Arr K)
  | 0, _, h => .ok h
  | n + 1, i, h => do
    let h ← m.layer S rate mask i h
    m.layers S rate mask n (i + 1) h

/-- `mask[:, None, None, :]` (`/repo/examples/transformer/model.py` 95).  Simplification: masks of rank above 2 are an error, too. -/
def widen (mask : Arr K) : Except Err (Arr K) :=
  match mask.shape with
  | [b, t] => .ok ⟨[b, 1, 1, t], fun i => mask.val [i.getD 0 0, i.getD 3 0]⟩
  | _ => .error .index

/-- `Transformer.__call__` (`/repo/examples/transformer/model.py` 77-115).  `2. / self._num_layers` raises `ZeroDivisionError` without layers. -/
def Net.call [Field K] [LinearOrder K] (S : Setting K) (m : Net K) (h : Arr K) (mask : Option (Arr K)) (isTraining : Bool) : Except Err (Arr K) :=
  if m.numLayers = 0 then .error .zeroDivision
  else do
    let rate := if isTraining then m.dropoutRate else 0
    let mask ← match mask with
      | some a => (widen a).map some
      | none => .ok none
    let h ← m.layers S rate mask m.numLayers 0 h
    layerNorm S.get S.rsqrt (m.name ++ "/ln_f") h

/-- `jnp.greater(tokens, 0)` as numbers (`/repo/examples/transformer/train.py` 71, 104). -/
def positive [Zero K] [One K] (tokens : Arr Int) : Arr K := ⟨tokens.shape, fun i => if 0 < tokens.val i then 1 else 0⟩

/-- `forward_fn` of `build_forward_fn` (`/repo/examples/transformer/train.py` 67-88).  `tokens.shape[1]` raises `IndexError` for tokens of rank less than 2. -/
def forward [Field K] [LinearOrder K] (S : Setting K) (vocabSize dModel numHeads numLayers : Nat) (dropoutRate : K) (tokens : Arr Int) (isTraining : Bool) : Except Err (Arr K) :=
  match tokens.shape with
  | _ :: n :: _ => do
    let e ← Verif.Emb.Embed.make (some vocabSize) (some dModel) none (.style .arrayIndex)
    let t ← e.call S.get "embed" tokens true none
    let p ← getParameter S.get "~" "pos_embs" [n, dModel]
    let x ← zip (· + ·) t p
    let y ← (⟨"transformer", numHeads, numLayers, dropoutRate⟩ : Net K).call S x (some (positive tokens)) isTraining
    let (z, _) ← (⟨"linear", none, some vocabSize, true⟩ : Linear).call S.get y
    .ok z
  | _ => .error .index

/-- `jax.nn.log_softmax(x)` over the last axis, of size `n` (`/repo/examples/transformer/train.py` 105). -/
def logSoftmax [Field K] [LinearOrder K] (exp log : K → K) (n : Nat) (x : Arr K) : Arr K :=
  ⟨x.shape, fun i =>
    let row := fun j => x.val (i.dropLast ++ [j])
    let top := maximum n row
    x.val i - top - log (∑ j ∈ Finset.range n, exp (row j - top))⟩

/-- `lm_loss_fn` (`/repo/examples/transformer/train.py` 93-108) from the logits on.  Observations and targets have shape `[batch, time]`.  Simplification: without observations above 0 the
call is an error, instead of NaN. -/
def lossOf [Field K] [LinearOrder K] (exp log : K → K) (vocabSize : Nat) (logits : Arr K) (obs target : Arr Int) : Except Err K :=
  match obs.shape with
  | [b, t] =>
    if logits.shape ≠ target.shape ++ [vocabSize] then .error .assertion
    else if target.shape ≠ [b, t] then .error .type
    else
      let l := logSoftmax exp log vocabSize logits
      let loss := fun i j => - ∑ k ∈ Finset.range vocabSize, Verif.Emb.oneHot (target.val [i, j]) k * l.val [i, j, k]
      let mask : Nat → Nat → K := fun i j => (positive obs).val [i, j]
      let total := ∑ i ∈ Finset.range b, ∑ j ∈ Finset.range t, mask i j
      if total = 0 then .error .zeroDivision
      else .ok ((∑ i ∈ Finset.range b, ∑ j ∈ Finset.range t, loss i j * mask i j) / total)
  | _ => .error .type

/-- `lm_loss_fn` (`/repo/examples/transformer/train.py` 93-108), for the forward pass above. -/
def loss [Field K] [LinearOrder K] (S : Setting K) (log : K → K) (vocabSize dModel numHeads numLayers : Nat) (dropoutRate : K) (obs target : Arr Int) (isTraining : Bool) : Except Err K := do
  let logits ← forward S vocabSize dModel numHeads numLayers dropoutRate obs isTraining
  lossOf S.exp log vocabSize logits obs target

end Verif.Transformer
