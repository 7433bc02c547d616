import Verif.Model.Ema
import Verif.Model.Nd

/-!
# Vector quantisation

Models `VectorQuantizer` and `VectorQuantizerEMA` of `/repo/haiku/_src/nets/vqvae.py` in exact arithmetic.
-/

namespace Verif.VQ
open Verif.Shapes (Err size)
open Verif.Pool (Arr)
open Verif.Conv (indices)
open Verif.Nd (reshapeLead ravel unravel zip map)

variable {K : Type}

/-- `jnp.argmax` of the values at `0..n` (`/repo/haiku/_src/nets/vqvae.py` 119, 278): the first position of the largest value. -/
def argmax [LinearOrder K] (f : Nat → K) : Nat → Nat
  | 0 => 0
  | n + 1 => if f (argmax f n) < f (n + 1) then n + 1 else argmax f n

/-- `distances` (`/repo/haiku/_src/nets/vqvae.py` 114-117, 273-276), for inputs with `embeddingDim` columns and embeddings with one column for each embedding. -/
def distances [Field K] (embeddingDim numEmbeddings : Nat) (flat emb : Arr K) : Arr K :=
  ⟨[flat.shape.headD 0, numEmbeddings], fun i =>
    ∑ d ∈ Finset.range embeddingDim, flat.val [i.headD 0, d] ^ 2 - 2 * ∑ d ∈ Finset.range embeddingDim, flat.val [i.headD 0, d] * emb.val [d, i.getD 1 0]
      + ∑ d ∈ Finset.range embeddingDim, emb.val [d, i.getD 1 0] ^ 2⟩

/-- What is computed from the inputs on one device (`/repo/haiku/_src/nets/vqvae.py` 112-122, 270-281). -/
structure Encoded (K : Type) where
  flat : Arr K
  distances : Arr K
  indices : Arr Nat
  encodings : Arr K

/-- The flat inputs, their distances to the embeddings, the index of the nearest embedding and its one-hot encoding (`/repo/haiku/_src/nets/vqvae.py` 112-122, 270-281).  `argmax` over no embeddings is a `ValueError`. -/
def encode [Field K] [LinearOrder K] (embeddingDim numEmbeddings : Nat) (emb x : Arr K) : Except Err (Encoded K) := do
  let flat ← reshapeLead x [embeddingDim]
  let dist := distances embeddingDim numEmbeddings flat emb
  if numEmbeddings = 0 then .error .value
  else
    let nearest := fun r => argmax (fun j => -dist.val [r, j]) (numEmbeddings - 1)
    .ok ⟨flat, dist, ⟨[flat.shape.headD 0], fun i => nearest (i.headD 0)⟩, ⟨[flat.shape.headD 0, numEmbeddings], fun i => if nearest (i.headD 0) = i.getD 1 0 then 1 else 0⟩⟩

/-- `jnp.reshape(x, shape)` to a shape with as many elements (`/repo/haiku/_src/nets/vqvae.py` 129, 288); other shapes are a `TypeError`. -/
def reshapeTo {α : Type} (x : Arr α) (shape : List Nat) : Except Err (Arr α) :=
  if size x.shape = size shape then .ok ⟨shape, fun i => x.val (unravel x.shape (ravel shape i))⟩ else .error .type

/-- `quantize` (`/repo/haiku/_src/nets/vqvae.py` 150-154, 333-337), for indices in range. -/
def quantize (embeddingDim : Nat) (emb : Arr K) (idx : Arr Nat) : Arr K := ⟨idx.shape ++ [embeddingDim], fun i => emb.val [i.getLastD 0, idx.val i.dropLast]⟩

/-- `jnp.mean(x)` (`/repo/haiku/_src/nets/vqvae.py` 132-133, 290).  Simplification: the mean of nothing is 0 instead of NaN. -/
def meanAll [Field K] (x : Arr K) : K := ((indices x.shape).map x.val).sum / (size x.shape : K)

/-- `jnp.mean(encodings, 0)` at `j` (`/repo/haiku/_src/nets/vqvae.py` 138, 319). -/
def avgProbs [Field K] (enc : Arr K) (j : Nat) : K := (∑ r ∈ Finset.range (enc.shape.headD 0), enc.val [r, j]) / (enc.shape.headD 0 : K)

/-- The dictionary that is returned (`/repo/haiku/_src/nets/vqvae.py` 141-148, 324-331).  `perplexity` is a function of `avgProbs`, see `perplexity`. -/
structure Out (K : Type) where
  quantize : Arr K
  loss : K
  avgProbs : Nat → K
  encodings : Arr K
  encodingIndices : Arr Nat
  distances : Arr K

/-- `inputs + stop_gradient(quantized - inputs)` and `jnp.mean((quantized - inputs)**2)` (`/repo/haiku/_src/nets/vqvae.py` 132-137, 290, 318). -/
def straightThrough [Field K] (x q : Arr K) : Except Err (Arr K × K) := do
  let d ← zip (· - ·) q x
  let s ← zip (· + ·) x d
  .ok (s, meanAll (map (· ^ 2) d))

/-- `VectorQuantizer.__call__` (`/repo/haiku/_src/nets/vqvae.py` 93-148) with the parameter `embeddings` of shape `[embedding_dim, num_embeddings]`.  `is_training` is not used. -/
def VectorQuantizer.call [Field K] [LinearOrder K] (embeddingDim numEmbeddings : Nat) (commitmentCost : K) (emb x : Arr K) : Except Err (Out K) := do
  let e ← encode embeddingDim numEmbeddings emb x
  let idx ← reshapeTo e.indices x.shape.dropLast
  let (q, loss) ← straightThrough x (quantize embeddingDim emb idx)
  .ok ⟨q, loss + commitmentCost * loss, avgProbs e.encodings, e.encodings, idx, e.distances⟩

/-- A `VectorQuantizerEMA` object (`/repo/haiku/_src/nets/vqvae.py` 226-231). -/
structure VectorQuantizerEMA (K : Type) where
  embeddingDim : Nat
  numEmbeddings : Nat
  commitmentCost : K
  decay : K
  epsilon : K
  crossReplica : Bool

/-- The check of `VectorQuantizerEMA.__init__` (`/repo/haiku/_src/nets/vqvae.py` 223-224). -/
def VectorQuantizerEMA.make [Field K] [LinearOrder K] (embeddingDim numEmbeddings : Nat) (commitmentCost decay epsilon : K) (crossReplica : Bool) : Except Err (VectorQuantizerEMA K) :=
  if 0 ≤ decay ∧ decay ≤ 1 then .ok ⟨embeddingDim, numEmbeddings, commitmentCost, decay, epsilon, crossReplica⟩ else .error .value

/-- The state of the module and its two moving averages, element by element (`/repo/haiku/_src/nets/vqvae.py` 233-243). -/
structure State (K : Type) where
  embeddings : Arr K
  clusterSize : Nat → Ema.State K
  dw : Nat → Nat → Ema.State K

/-- The state that `__init__` creates when there is none, for what the initializer returns (`/repo/haiku/_src/nets/vqvae.py` 233-243). -/
def State.initial [Field K] (emb : Arr K) : State K := ⟨emb, fun _ => Ema.State.empty.initialize, fun _ _ => Ema.State.empty.initialize⟩

/-- The moving averages of the module: `hk.ExponentialMovingAverage(decay)` (`/repo/haiku/_src/nets/vqvae.py` 238-242; the defaults are at `/repo/haiku/_src/moving_averages.py` 49-50). -/
def VectorQuantizerEMA.ema [Field K] (m : VectorQuantizerEMA K) : Ema.EMA K := ⟨m.decay, true, 0⟩

/-- `jnp.sum(encodings, axis=0)` at `j`, summed over the devices (`/repo/haiku/_src/nets/vqvae.py` 293-297). -/
def clusterSize [Field K] (devices : List (Encoded K)) (j : Nat) : K := (devices.map fun e => ∑ r ∈ Finset.range (e.flat.shape.headD 0), e.encodings.val [r, j]).sum

/-- `jnp.matmul(flat_inputs.T, encodings)` at `d`, `j`, summed over the devices (`/repo/haiku/_src/nets/vqvae.py` 299-302). -/
def dw [Field K] (devices : List (Encoded K)) (d j : Nat) : K := (devices.map fun e => ∑ r ∈ Finset.range (e.flat.shape.headD 0), e.flat.val [r, d] * e.encodings.val [r, j]).sum

/-- The update of the state in training (`/repo/haiku/_src/nets/vqvae.py` 293-312).  Simplification: a division by zero gives zero instead of NaN or infinity. -/
def VectorQuantizerEMA.update [Field K] (m : VectorQuantizerEMA K) (st : State K) (devices : List (Encoded K)) : State K :=
  let size := fun j => m.ema.call (st.clusterSize j) (clusterSize devices j) true
  let dw := fun d j => m.ema.call (st.dw d j) (dw devices d j) true
  let n := ∑ j ∈ Finset.range m.numEmbeddings, (size j).1
  let smoothed := fun j => ((size j).1 + m.epsilon) / (n + m.numEmbeddings * m.epsilon) * n
  ⟨⟨[m.embeddingDim, m.numEmbeddings], fun i => (dw (i.headD 0) (i.getD 1 0)).1 / smoothed (i.getD 1 0)⟩, fun j => (size j).2, fun d j => (dw d j).2⟩

/-- `VectorQuantizerEMA.__call__` (`/repo/haiku/_src/nets/vqvae.py` 249-331): the result and the state.  `group` are the inputs on all devices of the group of this device, all of which have the same state;
it only matters with a cross-replica axis. -/
def VectorQuantizerEMA.call [Field K] [LinearOrder K] (m : VectorQuantizerEMA K) (st : State K) (x : Arr K) (group : List (Arr K)) (isTraining : Bool) : Except Err (Out K × State K) := do
  let e ← encode m.embeddingDim m.numEmbeddings st.embeddings x
  let idx ← reshapeTo e.indices x.shape.dropLast
  let (q, loss) ← straightThrough x (quantize m.embeddingDim st.embeddings idx)
  let devices ← (if m.crossReplica then group else [x]).mapM (encode m.embeddingDim m.numEmbeddings st.embeddings)
  let probs := fun j => (devices.map fun e => avgProbs e.encodings j).sum / (devices.length : K)
  .ok (⟨q, m.commitmentCost * loss, probs, e.encodings, idx, e.distances⟩, if isTraining then m.update st devices else st)

/-- A history of calls (`/repo/haiku/_src/nets/vqvae.py` 249-331, called any number of times), each with the inputs, those of the group of devices and `is_training`. -/
def VectorQuantizerEMA.after [Field K] [LinearOrder K] (m : VectorQuantizerEMA K) (st : State K) : List (Arr K × List (Arr K) × Bool) → Except Err (State K)
  | [] => .ok st
  | (x, group, isTraining) :: rest => do
    let (_, st) ← m.call st x group isTraining
    m.after st rest

end Verif.VQ
