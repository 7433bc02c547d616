import Verif.Model.MobileNet

/-!
# The variational autoencoder example

Models `/repo/examples/vae.py` on the models of linear layers and reshaping, in exact arithmetic.  The exponential and logarithm functions and the random numbers are any functions.  Parameters are what `hk.get_parameter` gives; dtypes,
initializers, the data sets and the optimiser are not modelled.
-/

namespace Verif.Vae
open Verif.Shapes (Err size)
open Verif.Pool (Arr)
open Verif.Mlp (ParamFn Linear)
open Verif.Nd (zip map unravel reshapeLead)
open Verif.MobileNet (flatten)
open Verif.ResNet (relu)

variable {K : Type}

/-- `Encoder.__call__` (`/repo/examples/vae.py` 62-71): means and standard deviations. -/
def encoder [Field K] [LinearOrder K] (get : ParamFn K) (exp : K → K) (name : String) (hiddenSize latentSize : Nat) (x : Arr K) : Except Err (Arr K × Arr K) := do
  let (x, _) ← (⟨name ++ "/linear", none, some hiddenSize, true⟩ : Linear).call get (flatten x)
  let x := relu x
  let (mean, _) ← (⟨name ++ "/linear_1", none, some latentSize, true⟩ : Linear).call get x
  let (logStddev, _) ← (⟨name ++ "/linear_2", none, some latentSize, true⟩ : Linear).call get x
  .ok (mean, map exp logStddev)

/-- `Decoder.__call__` (`/repo/examples/vae.py` 86-93). -/
def decoder [Field K] [LinearOrder K] (get : ParamFn K) (name : String) (hiddenSize : Nat) (outputShape : List Nat) (z : Arr K) : Except Err (Arr K) := do
  let (z, _) ← (⟨name ++ "/linear", none, some hiddenSize, true⟩ : Linear).call get z
  let (logits, _) ← (⟨name ++ "/linear_1", none, some (size outputShape), true⟩ : Linear).call get (relu z)
  reshapeLead logits outputShape

/-- `VAEOutput` (`/repo/examples/vae.py` 96-100). -/
structure Output (K : Type) where
  image : Arr Bool
  mean : Arr K
  stddev : Arr K
  logits : Arr K

/-- What the model takes from elsewhere: parameters, elementary functions, `jax.random.normal`, the uniform numbers of `jax.random.bernoulli`, and the keys that `hk.next_rng_key` returns in their order (`/repo/examples/vae.py` 120, 124). -/
structure Setting (K : Type) where
  get : ParamFn K
  exp : K → K
  log : K → K
  normal : Key → List Nat → List Nat → K
  uniform : Key → List Nat → List Nat → K
  keys : Nat → Key

/-- A `VariationalAutoEncoder` object (`/repo/examples/vae.py` 106-115). -/
structure Net where
  name : String
  hiddenSize : Nat
  latentSize : Nat
  outputShape : List Nat

/-- `VariationalAutoEncoder.__call__` (`/repo/examples/vae.py` 117-126); `jax.nn.sigmoid` is `1 / (1 + exp(-x))`, `jax.random.bernoulli` compares uniform numbers with the probabilities. -/
def Net.call [Field K] [LinearOrder K] (S : Setting K) (m : Net) (x : Arr K) : Except Err (Output K) := do
  let (mean, stddev) ← encoder S.get S.exp (m.name ++ "/encoder") m.hiddenSize m.latentSize x
  let noise : Arr K := ⟨mean.shape, S.normal (S.keys 0) mean.shape⟩
  let scaled ← zip (· * ·) stddev noise
  let z ← zip (· + ·) mean scaled
  let logits ← decoder S.get (m.name ++ "/decoder") m.hiddenSize m.outputShape z
  let p := map (fun l => 1 / (1 + S.exp (-l))) logits
  let image : Arr Bool := ⟨p.shape, fun i => decide (S.uniform (S.keys 1) p.shape i < p.val i)⟩
  .ok ⟨image, mean, stddev, logits⟩

/-- `binary_cross_entropy` (`/repo/examples/vae.py` 129-145); `jnp.logaddexp(0, l)` is `log(exp(0) + exp(l))`.  `x.shape[0]` raises `IndexError` for a scalar.
Simplification: without elements the result is an array of zeros (JAX cannot infer the size then). -/
def binaryCrossEntropy [Field K] (exp log : K → K) (x logits : Arr K) : Except Err (Arr K) :=
  if x.shape ≠ logits.shape then .error .value
  else match x.shape with
    | [] => .error .index
    | n :: rest => .ok ⟨[n], fun i => -∑ k ∈ Finset.range (size rest), (x.val (i.getD 0 0 :: unravel rest k) * logits.val (i.getD 0 0 :: unravel rest k) - log (exp 0 + exp (logits.val (i.getD 0 0 :: unravel rest k))))⟩

/-- `jnp.sum(x, axis=-1)` (`/repo/examples/vae.py` 162); `axis=-1` is an error for a scalar. -/
def sumLast [AddCommMonoid K] (x : Arr K) : Except Err (Arr K) :=
  match x.shape.getLast? with
  | none => .error .value
  | some n => .ok ⟨x.shape.dropLast, fun i => ∑ k ∈ Finset.range n, x.val (i ++ [k])⟩

/-- `kl_gaussian` (`/repo/examples/vae.py` 148-162). -/
def klGaussian [Field K] (log : K → K) (mean var : Arr K) : Except Err (Arr K) := do
  let a ← zip (· + ·) (map (fun v => -log v - 1 + v) var) (map (fun m => m ^ 2) mean)
  let s ← sumLast a
  .ok (map (fun x => 1 / 2 * x) s)

/-- `jnp.mean` of a vector (`/repo/examples/vae.py` 178).  Simplification: the mean of nothing is 0. -/
def meanVec [Field K] (x : Arr K) : K := (∑ k ∈ Finset.range (x.shape.headD 0), x.val [k]) / ((x.shape.headD 0 : Nat) : K)

/-- `loss_fn` (`/repo/examples/vae.py` 169-178), on the model that `main` transforms (165). -/
def lossFn [Field K] [LinearOrder K] (S : Setting K) (m : Net) (x : Arr K) : Except Err K := do
  let outputs ← m.call S x
  let bce ← binaryCrossEntropy S.exp S.log x outputs.logits
  let logLikelihood := map (fun v => -v) bce
  let kl ← klGaussian S.log outputs.mean (map (fun s => s ^ 2) outputs.stddev)
  let elbo ← zip (· - ·) logLikelihood kl
  .ok (-meanVec elbo)

end Verif.Vae
