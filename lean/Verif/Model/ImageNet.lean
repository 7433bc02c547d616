import Mathlib.Algebra.Module.Basic
import Verif.Model.Transformer

/-!
# The ImageNet example

Models `/repo/examples/imagenet/dataset.py` and `/repo/examples/imagenet/train.py`, in exact arithmetic.  The network, its gradient and the optimiser are any functions; parameters on devices are elements of any module over the numbers.
Reading, decoding and resizing of images, shuffling, dtypes and logging are not modelled.
-/

namespace Verif.ImageNet
open Verif.Shapes (Err)
open Verif.Pool (Arr)
open Verif.Transformer (logSoftmax)

variable {K : Type}

/-! ### The data set -/

/-- `Split` (`/repo/examples/imagenet/dataset.py` 31-36). -/
inductive Split where
  | train
  | trainAndValid
  | valid
  | test
  deriving DecidableEq, Repr

/-- `Split.num_examples` (`/repo/examples/imagenet/dataset.py` 44-47). -/
def Split.numExamples : Split → Nat
  | .trainAndValid => 1281167
  | .train => 1271167
  | .valid => 10000
  | .test => 50000

/-- The splits of `tfds` (`/repo/examples/imagenet/dataset.py` 141, 144). -/
inductive Tfds where
  | train
  | validation
  deriving DecidableEq, Repr

/-- `_to_tfds_split` (`/repo/examples/imagenet/dataset.py` 135-144). -/
def toTfdsSplit : Split → Tfds
  | .train => .train
  | .trainAndValid => .train
  | .valid => .train
  | .test => .validation

/-- `np.array_split(np.arange(n), sections)[i]` (`/repo/examples/imagenet/dataset.py` 150-151): the first `n % sections` sections are longer by one. -/
def section_ (n sections i : Nat) : List Nat :=
  let point := fun i => i * (n / sections) + min i (n % sections)
  List.range' (point i) (point (i + 1) - point i)

/-- `_shard` (`/repo/examples/imagenet/dataset.py` 147-158): a negative index counts from the end. -/
def shard (split : Split) (shardIndex numShards : Int) : Except Err (Nat × Nat) :=
  if ¬ shardIndex < numShards then .error .assertion
  else if numShards ≤ 0 then .error .value
  else if shardIndex < -numShards then .error .index
  else
    let i := (if shardIndex < 0 then shardIndex + numShards else shardIndex).toNat
    let range := section_ split.numExamples numShards.toNat i
    match range.head?, range.getLast? with
    | some first, some last =>
      if split = .train then .ok (first + Split.valid.numExamples, last + 1 + Split.valid.numExamples)
      else .ok (first, last + 1)
    | _, _ => .error .index

/-- `ds.batch(batch_size)` of a stream (`/repo/examples/imagenet/dataset.py` 112), as in training, where the data set is repeated (81). -/
def batchStream {α : Type} (batchSize : Nat) (s : Nat → α) (k : Nat) : List α := (List.range batchSize).map fun j => s (k * batchSize + j)

/-- The loop over `reversed(batch_dims)` for the two dimensions that training uses (`/repo/examples/imagenet/dataset.py` 111-112, `/repo/examples/imagenet/train.py` 260): devices and examples per device. -/
def trainBatches {α : Type} (devices deviceBatchSize : Nat) (s : Nat → α) (k : Nat) : List (List α) := batchStream devices (batchStream deviceBatchSize s) k

/-- `ds.batch(batch_size)` of a data set (`/repo/examples/imagenet/dataset.py` 112): the last batch may be shorter; `count` bounds the loop. -/
def batchList {α : Type} (batchSize : Nat) : Nat → List α → List (List α)
  | 0, _ => []
  | _, [] => []
  | count + 1, xs => xs.take batchSize :: batchList batchSize count (xs.drop batchSize)

/-- `transpose_fn` (`/repo/examples/imagenet/dataset.py` 97-104): NHWC to HWCN. -/
def transposeFn (x : Arr K) : Except Err (Arr K) :=
  match x.shape with
  | [n, h, w, c] => .ok ⟨[h, w, c, n], fun i => x.val [i.getD 3 0, i.getD 0 0, i.getD 1 0, i.getD 2 0]⟩
  | _ => .error .value

/-- `jnp.transpose(images, (3, 0, 1, 2))` in `_forward` (`/repo/examples/imagenet/train.py` 71): HWCN to NHWC. -/
def transposeBack (x : Arr K) : Except Err (Arr K) :=
  match x.shape with
  | [h, w, c, n] => .ok ⟨[n, h, w, c], fun i => x.val [i.getD 1 0, i.getD 2 0, i.getD 3 0, i.getD 0 0]⟩
  | _ => .error .value

/-- The crop window of `_decode_and_center_crop` (`/repo/examples/imagenet/dataset.py` 240-250): offsets, then height and width.  `224 / (224 + 32)` is 7/8; the cast to integers truncates. -/
def centerCrop (imageHeight imageWidth : Nat) : Int × Int × Int × Int :=
  let size : Int := (7 * (min imageHeight imageWidth : Nat) : Int) / 8
  (((imageHeight - size) + 1) / 2, ((imageWidth - size) + 1) / 2, size, size)

/-! ### Training -/

/-- The flags that the schedule reads, and `jax.device_count()` (`/repo/examples/imagenet/train.py` 40-48, 85). -/
structure Flags (K : Type) where
  deviceBatchSize : Nat
  deviceCount : Nat
  numExamples : Nat
  warmupEpochs : Nat
  epochs : Nat
  lrInit : K

/-- `total_batch_size` (`/repo/examples/imagenet/train.py` 85). -/
def Flags.totalBatchSize (F : Flags K) : Nat := F.deviceBatchSize * F.deviceCount

/-- `lr_schedule` (`/repo/examples/imagenet/train.py` 81-96). -/
def lrSchedule [Field K] [LinearOrder K] (cos : K → K) (pi : K) (F : Flags K) (step : K) : K :=
  let stepsPerEpoch : K := F.numExamples / F.totalBatchSize
  let warmupSteps := F.warmupEpochs * stepsPerEpoch
  let trainingSteps := F.epochs * stepsPerEpoch
  let lr := F.lrInit * F.totalBatchSize / 256
  let scaledStep := max (step - warmupSteps) 0 / (trainingSteps - warmupSteps)
  let lr := lr * (1 / 2 * (1 + cos (pi * scaledStep)))
  if warmupSteps ≠ 0 then lr * min (step / warmupSteps) 1 else lr

/-- `num_train_steps` (`/repo/examples/imagenet/train.py` 253-254). -/
def Flags.numTrainSteps (F : Flags K) : Nat := F.numExamples * F.epochs / F.totalBatchSize

/-- `l2_loss` (`/repo/examples/imagenet/train.py` 108-109): the parameters as lists of their elements. -/
def l2Loss [Field K] (params : List (List K)) : K := 1 / 2 * (params.map fun p => (p.map fun x => x ^ 2).sum).sum

/-- `softmax_cross_entropy` (`/repo/examples/imagenet/train.py` 112-117), for logits and labels of shape `[batch, 1000]`. -/
def softmaxCrossEntropy [Field K] [LinearOrder K] (exp log : K → K) (logits labels : Arr K) : Nat → K := fun b => -∑ c ∈ Finset.range 1000, labels.val [b, c] * (logSoftmax exp log 1000 logits).val [b, c]

/-- `jax.nn.one_hot(labels, 1000)` (`/repo/examples/imagenet/train.py` 136). -/
def oneHot [Field K] (labels : List Nat) : Arr K := ⟨[labels.length, 1000], fun i => if labels.getD (i.getD 0 0) 0 = i.getD 1 0 then 1 else 0⟩

/-- `smooth_labels` (`/repo/examples/imagenet/train.py` 120-126). -/
def smoothLabels [Field K] (labels : Arr K) (smoothing : K) : Arr K := ⟨labels.shape, fun i => (1 - smoothing) * labels.val i + smoothing / 1000⟩

/-- Whether a string is in another one (`'batchnorm' not in mod_name`, `/repo/examples/imagenet/train.py` 141). -/
def isIn (s : List Char) : List Char → Bool
  | [] => s.isEmpty
  | c :: cs => s.isPrefixOf (c :: cs) || isIn s cs

/-- `loss_fn` (`/repo/examples/imagenet/train.py` 129-144), from the logits on: `params` are the names of the modules with their parameters in order.  Logits of another shape than `[batch, 1000]` cannot be multiplied with the labels.
Simplifications: shapes that broadcast are errors; the mean over no examples is 0. -/
def lossOf [Field K] [LinearOrder K] (exp log : K → K) (smoothing weightDecay : K) (params : List (List Char × List K)) (logits : Arr K) (labels : List Nat) : Except Err K :=
  if logits.shape ≠ [labels.length, 1000] then .error .value
  else
    let hot := oneHot labels
    let hot := if smoothing ≠ 0 then smoothLabels hot smoothing else hot
    let catLoss := (∑ b ∈ Finset.range labels.length, softmaxCrossEntropy exp log logits hot b) / (labels.length : K)
    let l2Params := (params.filter fun p => !isIn "batchnorm".toList p.1).map Prod.snd
    .ok (catLoss + weightDecay * l2Loss l2Params)

/-- What a device holds: parameters, network state and state of the optimiser (`/repo/examples/imagenet/train.py` 148-153). -/
structure Replica (P S O : Type) where
  params : P
  state : S
  optState : O

/-- What `train_step` takes from elsewhere: value, new network state and gradient of the loss on a batch (`/repo/examples/imagenet/train.py` 159-160), and the optimiser (166). -/
structure Learner (K P S O B : Type) where
  valueAndGrad : P → S → B → (K × S) × P
  update : P → O → P × O

/-- `jax.lax.pmean` (`/repo/examples/imagenet/train.py` 163, 171): the mean over the devices. -/
def pmean [Field K] {V : Type} [AddCommGroup V] [Module K V] (xs : List V) : V := (xs.length : K)⁻¹ • xs.sum

/-- `train_step` on all devices (`/repo/examples/imagenet/train.py` 148-176), without bfloat16: the new replicas, and the loss that is logged. -/
def trainStep [Field K] {P S O B : Type} [AddCommGroup P] [Module K P] (L : Learner K P S O B) (replicas : List (Replica P S O)) (batches : List B) : List (Replica P S O) × K :=
  let local_ := replicas.zipWith (fun r b => L.valueAndGrad r.params r.state b) batches
  let grads : P := pmean (K := K) (local_.map fun x => x.2)
  let loss := pmean (K := K) (local_.map fun x => x.1.1)
  (replicas.zipWith (fun r x =>
    let u := L.update grads r.optState
    ⟨r.params + u.1, x.1.2, u.2⟩) local_, loss)

/-- The training loop (`/repo/examples/imagenet/train.py` 275-279): `data k` is what step `k` gives the devices. -/
def trainLoop [Field K] {P S O B : Type} [AddCommGroup P] [Module K P] (L : Learner K P S O B) (data : Nat → List B) (replicas : List (Replica P S O)) : Nat → List (Replica P S O)
  | 0 => replicas
  | n + 1 => (trainStep L (trainLoop L data replicas n) (data n)).1

/-! ### Evaluation -/

/-- `jnp.argmax` of a vector (`/repo/examples/imagenet/train.py` 202): the first position of the largest element. -/
def argmax [LinearOrder K] (n : Nat) (f : Nat → K) : Nat := (List.range n).foldl (fun best j => if f best < f j then j else best) 0

/-- `eval_batch` (`/repo/examples/imagenet/train.py` 195-204): `logits b` is the row of example `b` of the batch. -/
def evalBatch [LinearOrder K] {α : Type} (logits : List α → Nat → Nat → K) (batch : List (α × Nat)) : Nat :=
  ((List.range batch.length).filter fun b => argmax 1000 (logits (batch.map Prod.fst) b) == ((batch.map Prod.snd).getD b 0)).length

/-- `evaluate` (`/repo/examples/imagenet/train.py` 207-230), on the examples that `dataset.load` reads; the network with the parameters and the state of the first device is `logits`. -/
def evaluate [Field K] [LinearOrder K] {α : Type} (logits : List α → Nat → Nat → K) (split : Split) (evalBatchSize : Nat) (examples : List (α × Nat)) : Except Err K :=
  if evalBatchSize = 0 then .error .zeroDivision
  else if split.numExamples % evalBatchSize ≠ 0 then .error .value
  else
    let batches := batchList evalBatchSize examples.length examples
    let correct := (batches.map (evalBatch logits)).sum
    let total := (batches.map List.length).sum
    if total ≠ split.numExamples then .error .assertion
    else .ok ((correct : K) / (total : K))

end Verif.ImageNet
