import Mathlib.Algebra.Field.Basic
import Verif.Model.Transformer

/-!
# The MNIST example

Models `/repo/examples/mnist.py`, in exact arithmetic.  The network, the gradient and the optimiser are any functions.  Reading and shuffling of images are not modelled: the training batches are any sequence.
-/

namespace Verif.Mnist
open Verif.Pool (Arr)
open Verif.Transformer (logSoftmax)

variable {K : Type}

/-- Parameters: the leaves of the tree, each as the list of its elements (`/repo/examples/mnist.py` 67: `jax.tree_leaves`). -/
abbrev Params (K : Type) := List (List K)

/-! ### The data -/

/-- `tfds.load(…).repeat()` (`/repo/examples/mnist.py` 51): the elements of the split again and again. -/
def repeated {α : Type} [Inhabited α] (data : List α) (i : Nat) : α := data.getD (i % data.length) default

/-- `load_dataset` (`/repo/examples/mnist.py` 44-55) with `is_training=False`: the batch that the `k`-th `next` returns. -/
def evalBatch {α : Type} [Inhabited α] (data : List α) (batchSize k : Nat) : List α := (List.range batchSize).map fun j => repeated data (k * batchSize + j)

/-! ### Loss and accuracy -/

/-- `jax.nn.one_hot(batch["label"], 10)` (`/repo/examples/mnist.py` 67). -/
def oneHot [Field K] (labels : List Nat) : Arr K := ⟨[labels.length, 10], fun i => if labels.getD (i.getD 0 0) 0 = i.getD 1 0 then 1 else 0⟩

/-- `loss` (`/repo/examples/mnist.py` 64-73) from the logits, of shape `[batch, 10]`, on. -/
def loss [Field K] [LinearOrder K] (exp log : K → K) (logits : Arr K) (labels : List Nat) (params : Params K) : K :=
  let l2Loss := 1 / 2 * (params.map fun p => (p.map fun x => x ^ 2).sum).sum
  let softmaxXent := -∑ b ∈ Finset.range labels.length, ∑ c ∈ Finset.range 10, (oneHot labels).val [b, c] * (logSoftmax exp log 10 logits).val [b, c]
  softmaxXent / labels.length + 1 / 10000 * l2Loss

/-- `jnp.argmax` over 10 classes (`/repo/examples/mnist.py` 79): the first of the largest. -/
def argmax [LinearOrder K] (f : Nat → K) : Nat := (List.range 10).foldl (fun best j => if f best < f j then j else best) 0

/-- `accuracy` (`/repo/examples/mnist.py` 76-79): `logits` is the network for one image; the network has no interaction between the images of a batch. -/
def accuracy [Field K] [LinearOrder K] {I : Type} (logits : I → Nat → K) (batch : List (I × Nat)) : K :=
  (batch.map fun p => if argmax (logits p.1) == p.2 then (1 : K) else 0).sum / batch.length

/-! ### Training -/

/-- `ema_update` (`/repo/examples/mnist.py` 93-101). -/
def emaUpdate [Field K] (epsilon : K) (avgParams newParams : Params K) : Params K :=
  List.zipWith (List.zipWith fun p1 p2 => (1 - epsilon) * p1 + epsilon * p2) avgParams newParams

/-- What is trained: the network on an image, its initial parameters from the first batch, the optimiser (`/repo/examples/mnist.py` 58-61, 81-91, 109-110). -/
structure Learner (K I O : Type) where
  net : Params K → I → Nat → K
  init : List (I × Nat) → Params K
  optInit : Params K → O
  update : Params K → O → List (I × Nat) → Params K × O

/-- The variables of the loop, with how many batches of `train` and of the data for evaluation were taken (`/repo/examples/mnist.py` 104-113). -/
structure Loop (K O : Type) where
  params : Params K
  avgParams : Params K
  optState : O
  trainPos : Nat
  evalPos : Nat
  printed : List (Nat × K × K)

/-- Before the loop (`/repo/examples/mnist.py` 109-110). -/
def start {I O : Type} (L : Learner K I O) (train : Nat → List (I × Nat)) : Loop K O :=
  let params := L.init (train 0)
  ⟨params, params, L.optInit params, 1, 0, []⟩

/-- The body of the loop (`/repo/examples/mnist.py` 114-126).  The period of evaluation, the size of its batches and the rate of the average are parameters here; in the code they are 1000, 10000 and 0.001. -/
def body [Field K] [LinearOrder K] {I O : Type} [Inhabited I] (L : Learner K I O) (every evalSize : Nat) (epsilon : K) (train : Nat → List (I × Nat)) (trainSet testSet : List (I × Nat)) (s : Loop K O) (step : Nat) : Loop K O :=
  let s := if step % every == 0 then
      { s with
        printed := s.printed ++ [(step, accuracy (L.net s.avgParams) (evalBatch trainSet evalSize s.evalPos), accuracy (L.net s.avgParams) (evalBatch testSet evalSize s.evalPos))]
        evalPos := s.evalPos + 1 }
    else s
  let (params, optState) := L.update s.params s.optState (train s.trainPos)
  { s with params := params, optState := optState, trainPos := s.trainPos + 1, avgParams := emaUpdate epsilon s.avgParams params }

/-- The loop for `steps` steps (`/repo/examples/mnist.py` 113). -/
def run [Field K] [LinearOrder K] {I O : Type} [Inhabited I] (L : Learner K I O) (every evalSize : Nat) (epsilon : K) (train : Nat → List (I × Nat)) (trainSet testSet : List (I × Nat)) (steps : Nat) : Loop K O :=
  (List.range steps).foldl (body L every evalSize epsilon train trainSet testSet) (start L train)

/-- `main` (`/repo/examples/mnist.py` 58-126). -/
def main [Field K] [LinearOrder K] {I O : Type} [Inhabited I] (L : Learner K I O) (train : Nat → List (I × Nat)) (trainSet testSet : List (I × Nat)) : Loop K O :=
  run L 1000 10000 (1 / 1000) train trainSet testSet 10001

end Verif.Mnist
