import Verif.Model.PRNG
import Verif.Model.Shapes

/-!
# The training of `examples/rnn`

The network, its loss, the optimiser and the sampling are any functions; the data sets are streams of batches.  What the loss and the sampling of the example are is the subject of `Verif.Model.CharRnn`.
-/

namespace Verif.RnnTrain
open Verif.Shapes (Err)

variable {P O G U B C S L : Type}

/-- What `main` makes (`/repo/examples/rnn/train.py` 145-151) and what `update` uses (86-95): `params_init`, `opt_init`, the gradient of `loss_fn`, the optimiser, `optax.apply_updates`, `loss_fn`, the context of a batch (167) and `sample_fn`. -/
structure Task (P O G U B C S L : Type) where
  paramsInit : Key → B → P
  optInit : P → O
  grad : P → B → G
  optimizer : G → O → U × O
  applyUpdates : P → U → P
  lossFn : P → B → L
  context : B → C
  sampleFn : P → Key → C → Nat → S

/-- `TrainingState` (`/repo/examples/rnn/train.py` 53-55). -/
structure TrainingState (P O : Type) where
  params : P
  optState : O
  deriving DecidableEq, Repr

/-- `update` (`/repo/examples/rnn/train.py` 87-95). -/
def update (T : Task P O G U B C S L) (state : TrainingState P O) (batch : B) : TrainingState P O :=
  let gradients := T.grad state.params batch
  let r := T.optimizer gradients state.optState
  let newParams := T.applyUpdates state.params r.1
  ⟨newParams, r.2⟩

/-- `tfds.Split.TRAIN`, `tfds.Split.TEST` (`/repo/examples/rnn/train.py` 142). -/
inductive Split where
  | train
  | test
  deriving DecidableEq, Repr

/-- What is logged (`/repo/examples/rnn/train.py` 175-176, 183-187), before decoding. -/
inductive Line (C S L : Type) where
  | sampled (prompt : C) (continuation : S)
  | evaluated (step : Nat) (loss : L) (split : Split)
  deriving DecidableEq, Repr

/-- The variables of `main` (`/repo/examples/rnn/train.py` 131-157): the state, `rng`, how many batches the iterators `train_data` and those of `eval_data` have given, and the log. -/
structure Vars (P O C S L : Type) where
  state : TrainingState P O
  rng : PRNGSeq
  taken : Nat
  takenEval : Nat
  log : List (Line C S L)

/-- The flags (`/repo/examples/rnn/train.py` 31-39): training steps, the intervals, the length of samples and the seed. -/
structure Flags where
  trainingSteps : Nat
  samplingInterval : Nat
  evaluationInterval : Nat
  sampleLength : Nat
  seed : Int

/-- `next(rng)` (`/repo/examples/rnn/train.py` 154, 169). -/
def nextKey (rng : PRNGSeq) : Except Err (Key × PRNGSeq) := match rng.next with
  | (some k, rng) => .ok (k, rng)
  | (none, _) => .error .index

/-- `step % interval == 0` (`/repo/examples/rnn/train.py` 166, 179). -/
def due (step interval : Nat) : Except Err Bool := if interval = 0 then .error .zeroDivision else .ok (step % interval == 0)

/-- The samples of a step (`/repo/examples/rnn/train.py` 165-176). -/
def sampling (T : Task P O G U B C S L) (F : Flags) (step : Nat) (batch : B) (v : Vars P O C S L) : Except Err (Vars P O C S L) := do
  if ← due step F.samplingInterval then
    let context := T.context batch
    let (key, rng) ← nextKey v.rng
    let samples := T.sampleFn v.state.params key context F.sampleLength
    .ok { v with rng, log := v.log ++ [.sampled context samples] }
  else .ok v

/-- The evaluation of a step (`/repo/examples/rnn/train.py` 178-187): one batch of each data set. -/
def evaluation (T : Task P O G U B C S L) (F : Flags) (evalData : Split → Nat → B) (step : Nat) (v : Vars P O C S L) : Except Err (Vars P O C S L) := do
  if ← due step F.evaluationInterval then
    .ok { v with
      takenEval := v.takenEval + 1
      log := v.log ++ [Split.train, Split.test].map fun split => .evaluated step (T.lossFn v.state.params (evalData split v.takenEval)) split }
  else .ok v

/-- The body of the loop (`/repo/examples/rnn/train.py` 160-187). -/
def body (T : Task P O G U B C S L) (F : Flags) (trainData : Nat → B) (evalData : Split → Nat → B) (step : Nat) (v : Vars P O C S L) : Except Err (Vars P O C S L) := do
  let trainBatch := trainData v.taken
  let v ← sampling T F step trainBatch { v with state := update T v.state trainBatch, taken := v.taken + 1 }
  evaluation T F evalData step v

/-- The loop for the steps from `i` on (`/repo/examples/rnn/train.py` 160), `n` of them. -/
def loop (T : Task P O G U B C S L) (F : Flags) (trainData : Nat → B) (evalData : Split → Nat → B) : Nat → Nat → Vars P O C S L → Except Err (Vars P O C S L)
  | _, 0, v => .ok v
  | i, n + 1, v => do
    let v ← body T F trainData evalData i v
    loop T F trainData evalData (i + 1) n v

/-- `main` (`/repo/examples/rnn/train.py` 127-187). -/
def main (T : Task P O G U B C S L) (F : Flags) (trainData : Nat → B) (evalData : Split → Nat → B) : Except Err (Vars P O C S L) := do
  let (key, rng) ← nextKey (PRNGSeq.ofSeed F.seed)
  let initialParams := T.paramsInit key (trainData 0)
  let initialOptState := T.optInit initialParams
  loop T F trainData evalData 0 (F.trainingSteps + 1) ⟨⟨initialParams, initialOptState⟩, rng, 1, 0, []⟩

end Verif.RnnTrain
