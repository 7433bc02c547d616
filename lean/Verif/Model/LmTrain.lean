import Verif.Base.Dict
import Verif.Model.PRNG
import Verif.Model.ImageNet

/-!
# Training of the transformer example

Models the data set (`/repo/examples/transformer/dataset.py`) and the updaters with checkpoints (`/repo/examples/transformer/train.py` 111-209) as a process that may be stopped at any point.
The network, its loss and the optimiser are any functions; splitting of keys is ideal.  Shuffling, `jit` and logging are not modelled.
-/

namespace Verif.LmTrain
open Verif.Pool (Arr)
open Verif.ImageNet (isIn)

/-! ### The data set -/

/-- `_crop_or_pad` (`/repo/examples/transformer/dataset.py` 51-58). -/
def cropOrPad (value : List Int) (size : Nat) (padToken : Int) : List Int :=
  if value.length < size then value ++ List.replicate (size - value.length) padToken else value.take size

/-- The record made of a text: observations and targets (`/repo/examples/transformer/dataset.py` 36, 40, 43). -/
def record (sequenceLength : Nat) (text : List Int) : List Int × List Int :=
  let t := cropOrPad text (sequenceLength + 1) 0
  (t.dropLast, t.tail)

/-- `ds.batch` (`/repo/examples/transformer/dataset.py` 44): rows of equal length as one array. -/
def stack (length : Nat) (rows : List (List Int)) : Arr Int := ⟨[rows.length, length], fun i => (rows.getD (i.getD 0 0) []).getD (i.getD 1 0) 0⟩

/-! ### The updater -/

/-- The dictionary that is the state of the updater (`/repo/examples/transformer/train.py` 129-134, 147-152). -/
structure TrainState (P O : Type) where
  step : Nat
  rng : Key
  optState : O
  params : P

/-- `Updater.__init__` (`/repo/examples/transformer/train.py` 117-121): the network's initialisation, the loss with its gradient, and the optimiser with `optax.apply_updates`. -/
structure Updater (P G O D L : Type) where
  netInit : Key → D → P
  valueAndGrad : P → Key → D → L × G
  optInit : P → O
  optUpdate : G → O → G × O
  applyUpdates : P → G → P

variable {P G O D L : Type}

/-- `Updater.init` (`/repo/examples/transformer/train.py` 124-135). -/
def Updater.init (U : Updater P G O D L) (masterRng : Key) (data : D) : TrainState P O :=
  let outRng := Key.child masterRng 2 0
  let initRng := Key.child masterRng 2 1
  let params := U.netInit initRng data
  ⟨0, outRng, U.optInit params, params⟩

/-- `Updater.update` (`/repo/examples/transformer/train.py` 138-158): the new state, and the metrics `step` and `loss`. -/
def Updater.update (U : Updater P G O D L) (state : TrainState P O) (data : D) : TrainState P O × (Nat × L) :=
  let rng := Key.child state.rng 2 0
  let newRng := Key.child state.rng 2 1
  let (loss, g) := U.valueAndGrad state.params rng data
  let (updates, optState) := U.optUpdate g state.optState
  let params := U.applyUpdates state.params updates
  (⟨state.step + 1, newRng, optState, params⟩, (state.step, loss))

/-! ### Checkpoints -/

/-- What is in a file: a whole pickle, or one that was cut short (`/repo/examples/transformer/train.py` 205-206). -/
inductive File (P O : Type) where
  | pickle (state : TrainState P O)
  | torn

/-- `'checkpoint_{:07d}.pkl'.format(step)` (`/repo/examples/transformer/train.py` 202). -/
def fileName (step : Nat) : List Char :=
  let digits := Nat.toDigits 10 step
  "checkpoint_".toList ++ (List.replicate (7 - digits.length) '0' ++ digits) ++ ".pkl".toList

/-- `_checkpoint_paths` (`/repo/examples/transformer/train.py` 178-179); the listing of a directory is in arbitrary order and is an input. -/
def checkpointPaths (listing : List (List Char)) : List (List Char) := listing.filter fun p => isIn "checkpoint_".toList p

/-- The directory (`/repo/examples/transformer/train.py` 184-186), if it exists. -/
abbrev Disk (P O : Type) := Option (Dict (List Char) (File P O))

/-- What `listdir` may return (`/repo/examples/transformer/train.py` 179): the names in the directory in any order. -/
def Lists (disk : Disk P O) (listing : List (List Char)) : Bool := listing.isPerm ((disk.getD []).keys)

/-- `CheckpointingUpdater.init` (`/repo/examples/transformer/train.py` 181-192): the state, or nothing if loading raises, and the directory. -/
def ckptInit (U : Updater P G O D L) (rng : Key) (data : D) (disk : Disk P O) (listing : List (List Char)) : Option (TrainState P O) × Disk P O :=
  match disk with
  | none => (some (U.init rng data), some [])
  | some d =>
    match (checkpointPaths listing).getLast? with
    | none => (some (U.init rng data), some d)
    | some path =>
      match d.get? path with
      | some (.pickle s) => (some s, some d)
      | _ => (none, some d)

/-- `step % self._checkpoint_every_n == 0` (`/repo/examples/transformer/train.py` 200); NumPy takes the remainder by 0 to be 0. -/
def due (everyN step : Nat) : Bool := everyN == 0 || step % everyN == 0

/-- Where the process is: not running, before a call of `update` (`/repo/examples/transformer/train.py` 236), after the file was opened (205), or after the state was written (206). -/
inductive Proc (P O : Type) where
  | down
  | ready (s : TrainState P O)
  | writing (s : TrainState P O)
  | saved (s : TrainState P O)

/-- The directory and the process (`/repo/examples/transformer/train.py` 161-247). -/
structure Config (P O : Type) where
  disk : Disk P O
  proc : Proc P O

/-- The steps of a process (`/repo/examples/transformer/train.py` 231, 205, 206, 208); it may be stopped at any point. -/
inductive Event (D : Type) where
  | boot (listing : List (List Char)) (data : D)
  | openFile
  | dump
  | update (data : D)
  | crash

/-- One step, or `none` if it does not come next (`/repo/examples/transformer/train.py` 181-209, 228-236).  Opening a file for writing empties it.  A process in which loading raises is not running. -/
def step (U : Updater P G O D L) (everyN : Nat) (masterRng : Key) (c : Config P O) : Event D → Option (Config P O)
  | .boot listing data =>
    match c.proc with
    | .down =>
      if Lists c.disk listing then
        match ckptInit U masterRng data c.disk listing with
        | (some s, d) => some ⟨d, .ready s⟩
        | (none, d) => some ⟨d, .down⟩
      else none
    | _ => none
  | .openFile =>
    match c.proc with
    | .ready s => if due everyN s.step then some ⟨c.disk.map fun d => d.set (fileName s.step) .torn, .writing s⟩ else none
    | _ => none
  | .dump =>
    match c.proc with
    | .writing s => some ⟨c.disk.map fun d => d.set (fileName s.step) (.pickle s), .saved s⟩
    | _ => none
  | .update data =>
    match c.proc with
    | .saved s => some ⟨c.disk, .ready (U.update s data).1⟩
    | .ready s => if due everyN s.step then none else some ⟨c.disk, .ready (U.update s data).1⟩
    | _ => none
  | .crash =>
    match c.proc with
    | .down => none
    | _ => some ⟨c.disk, .down⟩

end Verif.LmTrain
