import Mathlib.Algebra.Field.Basic
import Verif.Model.Shapes

/-!
# Exponential moving averages

Models `ExponentialMovingAverage` of `/repo/haiku/_src/moving_averages.py` in exact arithmetic.  Arrays are averaged element by element, so one element is
modelled.
-/

namespace Verif.Ema
open Verif.Shapes (Err)

variable {K : Type} [Field K]

/-- The three state entries of the module, each of which may not exist yet (`/repo/haiku/_src/moving_averages.py` 112, 121, 131). -/
structure State (K : Type) where
  counter : Option Int
  hidden : Option K
  average : Option K
  deriving DecidableEq, Repr

/-- No entries yet. (`hk.get_state` creates them with `init`, `/repo/haiku/_src/moving_averages.py` 112-121.) -/
def State.empty : State K := ⟨none, none, none⟩

/-- An `ExponentialMovingAverage` object (`/repo/haiku/_src/moving_averages.py` 66-68). -/
structure EMA (K : Type) where
  decay : K
  zeroDebias : Bool
  warmupLength : Int
  deriving DecidableEq, Repr

/-- `ExponentialMovingAverage.__init__` (`/repo/haiku/_src/moving_averages.py` 46-78); the decay is not checked. -/
def EMA.make (decay : K) (zeroDebias : Bool) (warmupLength : Int) : Except Err (EMA K) :=
  if warmupLength < 0 then .error .value
  else if warmupLength ≠ 0 ∧ zeroDebias then .error .value
  else .ok ⟨decay, zeroDebias, warmupLength⟩

/-- `initialize` (`/repo/haiku/_src/moving_averages.py` 80-90). -/
def State.initialize (st : State K) : State K := { st with hidden := some (st.hidden.getD 0), average := some (st.average.getD 0) }

/-- `__call__` (`/repo/haiku/_src/moving_averages.py` 92-133): the value that is returned, and the state afterwards.  `hk.get_state` stores the initial value of a missing entry even
without `update_stats` (`/repo/haiku/_src/base.py` 657-721).  Simplification: exact arithmetic, in which a division by zero gives zero instead of NaN. -/
def EMA.call (m : EMA K) (st : State K) (value : K) (updateStats : Bool) : K × State K :=
  let counter0 := st.counter.getD (-m.warmupLength)
  let counter := counter0 + 1
  let decay := if 0 < m.warmupLength ∧ counter ≤ 0 then 0 else m.decay
  let hidden0 := st.hidden.getD 0
  let hidden := hidden0 * decay + value * (1 - decay)
  let average := if m.zeroDebias then hidden / (1 - decay ^ counter) else hidden
  (average, if updateStats then ⟨some counter, some hidden, some average⟩ else ⟨some counter0, some hidden0, st.average⟩)

/-- A history of calls (`/repo/haiku/_src/moving_averages.py` 92-133, called any number of times): each with its value and `update_stats`. -/
def EMA.after (m : EMA K) (st : State K) : List (K × Bool) → State K
  | [] => st
  | (v, u) :: rest => m.after (m.call st v u).2 rest

end Verif.Ema
