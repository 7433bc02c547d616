import Verif.Base.Dict
import Verif.Model.Shapes
import Mathlib.Order.Defs.LinearOrder

/-!
# The deprecated `frozendict`

Models `/repo/haiku/_src/data_structures.py` 244-309, which is kept for old checkpoints.  Keys are of one linearly ordered type, so that `sorted` does not raise.
-/

namespace Verif.FrozenDict
open Verif.Shapes (Err)

variable {K V W H : Type} [LinearOrder K]

/-- The slots of a `frozendict` (`/repo/haiku/_src/data_structures.py` 246), without the hash. -/
structure Frozen (K V : Type) where
  storage : Dict K V
  keys : List K

/-- `__init__` (`/repo/haiku/_src/data_structures.py` 248-252) from pairs, of which the last for a key counts. -/
def Frozen.new (items : List (K × V)) : Frozen K V :=
  let storage := Dict.ofItems items
  ⟨storage, storage.keys.mergeSort (fun a b => decide (a ≤ b))⟩

/-- `__hash__` (`/repo/haiku/_src/data_structures.py` 252, 300-301) with the hash of tuples `hash`. -/
def Frozen.hash (hash : List K → H) (d : Frozen K V) : H := hash d.keys

/-- `__iter__` (`/repo/haiku/_src/data_structures.py` 257-258). -/
def Frozen.iter (d : Frozen K V) : List K := d.keys

/-- `__len__` (`/repo/haiku/_src/data_structures.py` 260-261). -/
def Frozen.len (d : Frozen K V) : Nat := d.storage.length

/-- `__getattr__` (`/repo/haiku/_src/data_structures.py` 263-269), for names that are no attributes of the class. -/
def Frozen.getattr (d : Frozen K V) (key : K) : Except Err V :=
  match d.storage.get? key with
  | some v => .ok v
  | none => .error .attribute

/-- `get` (`/repo/haiku/_src/data_structures.py` 271-272). -/
def Frozen.get (d : Frozen K V) (key : K) (default : V) : V := (d.storage.get? key).getD default

/-- `__getitem__` (`/repo/haiku/_src/data_structures.py` 274-275); `none` stands for `KeyError`. -/
def Frozen.getitem (d : Frozen K V) (key : K) : Option V := d.storage.get? key

/-- The pairs that `__repr__` shows (`/repo/haiku/_src/data_structures.py` 277-287). -/
def Frozen.shown (d : Frozen K V) : List (K × Option V) := d.keys.map fun k => (k, d.storage.get? k)

/-- `==` of dictionaries (`/repo/haiku/_src/data_structures.py` 293, 296): as many keys, and each key of the first has an equal value in the second. -/
def dictEq [DecidableEq V] (a b : Dict K V) : Bool := a.length == b.length && a.all fun p => b.get? p.1 == some p.2

/-- What a `frozendict` may be compared with (`/repo/haiku/_src/data_structures.py` 291-298). -/
inductive Other (K V : Type) where
  | frozen (d : Frozen K V)
  | dict (d : Dict K V)
  | other

/-- `__eq__` (`/repo/haiku/_src/data_structures.py` 291-298). -/
def Frozen.eq [DecidableEq V] (a : Frozen K V) : Other K V → Bool
  | .frozen b => dictEq a.storage b.storage
  | .dict b => dictEq a.storage b
  | .other => false

/-- `__reduce__` (`/repo/haiku/_src/data_structures.py` 303-304) followed by a call of what it returns. -/
def Frozen.reduced (d : Frozen K V) : Frozen K V := Frozen.new d.storage

/-- Flattening (`/repo/haiku/_src/data_structures.py` 308): `values()` of a `Mapping` are the items of the keys in order; `none` if one is missing. -/
def Frozen.flatten (d : Frozen K V) : List (Option V) × List K := (d.iter.map d.getitem, d.iter)

/-- Unflattening (`/repo/haiku/_src/data_structures.py` 309). -/
def unflatten (keys : List K) (xs : List V) : Frozen K V := Frozen.new (keys.zip xs)

end Verif.FrozenDict
