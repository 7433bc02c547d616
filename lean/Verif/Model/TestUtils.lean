import Verif.Model.Shapes

/-!
# Utilities for tests

Models the search for modules and classes and the combination of named parameters (`/repo/haiku/_src/test_utils.py` 86-156), which decide what the tests of the library cover.
-/

namespace Verif.TestUtils
open Verif.Shapes (Err)

variable {M C V : Type}

/-- Python modules: their names, and the modules among their attributes in the order of `dir` (`/repo/haiku/_src/test_utils.py` 98-100). -/
structure Graph (M : Type) where
  name : M → String
  attrs : M → List M

/-- The variables of the loop of `find_internal_python_modules` (`/repo/haiku/_src/test_utils.py` 90-92); what `pop` takes next is the head of `toVisit`. -/
structure Search (M : Type) where
  modules : List M
  visited : List M
  toVisit : List M

/-- `obj.__name__.startswith("haiku")` (`/repo/haiku/_src/test_utils.py` 101). -/
def Graph.internal (g : Graph M) (m : M) : Bool := "haiku".toList.isPrefixOf (g.name m).toList

/-- The body of the inner loop (`/repo/haiku/_src/test_utils.py` 98-103) for an attribute that is a module. -/
def Graph.look [DecidableEq M] (g : Graph M) (s : Search M) (obj : M) : Search M :=
  if !s.visited.contains obj && g.internal obj then { s with toVisit := obj :: s.toVisit, modules := if s.modules.contains obj then s.modules else s.modules ++ [obj] } else s

/-- The body of the outer loop (`/repo/haiku/_src/test_utils.py` 94-103). -/
def Graph.visit [DecidableEq M] (g : Graph M) (s : Search M) : Search M :=
  match s.toVisit with
  | [] => s
  | mod :: rest => (g.attrs mod).foldl g.look { s with visited := mod :: s.visited, toVisit := rest }

/-- The outer loop (`/repo/haiku/_src/test_utils.py` 94-103), for at most `fuel` iterations; `none` if there are more. -/
def Graph.search [DecidableEq M] (g : Graph M) : Nat → Search M → Option (Search M)
  | fuel, s =>
    match s.toVisit, fuel with
    | [], _ => some s
    | _ :: _, 0 => none
    | _ :: _, fuel + 1 => g.search fuel (g.visit s)

/-- Whether an element occurs twice, so that sorting compares modules (`/repo/haiku/_src/test_utils.py` 105). -/
def hasDuplicate [DecidableEq V] : List V → Bool
  | [] => false
  | v :: l => l.contains v || hasDuplicate l

/-- `sorted(modules)` (`/repo/haiku/_src/test_utils.py` 105): by name; two modules of the same name would be compared, which raises `TypeError`. -/
def Graph.sorted [DecidableEq M] (g : Graph M) (modules : List M) : Except Err (List M) :=
  if hasDuplicate (modules.map g.name) then .error .type else .ok (modules.mergeSort fun a b => decide ((g.name a).toList ≤ (g.name b).toList))

/-- `find_internal_python_modules` (`/repo/haiku/_src/test_utils.py` 86-105). -/
def Graph.find [DecidableEq M] (g : Graph M) (fuel : Nat) (root : M) : Option (Except Err (List M)) := (g.search fuel ⟨[root], [], [root]⟩).map fun s => g.sorted s.modules

/-- `find_subclasses` (`/repo/haiku/_src/test_utils.py` 108-119): `classes` are the classes among the values of a module, `isSub` is `issubclass(value, base_class)`. -/
def findSubclasses [DecidableEq C] (classes : M → List C) (isSub : C → Bool) (modules : List M) : List C :=
  (modules.flatMap classes).foldl (fun seen c => if isSub c && !seen.contains c then seen ++ [c] else seen) []

/-- A named parameter: a name and values (`/repo/haiku/_src/test_utils.py` 144). -/
abbrev Named (V : Type) := String × List V

/-- `itertools.product` (`/repo/haiku/_src/test_utils.py` 146). -/
def product {A : Type} : List (List A) → List (List A)
  | [] => [[]]
  | l :: ls => l.flatMap fun a => (product ls).map (a :: ·)

/-- `combine` (`/repo/haiku/_src/test_utils.py` 144). -/
def combine (a b : Named V) : Named V := (a.1 ++ "_" ++ b.1, a.2 ++ b.2)

/-- `functools.reduce(combine, r)` (`/repo/haiku/_src/test_utils.py` 146). -/
def reduce : List (Named V) → Except Err (Named V)
  | [] => .error .type
  | a :: l => .ok (l.foldl combine a)

/-- `combined_named_parameters` (`/repo/haiku/_src/test_utils.py` 122-146), without the decorator. -/
def combined (parameters : List (List (Named V))) : Except Err (List (Named V)) := (product parameters).mapM reduce

/-- `named_bools` (`/repo/haiku/_src/test_utils.py` 149-151). -/
def namedBools (name : String) : List (Named Bool) := [(name, [true]), ("not_" ++ name, [false])]

/-- `named_range` (`/repo/haiku/_src/test_utils.py` 154-156). -/
def namedRange (name : String) (stop : Nat) : List (Named Nat) := (List.range stop).map fun i => (name ++ "_" ++ toString i, [i])

end Verif.TestUtils
