import Verif.Model.Names
import Verif.Base.Dict

/-!
# Nested containers and `FlatMapping`

Models `/repo/haiku/_src/data_structures.py` 98-231 with the JAX tree functions it uses.  `α` are the leaves.  Keys are strings.
-/

namespace Verif.Tree
open Names

/-- Nested Python values: leaves, `None`, `dict`, list or tuple, `FlatMapping`.  A `FlatMapping` is represented by its mapping
(`_to_mapping()`, `/repo/haiku/_src/data_structures.py` 165-168); `_structure` and `_leaves` are `flattenItems` of it, which is what the constructor
computes at 159 and, for given components, what they are already (`Verif.Props.Tree.components_consistent`). -/
inductive Obj (α : Type) where
  | leaf (a : α)
  | none
  | dict (items : List (Str × Obj α))
  | seq (items : List (Obj α))
  | flat (items : List (Str × Obj α))

/-- `PyTreeDef`: the structure of a value.  For a dict JAX keeps the sorted keys; for a `FlatMapping` the auxiliary
data is the structure of its mapping (`/repo/haiku/_src/data_structures.py` 228-231). -/
inductive Def where
  | leaf
  | none
  | dict (items : List (Str × Def))
  | seq (items : List Def)
  | flat (inner : Def)

variable {α β : Type}

/-- JAX sorts the keys of a dict when flattening it (`jax.tree_flatten`, called at `/repo/haiku/_src/data_structures.py` 155, 158). -/
def sortKeys {γ : Type} (l : List (Str × γ)) : List (Str × γ) := l.mergeSort fun p q => decide (p.1 ≤ q.1)

/-- The structure and leaves of a dict from those of its items (`/repo/haiku/_src/data_structures.py` 158). -/
def flattenDict (r : List (Str × (List α × Def))) : List α × Def :=
  ((sortKeys r).flatMap (fun p => p.2.1), .dict ((sortKeys r).map fun p => (p.1, p.2.2)))

mutual
/-- `jax.tree_flatten` (`/repo/haiku/_src/data_structures.py` 158; for a `FlatMapping` 230). -/
def flatten : Obj α → List α × Def
  | .leaf a => ([a], .leaf)
  | .none => ([], .none)
  | .dict items => flattenDict (flattenItems items)
  | .seq items => ((flattenList items).flatMap Prod.fst, .seq ((flattenList items).map Prod.snd))
  | .flat items => ((flattenDict (flattenItems items)).1, .flat (flattenDict (flattenItems items)).2)
/-- Flattening the values of a dict (`jax.tree_flatten`, `/repo/haiku/_src/data_structures.py` 158). -/
def flattenItems : List (Str × Obj α) → List (Str × (List α × Def))
  | [] => []
  | (k, o) :: items => (k, flatten o) :: flattenItems items
/-- Flattening the elements of a sequence (`jax.tree_flatten`, `/repo/haiku/_src/data_structures.py` 158). -/
def flattenList : List (Obj α) → List (List α × Def)
  | [] => []
  | o :: items => flatten o :: flattenList items
end

/-- `FlatMapping(FlatComponents(...))`: the mapping is the unflattened dict (`/repo/haiku/_src/data_structures.py` 147-155, 165-168). -/
def asFlat : Obj α → Obj α
  | .dict items => .flat items
  | o => o

mutual
/-- `jax.tree_unflatten` (`/repo/haiku/_src/data_structures.py` 154, 167; for a `FlatMapping` 231): takes what it needs from the list and
gives back the rest.  With too few leaves JAX raises; here missing leaves become `None`. -/
def unflatten : Def → List (Obj α) → Obj α × List (Obj α)
  | .leaf, [] => (.none, [])
  | .leaf, x :: xs => (x, xs)
  | .none, xs => (.none, xs)
  | .dict items, xs => (.dict (unflattenItems items xs).1, (unflattenItems items xs).2)
  | .seq items, xs => (.seq (unflattenList items xs).1, (unflattenList items xs).2)
  | .flat inner, xs => (asFlat (unflatten inner xs).1, (unflatten inner xs).2)
/-- Unflattening the values of a dict (`jax.tree_unflatten`, `/repo/haiku/_src/data_structures.py` 167). -/
def unflattenItems : List (Str × Def) → List (Obj α) → List (Str × Obj α) × List (Obj α)
  | [], xs => ([], xs)
  | (k, d) :: items, xs =>
    ((k, (unflatten d xs).1) :: (unflattenItems items (unflatten d xs).2).1, (unflattenItems items (unflatten d xs).2).2)
/-- Unflattening the elements of a sequence (`jax.tree_unflatten`, `/repo/haiku/_src/data_structures.py` 167). -/
def unflattenList : List Def → List (Obj α) → List (Obj α) × List (Obj α)
  | [], xs => ([], xs)
  | d :: items, xs => ((unflatten d xs).1 :: (unflattenList items (unflatten d xs).2).1, (unflattenList items (unflatten d xs).2).2)
end

/-- `jax.tree_map(f, o)`: flatten, apply, unflatten; `f` may return any value (`/repo/haiku/_src/data_structures.py` 150-155). -/
def treeMap (f : α → Obj β) (o : Obj α) : Obj β := (unflatten (flatten o).2 ((flatten o).1.map f)).1

/-- The items of a mapping (`/repo/haiku/_src/data_structures.py` 170-177). -/
def items? : Obj α → Option (List (Str × Obj α))
  | .dict items => some items
  | .flat items => some items
  | _ => none

mutual
/-- `a == b`: dicts and `FlatMapping`s are compared as mappings, in any combination (`/repo/haiku/_src/data_structures.py` 179-185; a comparison
`dict == FlatMapping` is passed on to `FlatMapping.__eq__`). -/
def eq [DecidableEq α] : Obj α → Obj α → Bool
  | .leaf a, .leaf b => decide (a = b)
  | .none, .none => true
  | .dict items, b =>
    match items? b with
    | some items' => decide (items.length = items'.length) && eqItems items items'
    | none => false
  | .flat items, b =>
    match items? b with
    | some items' => decide (items.length = items'.length) && eqItems items items'
    | none => false
  | .seq xs, .seq ys => eqList xs ys
  | _, _ => false
/-- Comparing the values of two dicts key by key (Python `dict.__eq__`, `/repo/haiku/_src/data_structures.py` 185). -/
def eqItems [DecidableEq α] : List (Str × Obj α) → List (Str × Obj α) → Bool
  | [], _ => true
  | (k, o) :: items, items' =>
    match Dict.get? items' k with
    | some o' => eq o o' && eqItems items items'
    | none => false
/-- Comparing two sequences (Python `list.__eq__`, `/repo/haiku/_src/data_structures.py` 185). -/
def eqList [DecidableEq α] : List (Obj α) → List (Obj α) → Bool
  | [], [] => true
  | x :: xs, y :: ys => eq x y && eqList xs ys
  | _, _ => false
end

/-- What `FlatMapping.__hash__` hashes (`/repo/haiku/_src/data_structures.py` 187-188). -/
def hashed (items : List (Str × Obj α)) : Def × List α := ((flattenDict (flattenItems items)).2, (flattenDict (flattenItems items)).1)

mutual
/-- `to_immutable_dict` on a value of a mapping: only exact dicts are converted (`/repo/haiku/_src/data_structures.py` 103-106). -/
def freezeValue : Obj α → Obj α
  | .dict items => .flat (freezeItems items)
  | o => o
/-- The loop of `to_immutable_dict` (`/repo/haiku/_src/data_structures.py` 102-107). -/
def freezeItems : List (Str × Obj α) → List (Str × Obj α)
  | [] => []
  | (k, o) :: items => (k, freezeValue o) :: freezeItems items
end

/-- `to_immutable_dict` (`/repo/haiku/_src/data_structures.py` 98-108); anything but a mapping has no `items` and raises, here it is returned. -/
def toImmutable (o : Obj α) : Obj α := freezeValue o

mutual
/-- `to_mutable_dict` on a value (`/repo/haiku/_src/data_structures.py` 116-118). -/
def thawValue : Obj α → Obj α
  | .flat items => .dict (thawItems items)
  | o => o
/-- The loop of `to_mutable_dict` (`/repo/haiku/_src/data_structures.py` 114-119). -/
def thawItems : List (Str × Obj α) → List (Str × Obj α)
  | [] => []
  | (k, o) :: items => (k, thawValue o) :: thawItems items
end

/-- `to_mutable_dict` (`/repo/haiku/_src/data_structures.py` 112-120): any mapping at the top becomes a dict. -/
def toMutable : Obj α → Obj α
  | .dict items => .dict (thawItems items)
  | .flat items => .dict (thawItems items)
  | o => o

/-! ### With object identities -/

/-- A reference: a leaf, a mutable object (a dict or another mutable mapping, by address), or a `FlatMapping`, which is immutable and so represented by
its contents (`/repo/haiku/_src/data_structures.py` 103-108). -/
inductive Ref (α : Type) where
  | leaf (a : α)
  | addr (n : Nat)
  | flat (items : List (Str × Ref α))

/-- A mutable mapping in memory: whether its type is exactly `dict` (`/repo/haiku/_src/data_structures.py` 104), and its items. -/
structure Cell (α : Type) where
  exact : Bool
  items : List (Str × Ref α)

/-- Memory (`/repo/haiku/_src/data_structures.py` 98-108 reads it). -/
abbrev Heap (α : Type) := Nat → Cell α

/-- `to_immutable_dict` on the mutable mapping at an address (`/repo/haiku/_src/data_structures.py` 98-108).  The number bounds the depth of
nesting; `none` means it was too small (Python recurses forever on a cyclic dict). -/
def freezeAt (h : Heap α) : Nat → Nat → Option (Ref α)
  | 0, _ => none
  | n + 1, a =>
    ((h a).items.mapM fun (p : Str × Ref α) =>
      match p.2 with
      | .addr b => if (h b).exact then (freezeAt h n b).map fun r => (p.1, r) else some (p.1, .addr b)
      | r => some (p.1, r)).map .flat

end Verif.Tree
