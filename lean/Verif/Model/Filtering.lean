import Verif.Model.Frame

/-!
# Partitioning, filtering, mapping and merging parameters

Models `/repo/haiku/_src/filtering.py`.  Simplifications: predicates and functions are pure, and the final conversion
`to_immutable_dict` is left out (it keeps every entry, see `Verif.Model.Tree`).
-/

namespace Verif.Filtering
open Frame

variable {β γ : Type}

/-- A two-level structure: module name, entry name, value (`/repo/haiku/_src/filtering.py` 25). -/
abbrev Structure (β : Type) := Dict Str (Dict Str β)

/-- `partition` (`/repo/haiku/_src/filtering.py` 58-70). -/
def partition (predicate : Str → Str → β → Bool) (structure_ : Structure β) : Structure β × Structure β :=
  structure_.foldl (fun out p =>
    p.2.foldl (fun out q =>
      if predicate p.1 q.1 q.2 then (store2 out.1 p.1 q.1 q.2, out.2) else (out.1, store2 out.2 p.1 q.1 q.2)) out) ([], [])

/-- `filter` (`/repo/haiku/_src/filtering.py` 96-103). -/
def filter (predicate : Str → Str → β → Bool) (structure_ : Structure β) : Structure β :=
  structure_.foldl (fun out p =>
    p.2.foldl (fun out q => if predicate p.1 q.1 q.2 then store2 out p.1 q.1 q.2 else out) out) []

/-- `map` (`/repo/haiku/_src/filtering.py` 129-135). -/
def map (fn : Str → Str → β → γ) (structure_ : Structure β) : Structure γ :=
  structure_.foldl (fun out p => p.2.foldl (fun out q => store2 out p.1 q.1 (fn p.1 q.1 q.2)) out) []

/-- `merge` (`/repo/haiku/_src/filtering.py` 162-167). -/
def merge (structures : List (Structure β)) : Structure β :=
  structures.foldl (fun out s => s.foldl (fun out p => p.2.foldl (fun out q => store2 out p.1 q.1 q.2) out) out) []

end Verif.Filtering
