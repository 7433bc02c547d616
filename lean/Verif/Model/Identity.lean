/-!
# `assert_state_unchanged` on object identities

Models `/repo/haiku/_src/base.py` 806-846: the check compares sets of `id(...)` of the stored objects.  Here stored objects are represented by
their addresses only, and what runs inside the block by the changes it makes to them.  CPython gives a new object an address that no
live object has; the check keeps no reference to the objects it saw, so their addresses may be given out again.
-/

namespace Verif.Identity

/-- Module and name of an entry (`/repo/haiku/_src/base.py` 279-280, 699-703). -/
abbrev Slot := List Char × List Char

/-- Addresses of the objects held by a frame: the parameter arrays, the `StatePair`s, and the key and subkeys of the sequence
(`/repo/haiku/_src/base.py` 60-62, 505). -/
structure Frame where
  params : List (Slot × Nat)
  state : List (Slot × Nat)
  rng : Option (Nat × List Nat)
  deriving DecidableEq

/-- The addresses of the live objects (what `/repo/haiku/_src/base.py` 821-830 collects). -/
def Frame.rngIds (f : Frame) : List Nat :=
  match f.rng with
  | some (k, ks) => k :: ks
  | none => []

/-- All addresses in use by the frame (`/repo/haiku/_src/base.py` 821-830). -/
def Frame.live (f : Frame) : List Nat := f.params.map Prod.snd ++ f.state.map Prod.snd ++ f.rngIds

/-- `assert_state_unchanged` raises (`/repo/haiku/_src/base.py` 833-846). -/
def reports (before after : Frame) : Bool :=
  (after.params.map Prod.snd).any (fun a => !(before.params.map Prod.snd).contains a) ||
  (after.state.map Prod.snd).any (fun a => !(before.state.map Prod.snd).contains a) ||
  after.rngIds.any fun a => !before.rngIds.contains a

/-- A change made inside the block, with the addresses given to the new objects: a parameter created by `get_parameter`
(`/repo/haiku/_src/base.py` 288-292; the initializer may return an array that exists already), a state entry created (708-713) or set (750-757),
a key taken from the reserved ones (559-562), keys split off (524-537), reserved keys dropped by `reserve_up_to_full` (539-545). -/
inductive Change where
  | newParam (s : Slot) (a : Nat)
  | newState (s : Slot) (a : Nat)
  | setState (s : Slot) (a : Nat)
  | pop
  | split (key : Nat) (subkeys : List Nat)
  | truncate (n : Nat)
  deriving DecidableEq

/-- `d[s] = a` for an existing key (`/repo/haiku/_src/base.py` 757). -/
def assign (s : Slot) (a : Nat) (d : List (Slot × Nat)) : List (Slot × Nat) := d.map fun p => if p.1 = s then (s, a) else p

/-- The frame after a change (`/repo/haiku/_src/base.py` 292, 713, 757, 559-562, 524-545). -/
def Change.apply (f : Frame) : Change → Frame
  | .newParam s a => { f with params := f.params ++ [(s, a)] }
  | .newState s a => { f with state := f.state ++ [(s, a)] }
  | .setState s a => { f with state := assign s a f.state }
  | .pop => { f with rng := f.rng.map fun r => (r.1, r.2.tail) }
  | .split k ks => { f with rng := f.rng.map fun r => (k, r.2 ++ ks) }
  | .truncate n => { f with rng := f.rng.map fun r => (r.1, r.2.take n) }

/-- The change can happen: entries are created when absent and set when present, and every new object gets an address no live object
has (`/repo/haiku/_src/base.py` 284, 703, 752, 531-537; CPython allocation). -/
def Change.possible (f : Frame) : Change → Prop
  | .newParam s _ => s ∉ f.params.map Prod.fst
  | .newState s a => s ∉ f.state.map Prod.fst ∧ a ∉ f.live
  | .setState s a => s ∈ f.state.map Prod.fst ∧ a ∉ f.live
  | .pop => ∃ k x xs, f.rng = some (k, x :: xs)
  | .split k ks => ∃ k0 xs, f.rng = some (k0, xs) ∧ (k :: ks).Nodup ∧ ∀ a ∈ k :: ks, a ∉ f.live
  | .truncate _ => ∃ k xs, f.rng = some (k, xs)

/-- A block: changes one after the other (`/repo/haiku/_src/base.py` 836-837). -/
def runBlock (f : Frame) (cs : List Change) : Frame := cs.foldl Change.apply f

/-- Every change of the block can happen when its turn comes (`/repo/haiku/_src/base.py` 836-837). -/
def blockPossible (f : Frame) : List Change → Prop
  | [] => True
  | c :: cs => c.possible f ∧ blockPossible (c.apply f) cs

end Verif.Identity
