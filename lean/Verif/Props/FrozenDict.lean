import Verif.Model.FrozenDict
import Mathlib.Data.List.Nodup
import Mathlib.Data.List.Induction
import Mathlib.Data.List.Perm.Subperm
import Mathlib.Data.String.Basic

/-!
# The deprecated `frozendict` (C175)
-/

set_option linter.unusedVariables false
set_option linter.unusedSectionVars false

namespace Verif.Props.FrozenDict
open Verif.Shapes (Err)
open Verif.FrozenDict

variable {K V W H : Type} [LinearOrder K]

/-- The value that pairs give to a key: the last one. -/
def lookup (items : List (K × V)) (k : K) : Option V := (items.reverse.find? fun p => p.1 = k).map Prod.snd

theorem ofItems_lookup (items : List (K × V)) (k : K) : Dict.get? (Dict.ofItems items) k = lookup items k := by
  unfold Dict.ofItems lookup
  induction items using List.reverseRecOn with
  | nil => rfl
  | append_singleton items p ih =>
    rw [List.foldl_append, List.foldl_cons, List.foldl_nil, Dict.get?_set, ih, List.reverse_append, List.reverse_singleton, List.singleton_append, List.find?_cons]
    by_cases h : p.1 = k <;> simp [h]

/-- C175 every item is the last value given for its key. -/
theorem getitem_new (items : List (K × V)) (k : K) : (Frozen.new items).getitem k = lookup items k := ofItems_lookup items k

theorem new_nodup (items : List (K × V)) : (Frozen.new items).storage.keys.Nodup := Dict.nodup_ofItems items

theorem sorted_keys (items : List (K × V)) : (Frozen.new items).keys.Pairwise (· ≤ ·) := by
  have := List.pairwise_mergeSort (le := fun a b : K => decide (a ≤ b)) (fun a b c h1 h2 => by simp only [decide_eq_true_eq] at *; exact le_trans h1 h2) (fun a b => by simp [le_total]) (Frozen.new items).storage.keys
  exact this.imp fun h => of_decide_eq_true h

theorem keys_perm (items : List (K × V)) : (Frozen.new items).keys.Perm (Frozen.new items).storage.keys := List.mergeSort_perm _ _

/-- C175 iteration is over exactly the keys, each once, in increasing order, whatever the order of the pairs. -/
theorem iter_increasing (items : List (K × V)) : (Frozen.new items).iter.Pairwise (· < ·) ∧ (∀ k, k ∈ (Frozen.new items).iter ↔ (lookup items k).isSome) ∧ (Frozen.new items).iter.length = (Frozen.new items).len := by
  have hn : (Frozen.new items).keys.Nodup := (keys_perm items).nodup_iff.2 (new_nodup items)
  refine ⟨?_, fun k => ?_, ?_⟩
  · exact (List.Pairwise.and (sorted_keys items) hn).imp fun h => lt_of_le_of_ne h.1 h.2
  · rw [← getitem_new]
    exact (keys_perm items).mem_iff.trans (Dict.mem_keys_iff _ _)
  · rw [show (Frozen.new items).iter.length = _ from (keys_perm items).length_eq]
    exact List.length_map _

/-- C175 attributes are the items, and other names raise `AttributeError`. -/
theorem getattr_eq (items : List (K × V)) (k : K) : (Frozen.new items).getattr k = (match lookup items k with | some v => .ok v | none => .error .attribute) := by
  unfold Frozen.getattr
  rw [show Dict.get? (Frozen.new items).storage k = _ from ofItems_lookup items k]
  rfl

theorem get_eq (items : List (K × V)) (k : K) (v : V) : (Frozen.new items).get k v = (lookup items k).getD v := by
  unfold Frozen.get
  rw [show Dict.get? (Frozen.new items).storage k = _ from ofItems_lookup items k]

theorem dictEq_iff [DecidableEq V] {a b : Dict K V} (ha : a.keys.Nodup) (hb : b.keys.Nodup) : dictEq a b = true ↔ ∀ k, a.get? k = b.get? k := by
  unfold dictEq
  rw [Bool.and_eq_true, beq_iff_eq, List.all_eq_true]
  constructor
  · rintro ⟨hl, h⟩ k
    have hsub : a.keys ⊆ b.keys := fun k hk => by
      obtain ⟨p, hp, rfl⟩ := List.mem_map.1 hk
      rw [Dict.mem_keys_iff, beq_iff_eq.1 (h p hp)]
      rfl
    have hperm : a.keys.Perm b.keys := (List.subperm_of_subset ha hsub).perm_of_length_le (by
      show (b.map Prod.fst).length ≤ (a.map Prod.fst).length
      rw [List.length_map, List.length_map, hl])
    rcases hg : a.get? k with _ | v
    · symm
      rw [Dict.get?_eq_none_iff] at hg ⊢
      exact fun hk => hg (hperm.mem_iff.2 hk)
    · exact (beq_iff_eq.1 (h (k, v) (Dict.mem_of_get? hg))).symm
  · intro h
    refine ⟨?_, fun p hp => beq_iff_eq.2 ?_⟩
    · have hperm : a.keys.Perm b.keys := (List.perm_ext_iff_of_nodup ha hb).2 fun k => by rw [Dict.mem_keys_iff, Dict.mem_keys_iff, h]
      have := hperm.length_eq
      rwa [show a.keys.length = a.length from List.length_map _, show b.keys.length = b.length from List.length_map _] at this
    · rw [← h]
      exact Dict.get?_of_mem ha hp

/-- C175 two are equal exactly if they have the same items; comparison with a `dict` is the same. -/
theorem eq_iff [DecidableEq V] (a b : List (K × V)) : (Frozen.new a).eq (.frozen (Frozen.new b)) = true ↔ ∀ k, lookup a k = lookup b k := by
  refine (dictEq_iff (new_nodup a) (new_nodup b)).trans (forall_congr' fun k => ?_)
  rw [show Dict.get? (Frozen.new a).storage k = _ from ofItems_lookup a k, show Dict.get? (Frozen.new b).storage k = _ from ofItems_lookup b k]

theorem eq_dict_iff [DecidableEq V] (a : List (K × V)) {b : Dict K V} (hb : b.keys.Nodup) : (Frozen.new a).eq (.dict b) = true ↔ ∀ k, lookup a k = b.get? k := by
  refine (dictEq_iff (new_nodup a) hb).trans (forall_congr' fun k => ?_)
  rw [show Dict.get? (Frozen.new a).storage k = _ from ofItems_lookup a k]

theorem keys_eq {a : List (K × V)} {b : List (K × W)} (h : ∀ k, (lookup a k).isSome = (lookup b k).isSome) : (Frozen.new a).keys = (Frozen.new b).keys := by
  refine List.Perm.eq_of_pairwise (le := fun x y => x ≤ y) (fun x y _ _ h1 h2 => le_antisymm h1 h2) (sorted_keys a) (sorted_keys b) ?_
  have ha : (Frozen.new a).keys.Nodup := (keys_perm a).nodup_iff.2 (new_nodup a)
  have hb : (Frozen.new b).keys.Nodup := (keys_perm b).nodup_iff.2 (new_nodup b)
  refine (List.perm_ext_iff_of_nodup ha hb).2 fun k => ?_
  rw [show k ∈ (Frozen.new a).keys ↔ _ from (iter_increasing a).2.1 k, show k ∈ (Frozen.new b).keys ↔ _ from (iter_increasing b).2.1 k, h]

/-- C175 equal ones have equal hashes, the same iteration and show the same text; also if their values differ, as the hash is that of the keys. -/
theorem eq_hash [DecidableEq V] (hash : List K → H) {a b : List (K × V)} (h : (Frozen.new a).eq (.frozen (Frozen.new b)) = true) :
    (Frozen.new a).hash hash = (Frozen.new b).hash hash ∧ (Frozen.new a).iter = (Frozen.new b).iter ∧ (Frozen.new a).shown = (Frozen.new b).shown := by
  have h := (eq_iff a b).1 h
  have hk : (Frozen.new a).keys = (Frozen.new b).keys := keys_eq fun k => by rw [h]
  refine ⟨congrArg hash hk, hk, ?_⟩
  unfold Frozen.shown
  rw [hk]
  refine List.map_congr_left fun k _ => ?_
  rw [show Dict.get? (Frozen.new a).storage k = _ from ofItems_lookup a k, show Dict.get? (Frozen.new b).storage k = _ from ofItems_lookup b k, h]

/-- C175 the order of pairs with different keys does not matter. -/
theorem perm_eq [DecidableEq V] {a b : List (K × V)} (hn : (a.map Prod.fst).Nodup) (h : a.Perm b) : (Frozen.new a).eq (.frozen (Frozen.new b)) = true := by
  refine (eq_iff a b).2 fun k => ?_
  rw [← ofItems_lookup, ← ofItems_lookup, Dict.ofItems_of_nodup hn, Dict.ofItems_of_nodup ((h.map _).nodup_iff.1 hn)]
  rcases hg : Dict.get? a k with _ | v
  · symm
    rw [Dict.get?_eq_none_iff] at hg ⊢
    exact fun hk => hg ((h.map Prod.fst).mem_iff.2 hk)
  · exact (Dict.get?_of_mem ((h.map _).nodup_iff.1 hn) (h.mem_iff.1 (Dict.mem_of_get? hg))).symm

/-- C175 pickling and loading gives an equal one. -/
theorem reduced_eq [DecidableEq V] (items : List (K × V)) : (Frozen.new items).reduced = Frozen.new items := by
  unfold Frozen.reduced Frozen.new
  dsimp only
  rw [Dict.ofItems_of_nodup (Dict.nodup_ofItems items)]

theorem get?_zip_map {κ μ : Type} [DecidableEq κ] (f : κ → μ) : ∀ (l : List κ) (k : κ), Dict.get? (l.zip (l.map f)) k = if k ∈ l then some (f k) else none := by
  intro l k
  induction l with
  | nil => rfl
  | cons x l ih =>
    rw [List.map_cons, List.zip_cons_cons, Dict.get?_cons, ih]
    by_cases h : x = k
    · subst h; simp
    · have : ¬ k = x := fun e => h e.symm
      simp [h, this]

/-- C175 a tree map over any number of them with the same keys: flattening gives one leaf for each key, in the same order, and unflattening the results gives each key the result of its leaves.  For one tree and the
identity this is the round trip. -/
theorem map_leaves (items : List (K × V)) (f : K → W) :
    (Frozen.new items).flatten.1.length = (Frozen.new items).len ∧ (∀ v ∈ (Frozen.new items).flatten.1, v.isSome) ∧
      ∀ k, (unflatten (Frozen.new items).flatten.2 ((Frozen.new items).flatten.2.map f)).getitem k = if (lookup items k).isSome then some (f k) else none := by
  obtain ⟨h1, h2, h3⟩ := iter_increasing items
  refine ⟨?_, fun v hv => ?_, fun k => ?_⟩
  · rw [← h3]
    exact List.length_map _
  · obtain ⟨k, hk, rfl⟩ := List.mem_map.1 hv
    rw [getitem_new]
    exact (h2 k).1 hk
  · have hn : (((Frozen.new items).iter.zip ((Frozen.new items).iter.map f)).map Prod.fst).Nodup := by
      rw [List.map_fst_zip (by rw [List.length_map])]
      exact h1.imp fun h => ne_of_lt h
    show Dict.get? (Dict.ofItems _) k = _
    rw [show (Frozen.new items).flatten.2 = (Frozen.new items).iter from rfl, Dict.ofItems_of_nodup hn, get?_zip_map]
    exact if_congr (h2 k) rfl rfl

/-- C175 flattening and unflattening gives an equal one. -/
theorem flatten_unflatten [DecidableEq V] (items : List (K × V)) {leaves : List V} (h : (Frozen.new items).flatten.1 = leaves.map some) :
    (Frozen.new items).eq (.frozen (unflatten (Frozen.new items).flatten.2 leaves)) = true := by
  refine (eq_iff _ _).2 fun k => ?_
  obtain ⟨h1, h2, h3⟩ := iter_increasing items
  rw [show (Frozen.new items).flatten.2 = (Frozen.new items).iter from rfl]
  have hlen : leaves.length = (Frozen.new items).iter.length := by
    have := congrArg List.length h
    rw [List.length_map] at this
    rw [← this]
    exact List.length_map _
  have hn : (((Frozen.new items).iter.zip leaves).map Prod.fst).Nodup := by
    rw [List.map_fst_zip (by omega)]
    exact h1.imp fun h => ne_of_lt h
  rw [← ofItems_lookup ((Frozen.new items).iter.zip leaves), Dict.ofItems_of_nodup hn]
  have key : ∀ (l : List K) (leaves : List V), l.map (lookup items) = leaves.map some → Dict.get? (l.zip leaves) k = if k ∈ l then lookup items k else none := by
    intro l
    induction l with
    | nil => intro _ _; rfl
    | cons x l ih =>
      intro leaves h
      cases leaves with
      | nil => cases h
      | cons v leaves =>
        rw [List.map_cons, List.map_cons, List.cons.injEq] at h
        rw [List.zip_cons_cons, Dict.get?_cons, ih leaves h.2]
        by_cases hx : x = k
        · subst hx; simp [h.1]
        · have : ¬ k = x := fun e => hx e.symm
          simp [hx, this]
  rw [key _ _ ((List.map_congr_left fun k _ => (getitem_new items k).symm).trans h)]
  by_cases hk : k ∈ (Frozen.new items).iter
  · rw [if_pos hk]
  · rw [if_neg hk]
    rw [h2] at hk
    simpa using hk

/-! ### Examples -/

/-- `frozendict(w=1, b=2)`, with a value given twice. -/
def demo : List (String × Nat) := [("w", 5), ("b", 2), ("w", 1)]

example : lookup demo "w" = some 1 ∧ (Frozen.new demo).getattr "w" = .ok 1 := ⟨by decide, (getattr_eq demo "w").trans rfl⟩

example : (Frozen.new demo).iter.Pairwise (· < ·) := (iter_increasing demo).1

example : (Frozen.new demo).eq (.frozen (Frozen.new [("b", 2), ("w", 1)])) = true := (eq_iff _ _).2 fun k => by
  unfold lookup demo
  by_cases h1 : "w" = k <;> by_cases h2 : "b" = k <;> simp [h1, h2]

example : (Frozen.new [("w", 1), ("b", 2)]).eq (.frozen (Frozen.new [("b", 2), ("w", 1)])) = true := perm_eq (by decide) (List.Perm.swap _ _ _)

example (hash : List String → Nat) : (Frozen.new [("w", 1), ("b", 2)]).hash hash = (Frozen.new [("b", 2), ("w", 1)]).hash hash := (eq_hash hash (perm_eq (by decide) (List.Perm.swap _ _ _))).1

example : (Frozen.new demo).reduced = Frozen.new demo := reduced_eq demo

example : (unflatten (Frozen.new demo).flatten.2 ((Frozen.new demo).flatten.2.map fun k => k.length)).getitem "w" = some 1 := ((map_leaves demo fun k => k.length).2.2 "w").trans (by decide)

example : (Frozen.new demo).eq (.frozen (unflatten (Frozen.new demo).flatten.2 [2, 1])) = true := by
  refine flatten_unflatten demo ?_
  have : (Frozen.new demo).keys = ["b", "w"] := by
    unfold Frozen.new demo
    simp [Dict.ofItems, Dict.set, Dict.keys, List.mergeSort]
  unfold Frozen.flatten Frozen.iter
  rw [this]
  rfl

example : (Frozen.new demo).eq (.dict [("b", 2), ("w", 1)]) = true := (eq_dict_iff demo (by decide)).2 fun k => by
  unfold lookup demo
  by_cases h1 : "w" = k <;> by_cases h2 : "b" = k <;> simp [Dict.get?, h1, h2]
  subst h1
  simp at h2

end Verif.Props.FrozenDict
