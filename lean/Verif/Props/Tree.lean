import Verif.Model.Tree
import Mathlib.Data.List.Nodup
import Mathlib.Data.List.Perm.Basic

/-!
# Immutable dictionaries and `FlatMapping` (C34, C35, C36)
-/

namespace Verif.Props.Tree
open Verif Verif.Tree Names

variable {α β : Type}

/-! ## Specification -/

mutual
/-- Python dictionaries: no key occurs twice in a mapping, at any depth. -/
def Proper : Obj α → Prop
  | .dict items => (items.map Prod.fst).Nodup ∧ ProperItems items
  | .flat items => (items.map Prod.fst).Nodup ∧ ProperItems items
  | .seq items => ProperList items
  | _ => True
def ProperItems : List (Str × Obj α) → Prop
  | [] => True
  | (_, o) :: items => Proper o ∧ ProperItems items
def ProperList : List (Obj α) → Prop
  | [] => True
  | o :: items => Proper o ∧ ProperList items
end

mutual
/-- No `FlatMapping` reachable through dicts. -/
def OnlyDicts : Obj α → Prop
  | .dict items => OnlyDictsItems items
  | .flat _ => False
  | _ => True
def OnlyDictsItems : List (Str × Obj α) → Prop
  | [] => True
  | (_, o) :: items => OnlyDicts o ∧ OnlyDictsItems items
end

mutual
/-- No dict reachable through mappings. -/
def OnlyFlat : Obj α → Prop
  | .flat items => OnlyFlatItems items
  | .dict _ => False
  | _ => True
def OnlyFlatItems : List (Str × Obj α) → Prop
  | [] => True
  | (_, o) :: items => OnlyFlat o ∧ OnlyFlatItems items
end

mutual
/-- No dict inside a `FlatMapping` (the way Haiku builds them). -/
def Clean : Obj α → Prop
  | .dict items => CleanItems items
  | .flat items => OnlyFlatItems items
  | _ => True
def CleanItems : List (Str × Obj α) → Prop
  | [] => True
  | (_, o) :: items => Clean o ∧ CleanItems items
end

/-! ## `to_immutable_dict` and `to_mutable_dict` -/

mutual
theorem thaw_freeze : ∀ o : Obj α, OnlyDicts o → thawValue (freezeValue o) = o
  | .leaf _, _ => rfl
  | .none, _ => rfl
  | .seq _, _ => rfl
  | .flat _, h => h.elim
  | .dict items, h => by
    show Obj.dict (thawItems (freezeItems items)) = _
    rw [thaw_freezeItems items h]
theorem thaw_freezeItems : ∀ items : List (Str × Obj α), OnlyDictsItems items → thawItems (freezeItems items) = items
  | [], _ => rfl
  | (k, o) :: items, h => by
    simp only [freezeItems, thawItems]
    rw [thaw_freeze o h.1, thaw_freezeItems items h.2]
end

/-- C34 converting a nested dict to the immutable form and back gives the same nested dict. -/
theorem mutable_immutable (items : List (Str × Obj α)) (h : OnlyDicts (.dict items)) : toMutable (toImmutable (.dict items)) = .dict items := by
  show Obj.dict (thawItems (freezeItems items)) = _
  rw [thaw_freezeItems items h]

theorem get?_self {γ : Type} {items : List (Str × γ)} (h : (items.map Prod.fst).Nodup) {k : Str} {o : γ} (hm : (k, o) ∈ items) :
    Dict.get? items k = some o := Dict.get?_of_mem h hm

mutual
theorem eq_thaw [DecidableEq α] : ∀ o : Obj α, Proper o → eq (thawValue o) o = true
  | .leaf _, _ => by simp [thawValue, eq]
  | .none, _ => by simp [thawValue, eq]
  | .seq items, h => by
    show eq (.seq items) (.seq items) = true
    simp only [eq]
    exact eqList_refl items h
  | .flat items, h => by
    show eq (.dict (thawItems items)) (.flat items) = true
    simp only [eq, items?, Bool.and_eq_true, decide_eq_true_eq]
    exact ⟨length_thaw items, eqItems_thaw items items h.2 fun k o hm => get?_self h.1 hm⟩
  | .dict items, h => by
    show eq (.dict items) (.dict items) = true
    simp only [eq, items?, Bool.and_eq_true, decide_eq_true_eq, true_and]
    exact eqItems_refl items items h.2 fun k o hm => get?_self h.1 hm
theorem length_thaw : ∀ items : List (Str × Obj α), (thawItems items).length = items.length
  | [] => rfl
  | (k, o) :: items => by simp [thawItems, length_thaw items]
theorem eqItems_thaw [DecidableEq α] : ∀ items items' : List (Str × Obj α), ProperItems items → (∀ k o, (k, o) ∈ items → Dict.get? items' k = some o) →
    eqItems (thawItems items) items' = true
  | [], _, _, _ => rfl
  | (k, o) :: items, items', h, hg => by
    simp only [thawItems, eqItems, hg k o (by simp), Bool.and_eq_true]
    exact ⟨eq_thaw o h.1, eqItems_thaw items items' h.2 fun k o hm => hg k o (by simp [hm])⟩
theorem eqItems_refl [DecidableEq α] : ∀ items items' : List (Str × Obj α), ProperItems items → (∀ k o, (k, o) ∈ items → Dict.get? items' k = some o) →
    eqItems items items' = true
  | [], _, _, _ => rfl
  | (k, o) :: items, items', h, hg => by
    simp only [eqItems, hg k o (by simp), Bool.and_eq_true]
    exact ⟨eq_refl o h.1, eqItems_refl items items' h.2 fun k o hm => hg k o (by simp [hm])⟩
theorem eqList_refl [DecidableEq α] : ∀ items : List (Obj α), ProperList items → eqList items items = true
  | [], _ => rfl
  | o :: items, h => by
    simp only [eqList, Bool.and_eq_true]
    exact ⟨eq_refl o h.1, eqList_refl items h.2⟩
theorem eq_refl [DecidableEq α] : ∀ o : Obj α, Proper o → eq o o = true
  | .leaf _, _ => by simp [eq]
  | .none, _ => by simp [eq]
  | .seq items, h => by simp only [eq]; exact eqList_refl items h
  | .flat items, h => by
    simp only [eq, items?, Bool.and_eq_true, decide_eq_true_eq, true_and]
    exact eqItems_refl items items h.2 fun k o hm => get?_self h.1 hm
  | .dict items, h => by
    simp only [eq, items?, Bool.and_eq_true, decide_eq_true_eq, true_and]
    exact eqItems_refl items items h.2 fun k o hm => get?_self h.1 hm
end

mutual
theorem eq_thaw_freeze [DecidableEq α] : ∀ o : Obj α, Proper o → eq (thawValue (freezeValue o)) o = true
  | .leaf _, _ => by simp [freezeValue, thawValue, eq]
  | .none, _ => by simp [freezeValue, thawValue, eq]
  | .seq items, h => by
    show eq (.seq items) (.seq items) = true
    simp only [eq]
    exact eqList_refl items h
  | .flat items, h => eq_thaw (.flat items) h
  | .dict items, h => by
    show eq (.dict (thawItems (freezeItems items))) (.dict items) = true
    simp only [eq, items?, Bool.and_eq_true, decide_eq_true_eq]
    refine ⟨by rw [length_thaw, length_freeze], eqItems_thaw_freeze items items h.2 fun k o hm => get?_self h.1 hm⟩
theorem length_freeze : ∀ items : List (Str × Obj α), (freezeItems items).length = items.length
  | [] => rfl
  | (k, o) :: items => by simp [freezeItems, length_freeze items]
theorem eqItems_thaw_freeze [DecidableEq α] : ∀ items items' : List (Str × Obj α), ProperItems items →
    (∀ k o, (k, o) ∈ items → Dict.get? items' k = some o) → eqItems (thawItems (freezeItems items)) items' = true
  | [], _, _, _ => rfl
  | (k, o) :: items, items', h, hg => by
    simp only [freezeItems, thawItems, eqItems, hg k o (by simp), Bool.and_eq_true]
    exact ⟨eq_thaw_freeze o h.1, eqItems_thaw_freeze items items' h.2 fun k o hm => hg k o (by simp [hm])⟩
end

/-- C34 for every mapping, also with `FlatMapping`s inside, there and back gives an equal mapping. -/
theorem mutable_immutable_eq [DecidableEq α] (o : Obj α) (h : Proper o) (hm : ∃ items, items? o = some items) :
    eq (toMutable (toImmutable o)) o = true := by
  obtain ⟨items, hi⟩ := hm
  cases o with
  | dict items => exact eq_thaw_freeze (.dict items) h
  | flat items => exact eq_thaw (.flat items) h
  | leaf a => cases hi
  | none => cases hi
  | seq s => cases hi

mutual
theorem eq_freeze [DecidableEq α] : ∀ o : Obj α, Proper o → eq (freezeValue o) o = true
  | .leaf _, _ => by simp [freezeValue, eq]
  | .none, _ => by simp [freezeValue, eq]
  | .seq items, h => eq_refl (.seq items) h
  | .flat items, h => eq_refl (.flat items) h
  | .dict items, h => by
    show eq (.flat (freezeItems items)) (.dict items) = true
    simp only [eq, items?, Bool.and_eq_true, decide_eq_true_eq]
    exact ⟨length_freeze items, eqItems_freeze items items h.2 fun k o hm => get?_self h.1 hm⟩
theorem eqItems_freeze [DecidableEq α] : ∀ items items' : List (Str × Obj α), ProperItems items →
    (∀ k o, (k, o) ∈ items → Dict.get? items' k = some o) → eqItems (freezeItems items) items' = true
  | [], _, _, _ => rfl
  | (k, o) :: items, items', h, hg => by
    simp only [freezeItems, eqItems, hg k o (by simp), Bool.and_eq_true]
    exact ⟨eq_freeze o h.1, eqItems_freeze items items' h.2 fun k o hm => hg k o (by simp [hm])⟩
end

/-- C34 the immutable form equals the original. -/
theorem immutable_eq [DecidableEq α] (o : Obj α) (h : Proper o) : eq (toImmutable o) o = true := eq_freeze o h

mutual
theorem onlyFlat_freeze : ∀ o : Obj α, Clean o → OnlyFlat (freezeValue o)
  | .leaf _, _ => trivial
  | .none, _ => trivial
  | .seq _, _ => trivial
  | .flat _, h => h
  | .dict items, h => onlyFlatItems_freeze items h
theorem onlyFlatItems_freeze : ∀ items : List (Str × Obj α), CleanItems items → OnlyFlatItems (freezeItems items)
  | [], _ => trivial
  | (_, o) :: items, h => ⟨onlyFlat_freeze o h.1, onlyFlatItems_freeze items h.2⟩
end

/-- C34 no dict is reachable through mappings in the immutable form, provided `FlatMapping`s in the input were built that way too. -/
theorem immutable_no_dict (o : Obj α) (h : Clean o) : OnlyFlat (toImmutable o) := onlyFlat_freeze o h

/-- A nested dict of depth three. -/
def nested : Obj Nat := .dict [(['b'], .dict [(['w'], .dict [(['x'], .leaf 1)]), (['a'], .none)]), (['a'], .leaf 2)]

example : OnlyDicts nested ∧ Proper nested ∧ Clean nested := by
  simp [nested, OnlyDicts, OnlyDictsItems, Proper, ProperItems, Clean, CleanItems]

/-! ### Sharing -/

mutual
/-- No mutable object reachable. -/
def Shared0 : Ref α → Prop
  | .leaf _ => True
  | .addr _ => False
  | .flat items => Shared0Items items
def Shared0Items : List (Str × Ref α) → Prop
  | [] => True
  | (_, r) :: items => Shared0 r ∧ Shared0Items items
end

/-- Reading a reference in a memory, to a given depth. -/
def read (h : Heap α) : Nat → Ref α → Option (Obj α)
  | 0, _ => none
  | _ + 1, .leaf a => some (.leaf a)
  | n + 1, .addr b => ((h b).items.mapM fun (p : Str × Ref α) => (read h n p.2).map fun o => (p.1, o)).map .dict
  | n + 1, .flat items => (items.mapM fun (p : Str × Ref α) => (read h n p.2).map fun o => (p.1, o)).map .flat

/-- Only dicts (no other mutable mappings) are in memory, and the `FlatMapping`s stored in them hold nothing mutable. -/
def PlainHeap (h : Heap α) : Prop := ∀ a, (h a).exact = true ∧ ∀ p ∈ (h a).items, ∀ items, p.2 = .flat items → Shared0 p.2

theorem shared0_of_mem : ∀ {items : List (Str × Ref α)}, (∀ p ∈ items, Shared0 p.2) → Shared0Items items
  | [], _ => trivial
  | (k, r) :: _, h => ⟨h (k, r) (by simp), shared0_of_mem fun p hp => h p (by simp [hp])⟩

theorem mem_of_shared0 : ∀ {items : List (Str × Ref α)}, Shared0Items items → ∀ p ∈ items, Shared0 p.2
  | [], _, _, h => by simp at h
  | (_, _) :: _, hs, p, hp => by
    rcases List.mem_cons.1 hp with rfl | hp
    · exact hs.1
    · exact mem_of_shared0 hs.2 p hp

theorem mem_of_mapM {γ δ : Type} {f : γ → Option δ} : ∀ {l : List γ} {r : List δ}, l.mapM f = some r → ∀ y ∈ r, ∃ x ∈ l, f x = some y
  | [], r, h, y, hy => by simp at h; subst h; simp at hy
  | x :: l, r, h, y, hy => by
    rw [List.mapM_cons] at h
    cases hx : f x with
    | none => simp [hx] at h
    | some z =>
      cases hl : l.mapM f with
      | none => simp [hx, hl] at h
      | some zs =>
        simp [hx, hl] at h
        subst h
        rcases List.mem_cons.1 hy with rfl | hy
        · exact ⟨x, by simp, hx⟩
        · obtain ⟨x', hm, hf⟩ := mem_of_mapM hl y hy
          exact ⟨x', by simp [hm], hf⟩

theorem freezeAt_shared0 {h : Heap α} (hp : PlainHeap h) : ∀ (n a : Nat) (r : Ref α), freezeAt h n a = some r → Shared0 r := by
  intro n
  induction n with
  | zero => intro a r hr; cases hr
  | succ n ih =>
    intro a r hr
    simp only [freezeAt, Option.map_eq_some_iff] at hr
    obtain ⟨items, hi, rfl⟩ := hr
    refine shared0_of_mem fun p hpm => ?_
    obtain ⟨q, hq, hf⟩ := mem_of_mapM hi p hpm
    cases hq2 : q.2 with
    | leaf x => rw [hq2] at hf; cases hf; trivial
    | addr b =>
      rw [hq2] at hf
      simp only [(hp b).1, if_true, Option.map_eq_some_iff] at hf
      obtain ⟨r', hr', rfl⟩ := hf
      exact ih b r' hr'
    | flat its =>
      rw [hq2] at hf; cases hf
      have := (hp a).2 q hq its hq2
      rw [hq2] at this
      exact this

theorem read_shared0 (h h' : Heap α) : ∀ (n : Nat) (r : Ref α), Shared0 r → read h n r = read h' n r := by
  intro n
  induction n with
  | zero => intro r _; rfl
  | succ n ih =>
    intro r hr
    cases r with
    | leaf a => rfl
    | addr b => exact hr.elim
    | flat items =>
      simp only [read]
      congr 1
      have : ∀ (l : List (Str × Ref α)), (∀ p ∈ l, Shared0 p.2) →
          l.mapM (fun (p : Str × Ref α) => (read h n p.2).map fun o => (p.1, o)) = l.mapM (fun (p : Str × Ref α) => (read h' n p.2).map fun o => (p.1, o)) := by
        intro l
        induction l with
        | nil => intro _; rfl
        | cons p l ihl =>
          intro hs
          rw [List.mapM_cons, List.mapM_cons, ihl fun q hq => hs q (by simp [hq]), ih p.2 (hs p (by simp))]
      exact this items (mem_of_shared0 hr)

/-- C34 later changes to any dict in memory, the original and its parts included, do not change what the immutable form holds. -/
theorem immutable_unaffected {h : Heap α} (hp : PlainHeap h) (n a : Nat) (r : Ref α) (hr : freezeAt h n a = some r) (h' : Heap α) (m : Nat) :
    read h' m r = read h m r := read_shared0 h' h m r (freezeAt_shared0 hp n a r hr)

theorem mapM_map_eq {γ δ ε : Type} {f : γ → Option δ} {g : δ → Option ε} {k : γ → Option ε} : ∀ {l : List γ} {r : List δ}, l.mapM f = some r →
    (∀ x ∈ l, ∀ y, f x = some y → g y = k x) → r.mapM g = l.mapM k
  | [], r, h, _ => by simp at h; subst h; rfl
  | x :: l, r, h, hg => by
    rw [List.mapM_cons] at h
    cases hx : f x with
    | none => simp [hx] at h
    | some z =>
      cases hl : l.mapM f with
      | none => simp [hx, hl] at h
      | some zs =>
        simp [hx, hl] at h
        subst h
        rw [List.mapM_cons, List.mapM_cons, mapM_map_eq hl fun x hx => hg x (by simp [hx]), hg x (by simp) z hx]

/-- C34 the immutable form made in memory holds what `to_immutable_dict` gives on the value of the dict. -/
theorem freezeAt_reads {h : Heap α} (hp : PlainHeap h) : ∀ (n a : Nat) (r : Ref α), freezeAt h n a = some r → ∀ m,
    read h m r = (read h m (.addr a)).map toImmutable := by
  intro n
  induction n with
  | zero => intro a r hr; cases hr
  | succ n ih =>
    intro a r hr m
    simp only [freezeAt, Option.map_eq_some_iff] at hr
    obtain ⟨items, hi, rfl⟩ := hr
    cases m with
    | zero => rfl
    | succ m =>
      simp only [read]
      have e : items.mapM (fun (p : Str × Ref α) => (read h m p.2).map fun o => (p.1, o)) =
          (h a).items.mapM (fun (p : Str × Ref α) => (read h m p.2).map fun o => (p.1, freezeValue o)) := by
        refine mapM_map_eq hi ?_
        intro q hq y hf
        cases hq2 : q.2 with
        | leaf x =>
          rw [hq2] at hf; cases hf
          cases m <;> rfl
        | addr b =>
          rw [hq2] at hf
          simp only [(hp b).1, if_true, Option.map_eq_some_iff] at hf
          obtain ⟨r', hr', rfl⟩ := hf
          simp only
          rw [ih b r' hr' m]
          cases read h m (.addr b) <;> rfl
        | flat its =>
          rw [hq2] at hf; cases hf
          cases m with
          | zero => rfl
          | succ m =>
            simp only [read]
            cases its.mapM (fun (p : Str × Ref α) => (read h m p.2).map fun o => (p.1, o)) <;> rfl
      rw [e]
      have e2 : ∀ (l : List (Str × Ref α)), l.mapM (fun (p : Str × Ref α) => (read h m p.2).map fun o => (p.1, freezeValue o)) =
          (l.mapM (fun (p : Str × Ref α) => (read h m p.2).map fun o => (p.1, o))).map freezeItems := by
        intro l
        induction l with
        | nil => rfl
        | cons p l ihl =>
          rw [List.mapM_cons, List.mapM_cons, ihl]
          cases read h m p.2 with
          | none => rfl
          | some o => cases l.mapM (fun (p : Str × Ref α) => (read h m p.2).map fun o => (p.1, o)) <;> rfl
      rw [e2]
      cases (h a).items.mapM (fun (p : Str × Ref α) => (read h m p.2).map fun o => (p.1, o)) <;> rfl

/-- A memory with a dict at 0 holding a leaf, the dict at 1 and a `FlatMapping`. -/
def memory : Heap Nat := fun a =>
  if a = 0 then ⟨true, [(['a'], .leaf 1), (['b'], .addr 1), (['c'], .flat [(['d'], .leaf 2)])]⟩ else ⟨true, [(['w'], .leaf 3)]⟩

example : PlainHeap memory ∧ freezeAt memory 2 0 = some (.flat [(['a'], .leaf 1), (['b'], .flat [(['w'], .leaf 3)]), (['c'], .flat [(['d'], .leaf 2)])]) := by
  refine ⟨fun a => ?_, rfl⟩
  unfold memory
  split
  · refine ⟨rfl, fun p hp items hi => ?_⟩
    simp only [List.mem_cons, List.not_mem_nil, or_false] at hp
    rcases hp with rfl | rfl | rfl
    · cases hi
    · cases hi
    · exact ⟨trivial, trivial⟩
  · refine ⟨rfl, fun p hp items hi => ?_⟩
    simp only [List.mem_singleton] at hp
    subst hp
    cases hi

/-- C34 the guard on memory is needed: a mapping of another mutable type inside is kept as it is, and changing it shows. -/
theorem other_mapping_shared : ∃ (h h' : Heap Nat) (r : Ref Nat), freezeAt h 1 0 = some r ∧ (∀ a, a ≠ 1 → h' a = h a) ∧ read h' 3 r ≠ read h 3 r := by
  refine ⟨fun a => if a = 0 then ⟨true, [(['b'], .addr 1)]⟩ else ⟨false, []⟩, fun a => if a = 0 then ⟨true, [(['b'], .addr 1)]⟩ else if a = 1 then ⟨false, [(['x'], .leaf 5)]⟩ else ⟨false, []⟩,
    .flat [(['b'], .addr 1)], rfl, ?_, ?_⟩
  · intro a ha
    by_cases h0 : a = 0 <;> simp [h0, ha]
  · intro h
    have h1 : (some (.flat [(['b'], .dict [(['x'], .leaf 5)])]) : Option (Obj Nat)) = some (.flat [(['b'], .dict [])]) := h
    simp at h1

/-! ## Flattening -/

mutual
theorem ind_aux {P : Obj α → Prop} (leaf : ∀ a, P (.leaf a)) (none : P .none) (dict : ∀ items, (∀ p ∈ items, P p.2) → P (.dict items))
    (seq : ∀ items, (∀ o ∈ items, P o) → P (.seq items)) (flat : ∀ items, (∀ p ∈ items, P p.2) → P (.flat items)) : ∀ o, P o
  | .leaf a => leaf a
  | .none => none
  | .dict items => dict items (ind_items leaf none dict seq flat items)
  | .seq items => seq items (ind_list leaf none dict seq flat items)
  | .flat items => flat items (ind_items leaf none dict seq flat items)
theorem ind_items {P : Obj α → Prop} (leaf : ∀ a, P (.leaf a)) (none : P .none) (dict : ∀ items, (∀ p ∈ items, P p.2) → P (.dict items))
    (seq : ∀ items, (∀ o ∈ items, P o) → P (.seq items)) (flat : ∀ items, (∀ p ∈ items, P p.2) → P (.flat items)) :
    ∀ items : List (Str × Obj α), ∀ p ∈ items, P p.2
  | [], _, h => by simp at h
  | (k, o) :: items, p, h => by
    rcases List.mem_cons.1 h with e | h
    · rw [e]; exact ind_aux leaf none dict seq flat o
    · exact ind_items leaf none dict seq flat items p h
theorem ind_list {P : Obj α → Prop} (leaf : ∀ a, P (.leaf a)) (none : P .none) (dict : ∀ items, (∀ p ∈ items, P p.2) → P (.dict items))
    (seq : ∀ items, (∀ o ∈ items, P o) → P (.seq items)) (flat : ∀ items, (∀ p ∈ items, P p.2) → P (.flat items)) :
    ∀ items : List (Obj α), ∀ o ∈ items, P o
  | [], _, h => by simp at h
  | o :: items, p, h => by
    rcases List.mem_cons.1 h with e | h
    · rw [e]; exact ind_aux leaf none dict seq flat o
    · exact ind_list leaf none dict seq flat items p h
end

/-! ### Sorting keys -/

theorem le_trans' (a b c : Str) : decide (a ≤ b) = true → decide (b ≤ c) = true → decide (a ≤ c) = true := by
  simp only [decide_eq_true_eq]; exact Std.le_trans

theorem le_total' (a b : Str) : (decide (a ≤ b) || decide (b ≤ a)) = true := by
  simp only [Bool.or_eq_true, decide_eq_true_eq]; exact Std.le_total

theorem sorted_sortKeys {γ : Type} (l : List (Str × γ)) : (sortKeys l).Pairwise fun p q => p.1 ≤ q.1 := by
  have := List.pairwise_mergeSort (le := fun p q : Str × γ => decide (p.1 ≤ q.1)) (fun a b c => le_trans' _ _ _) (fun a b => le_total' _ _) l
  exact this.imp fun h => of_decide_eq_true h

theorem perm_sortKeys {γ : Type} (l : List (Str × γ)) : (sortKeys l).Perm l := List.mergeSort_perm _ _

theorem mem_sortKeys {γ : Type} {l : List (Str × γ)} {p : Str × γ} : p ∈ sortKeys l ↔ p ∈ l := (perm_sortKeys l).mem_iff

theorem sortKeys_map {γ δ : Type} (f : γ → δ) (l : List (Str × γ)) :
    sortKeys (l.map fun p => (p.1, f p.2)) = (sortKeys l).map fun p => (p.1, f p.2) := by
  unfold sortKeys
  exact (List.map_mergeSort (f := fun p : Str × γ => (p.1, f p.2)) (r := fun p q => decide (p.1 ≤ q.1)) (s := fun p q => decide (p.1 ≤ q.1)) (fun a _ b _ => rfl)).symm

theorem nodup_sortKeys {γ : Type} {l : List (Str × γ)} (h : (l.map Prod.fst).Nodup) : ((sortKeys l).map Prod.fst).Nodup :=
  ((perm_sortKeys l).map Prod.fst).nodup_iff.2 h

theorem get?_sortKeys {γ : Type} {l : List (Str × γ)} (h : (l.map Prod.fst).Nodup) (k : Str) : Dict.get? (sortKeys l) k = Dict.get? l k := by
  cases hl : Dict.get? l k with
  | some v => exact Dict.get?_of_mem (nodup_sortKeys h) (mem_sortKeys.2 (Dict.mem_of_get? hl))
  | none =>
    rw [Dict.get?_eq_none_iff] at hl ⊢
    intro hm
    exact hl (((perm_sortKeys l).map Prod.fst).mem_iff.1 hm)

/-- Two sorted lists with the same entries and no repeated key are the same. -/
theorem sorted_unique {γ : Type} {l l' : List (Str × γ)} (h : l.Pairwise fun p q => p.1 ≤ q.1) (h' : l'.Pairwise fun p q => p.1 ≤ q.1) (hn : (l.map Prod.fst).Nodup)
    (hp : l.Perm l') : l = l' := by
  refine List.Perm.eq_of_pairwise (le := fun p q => p.1 ≤ q.1) ?_ h h' hp
  intro a b ha hb h1 h2
  have hk : a.1 = b.1 := Std.le_antisymm h1 h2
  have e1 := Dict.get?_of_mem (d := l) hn (k := a.1) (v := a.2) ha
  have e2 := Dict.get?_of_mem (d := l) hn (k := b.1) (v := b.2) (hp.mem_iff.2 hb)
  rw [hk, e2] at e1
  exact Prod.ext hk (Option.some.inj e1).symm

theorem sortKeys_perm {γ : Type} {l l' : List (Str × γ)} (hn : (l.map Prod.fst).Nodup) (hp : l.Perm l') : sortKeys l = sortKeys l' :=
  sorted_unique (sorted_sortKeys l) (sorted_sortKeys l') (nodup_sortKeys hn) ((perm_sortKeys l).trans (hp.trans (perm_sortKeys l').symm))

theorem sortKeys_sorted {γ : Type} {l : List (Str × γ)} (hn : (l.map Prod.fst).Nodup) (h : l.Pairwise fun p q => p.1 ≤ q.1) : sortKeys l = l :=
  sorted_unique (sorted_sortKeys l) h (nodup_sortKeys hn) (perm_sortKeys l)

/-! ### `tree_map` -/

mutual
/-- What `tree_map` should give: the same tree with every leaf replaced (dicts get their keys sorted). -/
def mapTree (f : α → Obj β) : Obj α → Obj β
  | .leaf a => f a
  | .none => .none
  | .dict items => .dict (sortKeys (mapItems f items))
  | .seq items => .seq (mapList f items)
  | .flat items => .flat (sortKeys (mapItems f items))
def mapItems (f : α → Obj β) : List (Str × Obj α) → List (Str × Obj β)
  | [] => []
  | (k, o) :: items => (k, mapTree f o) :: mapItems f items
def mapList (f : α → Obj β) : List (Obj α) → List (Obj β)
  | [] => []
  | o :: items => mapTree f o :: mapList f items
end

theorem mapItems_eq (f : α → Obj β) : ∀ items, mapItems f items = items.map fun p => (p.1, mapTree f p.2)
  | [] => rfl
  | (k, o) :: items => by simp [mapItems, mapItems_eq f items]

theorem mapList_eq (f : α → Obj β) : ∀ items, mapList f items = items.map (mapTree f)
  | [] => rfl
  | o :: items => by simp [mapList, mapList_eq f items]

theorem flattenItems_eq : ∀ items : List (Str × Obj α), flattenItems items = items.map fun p => (p.1, flatten p.2)
  | [] => rfl
  | (k, o) :: items => by simp [flattenItems, flattenItems_eq items]

theorem flattenList_eq : ∀ items : List (Obj α), flattenList items = items.map flatten
  | [] => rfl
  | o :: items => by simp [flattenList, flattenList_eq items]

theorem sort_flattenItems (items : List (Str × Obj α)) : sortKeys (flattenItems items) = (sortKeys items).map fun p => (p.1, flatten p.2) := by
  rw [flattenItems_eq, sortKeys_map]

theorem flattenDict_eq (items : List (Str × Obj α)) : flattenDict (flattenItems items) =
    ((sortKeys items).flatMap (fun p => (flatten p.2).1), .dict ((sortKeys items).map fun p => (p.1, (flatten p.2).2))) := by
  rw [flattenDict, sort_flattenItems, List.flatMap_map, List.map_map]
  rfl

theorem unflattenItems_map (f : α → Obj β) : ∀ (l : List (Str × Obj α)), (∀ p ∈ l, ∀ rest, unflatten (flatten p.2).2 ((flatten p.2).1.map f ++ rest) = (mapTree f p.2, rest)) →
    ∀ rest, unflattenItems (l.map fun p => (p.1, (flatten p.2).2)) ((l.flatMap fun p => (flatten p.2).1).map f ++ rest) = (l.map (fun p => (p.1, mapTree f p.2)), rest)
  | [], _, rest => rfl
  | p :: l, h, rest => by
    rw [List.map_cons, List.flatMap_cons, List.map_append, List.append_assoc]
    simp only [unflattenItems]
    rw [h p (by simp), unflattenItems_map f l (fun q hq => h q (by simp [hq]))]
    rfl

theorem unflattenList_map (f : α → Obj β) : ∀ (l : List (Obj α)), (∀ o ∈ l, ∀ rest, unflatten (flatten o).2 ((flatten o).1.map f ++ rest) = (mapTree f o, rest)) →
    ∀ rest, unflattenList ((l.map flatten).map Prod.snd) (((l.map flatten).flatMap Prod.fst).map f ++ rest) = (l.map (mapTree f), rest)
  | [], _, rest => rfl
  | p :: l, h, rest => by
    rw [List.map_cons, List.map_cons, List.flatMap_cons, List.map_append, List.append_assoc]
    simp only [unflattenList]
    rw [h p (by simp), unflattenList_map f l (fun q hq => h q (by simp [hq]))]
    rfl

theorem unflatten_map (f : α → Obj β) : ∀ (o : Obj α) (rest : List (Obj β)), unflatten (flatten o).2 ((flatten o).1.map f ++ rest) = (mapTree f o, rest) := by
  intro o
  induction o using ind_aux with
  | leaf a => intro rest; rfl
  | none => intro rest; rfl
  | dict items ih =>
    intro rest
    simp only [flatten, flattenDict_eq, unflatten, mapTree]
    rw [unflattenItems_map f (sortKeys items) (fun p hp => ih p (mem_sortKeys.1 hp)), mapItems_eq, sortKeys_map]
  | seq items ih =>
    intro rest
    simp only [flatten, flattenList_eq, unflatten, mapTree]
    rw [unflattenList_map f items ih, mapList_eq]
  | flat items ih =>
    intro rest
    simp only [flatten, flattenDict_eq, unflatten, mapTree]
    rw [unflattenItems_map f (sortKeys items) (fun p hp => ih p (mem_sortKeys.1 hp)), mapItems_eq, sortKeys_map]
    rfl

theorem treeMap_eq (f : α → Obj β) (o : Obj α) : treeMap f o = mapTree f o := by
  have := unflatten_map f o []
  rw [List.append_nil] at this
  rw [treeMap, this]

theorem eqItems_of_mem [DecidableEq α] : ∀ {items items' : List (Str × Obj α)}, (∀ p ∈ items, ∃ o', Dict.get? items' p.1 = some o' ∧ eq p.2 o' = true) →
    eqItems items items' = true
  | [], _, _ => rfl
  | (k, o) :: items, items', h => by
    obtain ⟨o', h1, h2⟩ := h (k, o) (by simp)
    simp only at h1 h2
    simp only [eqItems, h1, h2, Bool.true_and]
    exact eqItems_of_mem fun p hp => h p (by simp [hp])

theorem properItems_iff : ∀ {items : List (Str × Obj α)}, ProperItems items ↔ ∀ p ∈ items, Proper p.2
  | [] => by simp [ProperItems]
  | (k, o) :: items => by simp [ProperItems, properItems_iff (items := items)]

theorem properList_iff : ∀ {items : List (Obj α)}, ProperList items ↔ ∀ o ∈ items, Proper o
  | [] => by simp [ProperList]
  | o :: items => by simp [ProperList, properList_iff (items := items)]

theorem eq_mapping [DecidableEq α] {items : List (Str × Obj α)} (hn : (items.map Prod.fst).Nodup) (h : ∀ p ∈ items, eq (mapTree Obj.leaf p.2) p.2 = true) :
    (sortKeys (mapItems Obj.leaf items)).length = items.length ∧ eqItems (sortKeys (mapItems Obj.leaf items)) items = true := by
  rw [mapItems_eq, sortKeys_map]
  refine ⟨by simp [(perm_sortKeys items).length_eq], eqItems_of_mem fun p hp => ?_⟩
  obtain ⟨q, hq, rfl⟩ := List.mem_map.1 hp
  have hq := mem_sortKeys.1 hq
  exact ⟨q.2, Dict.get?_of_mem hn hq, h q hq⟩

theorem eq_mapTree [DecidableEq α] : ∀ o : Obj α, Proper o → eq (mapTree Obj.leaf o) o = true := by
  intro o
  induction o using ind_aux with
  | leaf a => intro _; simp [mapTree, eq]
  | none => intro _; simp [mapTree, eq]
  | dict items ih =>
    intro h
    simp only [mapTree, eq, items?, Bool.and_eq_true, decide_eq_true_eq]
    exact eq_mapping h.1 fun p hp => ih p hp (properItems_iff.1 h.2 p hp)
  | flat items ih =>
    intro h
    simp only [mapTree, eq, items?, Bool.and_eq_true, decide_eq_true_eq]
    exact eq_mapping h.1 fun p hp => ih p hp (properItems_iff.1 h.2 p hp)
  | seq items ih =>
    intro h
    simp only [mapTree, eq]
    have key : ∀ l : List (Obj α), (∀ o ∈ l, eq (mapTree Obj.leaf o) o = true) → eqList (mapList Obj.leaf l) l = true := by
      intro l
      induction l with
      | nil => intro _; rfl
      | cons o l ihl =>
        intro hl
        simp only [mapList, eqList, Bool.and_eq_true]
        exact ⟨hl o (by simp), ihl fun o ho => hl o (by simp [ho])⟩
    exact key items fun o ho => ih o ho (properList_iff.1 h o ho)

/-- C35 flattening a `FlatMapping` and unflattening with the same leaves gives an equal `FlatMapping` (at any depth, whatever it contains). -/
theorem flatten_unflatten [DecidableEq α] (items : List (Str × Obj α)) (h : Proper (.flat items)) :
    ∃ items', (unflatten (flatten (.flat items)).2 ((flatten (.flat items)).1.map Obj.leaf)).1 = .flat items' ∧ eq (.flat items') (.flat items) = true := by
  have e := treeMap_eq Obj.leaf (.flat items)
  rw [treeMap] at e
  exact ⟨sortKeys (mapItems Obj.leaf items), e, eq_mapTree (.flat items) h⟩

/-- C35 mapping a function over the leaves of a `FlatMapping`, also one that returns containers, gives a `FlatMapping` with the same keys, and
looking up a key gives the mapped value. -/
theorem tree_map_lookup (f : α → Obj β) (items : List (Str × Obj α)) (h : Proper (.flat items)) :
    ∃ items', treeMap f (.flat items) = .flat items' ∧ (items'.map Prod.fst).Nodup ∧ ∀ k, Dict.get? items' k = (Dict.get? items k).map (treeMap f) := by
  refine ⟨sortKeys (mapItems f items), by rw [treeMap_eq, mapTree], ?_, fun k => ?_⟩
  · refine nodup_sortKeys ?_
    rw [mapItems_eq, List.map_map]
    exact h.1
  · have hn : ((mapItems f items).map Prod.fst).Nodup := by rw [mapItems_eq, List.map_map]; exact h.1
    rw [get?_sortKeys hn, mapItems_eq]
    have : treeMap f = mapTree f := funext (treeMap_eq f)
    rw [this]
    exact Dict.get?_mapVals (fun _ o => mapTree f o) items k

/-- C35 a leaf is replaced by what the function returns for it. -/
theorem tree_map_leaf (f : α → Obj β) (a : α) : treeMap f (.leaf a) = f a := rfl

theorem sortKeys_one {γ : Type} (p : Str × γ) : sortKeys [p] = [p] := List.mergeSort_singleton p

theorem sortKeys_two {γ : Type} (p q : Str × γ) (h : q.1 < p.1) : sortKeys [p, q] = [q, p] := by
  refine sorted_unique (sorted_sortKeys _) ?_ (nodup_sortKeys ?_) ((perm_sortKeys _).trans (List.Perm.swap q p []))
  · simpa using Std.le_of_lt h
  · simp only [List.map_cons, List.map_nil, List.nodup_cons, List.mem_singleton, List.not_mem_nil, not_false_eq_true, List.nodup_nil, and_true]
    intro e
    rw [e] at h
    exact absurd h (Std.lt_irrefl)

example : ∃ items : List (Str × Obj Nat), Proper (.flat items) ∧ items.length = 2 ∧
    treeMap (fun n => Obj.seq [Obj.leaf n, Obj.none]) (.flat items) =
      .flat [(['a'], .none), (['b'], .flat [(['x'], .seq [.leaf 7, .none])])] :=
  ⟨[(['b'], .flat [(['x'], .leaf 7)]), (['a'], .none)], by simp [Proper, ProperItems], rfl, by
    rw [treeMap_eq]
    simp only [mapTree, mapItems, sortKeys_one]
    rw [sortKeys_two _ _ (by decide)]⟩

/-! ### The components of a `FlatMapping` -/

mutual
theorem dind_aux {P : Def → Prop} (leaf : P .leaf) (none : P .none) (dict : ∀ items, (∀ p ∈ items, P p.2) → P (.dict items))
    (seq : ∀ items, (∀ o ∈ items, P o) → P (.seq items)) (flat : ∀ inner, P inner → P (.flat inner)) : ∀ o, P o
  | .leaf => leaf
  | .none => none
  | .dict items => dict items (dind_items leaf none dict seq flat items)
  | .seq items => seq items (dind_list leaf none dict seq flat items)
  | .flat inner => flat inner (dind_aux leaf none dict seq flat inner)
theorem dind_items {P : Def → Prop} (leaf : P .leaf) (none : P .none) (dict : ∀ items, (∀ p ∈ items, P p.2) → P (.dict items))
    (seq : ∀ items, (∀ o ∈ items, P o) → P (.seq items)) (flat : ∀ inner, P inner → P (.flat inner)) :
    ∀ items : List (Str × Def), ∀ p ∈ items, P p.2
  | [], _, h => by simp at h
  | (k, o) :: items, p, h => by
    rcases List.mem_cons.1 h with e | h
    · rw [e]; exact dind_aux leaf none dict seq flat o
    · exact dind_items leaf none dict seq flat items p h
theorem dind_list {P : Def → Prop} (leaf : P .leaf) (none : P .none) (dict : ∀ items, (∀ p ∈ items, P p.2) → P (.dict items))
    (seq : ∀ items, (∀ o ∈ items, P o) → P (.seq items)) (flat : ∀ inner, P inner → P (.flat inner)) :
    ∀ items : List Def, ∀ o ∈ items, P o
  | [], _, h => by simp at h
  | o :: items, p, h => by
    rcases List.mem_cons.1 h with e | h
    · rw [e]; exact dind_aux leaf none dict seq flat o
    · exact dind_list leaf none dict seq flat items p h
end

mutual
/-- The structures `tree_flatten` gives: sorted keys without repetition. -/
def Canonical : Def → Prop
  | .leaf => True
  | .none => True
  | .dict items => (items.map Prod.fst).Pairwise (· ≤ ·) ∧ (items.map Prod.fst).Nodup ∧ CanonicalItems items
  | .seq items => CanonicalList items
  | .flat inner => (∃ items, inner = .dict items) ∧ Canonical inner
def CanonicalItems : List (Str × Def) → Prop
  | [] => True
  | (_, d) :: items => Canonical d ∧ CanonicalItems items
def CanonicalList : List Def → Prop
  | [] => True
  | d :: items => Canonical d ∧ CanonicalList items
end

mutual
/-- Number of leaves of a structure. -/
def leafCount : Def → Nat
  | .leaf => 1
  | .none => 0
  | .dict items => leafCountItems items
  | .seq items => leafCountList items
  | .flat inner => leafCount inner
def leafCountItems : List (Str × Def) → Nat
  | [] => 0
  | (_, d) :: items => leafCount d + leafCountItems items
def leafCountList : List Def → Nat
  | [] => 0
  | d :: items => leafCount d + leafCountList items
end

theorem canonicalItems_iff : ∀ {items : List (Str × Def)}, CanonicalItems items ↔ ∀ p ∈ items, Canonical p.2
  | [] => by simp [CanonicalItems]
  | (k, o) :: items => by simp [CanonicalItems, canonicalItems_iff (items := items)]

theorem canonicalList_iff : ∀ {items : List Def}, CanonicalList items ↔ ∀ p ∈ items, Canonical p
  | [] => by simp [CanonicalList]
  | o :: items => by simp [CanonicalList, canonicalList_iff (items := items)]

/-- Unflattening leaves gives a value with this structure and these leaves, and leaves the rest. -/
def Fits (d : Def) : Prop := ∀ (ls : List α) (rest : List (Obj α)), ls.length = leafCount d → flatten (unflatten d (ls.map Obj.leaf ++ rest)).1 = (ls, d) ∧
  (unflatten d (ls.map Obj.leaf ++ rest)).2 = rest

theorem fits_items : ∀ (items : List (Str × Def)), (∀ p ∈ items, Fits (α := α) p.2) → ∀ (ls : List α) (rest : List (Obj α)), ls.length = leafCountItems items →
    (flattenItems (unflattenItems items (ls.map Obj.leaf ++ rest)).1).flatMap (fun p => p.2.1) = ls ∧
    (flattenItems (unflattenItems items (ls.map Obj.leaf ++ rest)).1).map (fun p => (p.1, p.2.2)) = items ∧
    (unflattenItems items (ls.map Obj.leaf ++ rest)).2 = rest
  | [], _, ls, rest, hl => by
    have : ls = [] := List.length_eq_zero_iff.1 hl
    subst this
    exact ⟨rfl, rfl, rfl⟩
  | (k, d) :: items, h, ls, rest, hl => by
    have e : ls.map Obj.leaf ++ rest = (ls.take (leafCount d)).map Obj.leaf ++ ((ls.drop (leafCount d)).map Obj.leaf ++ rest) := by
      rw [← List.append_assoc, ← List.map_append, List.take_append_drop]
    simp only [leafCountItems] at hl
    have h1 := h (k, d) (by simp) (ls.take (leafCount d)) ((ls.drop (leafCount d)).map Obj.leaf ++ rest) (by show (ls.take (leafCount d)).length = leafCount d; rw [List.length_take]; omega)
    have h2 := fits_items items (fun p hp => h p (by simp [hp])) (ls.drop (leafCount d)) rest (by rw [List.length_drop]; omega)
    simp only [unflattenItems]
    rw [e, h1.2]
    simp only [flattenItems, List.flatMap_cons, List.map_cons]
    rw [h1.1, h2.1, h2.2.1, h2.2.2, List.take_append_drop]
    exact ⟨rfl, rfl, rfl⟩

theorem fits_list : ∀ (items : List Def), (∀ p ∈ items, Fits (α := α) p) → ∀ (ls : List α) (rest : List (Obj α)), ls.length = leafCountList items →
    (flattenList (unflattenList items (ls.map Obj.leaf ++ rest)).1).flatMap Prod.fst = ls ∧
    (flattenList (unflattenList items (ls.map Obj.leaf ++ rest)).1).map Prod.snd = items ∧
    (unflattenList items (ls.map Obj.leaf ++ rest)).2 = rest
  | [], _, ls, rest, hl => by
    have : ls = [] := List.length_eq_zero_iff.1 hl
    subst this
    exact ⟨rfl, rfl, rfl⟩
  | d :: items, h, ls, rest, hl => by
    have e : ls.map Obj.leaf ++ rest = (ls.take (leafCount d)).map Obj.leaf ++ ((ls.drop (leafCount d)).map Obj.leaf ++ rest) := by
      rw [← List.append_assoc, ← List.map_append, List.take_append_drop]
    simp only [leafCountList] at hl
    have h1 := h d (by simp) (ls.take (leafCount d)) ((ls.drop (leafCount d)).map Obj.leaf ++ rest) (by show (ls.take (leafCount d)).length = leafCount d; rw [List.length_take]; omega)
    have h2 := fits_list items (fun p hp => h p (by simp [hp])) (ls.drop (leafCount d)) rest (by rw [List.length_drop]; omega)
    simp only [unflattenList]
    rw [e, h1.2]
    simp only [flattenList, List.flatMap_cons, List.map_cons]
    rw [h1.1, h2.1, h2.2.1, h2.2.2, List.take_append_drop]
    exact ⟨rfl, rfl, rfl⟩

theorem fits_dict {items : List (Str × Def)} (h : ∀ p ∈ items, Fits (α := α) p.2) (hs : (items.map Prod.fst).Pairwise (· ≤ ·)) (hn : (items.map Prod.fst).Nodup)
    (ls : List α) (rest : List (Obj α)) (hl : ls.length = leafCountItems items) :
    flattenDict (flattenItems (unflattenItems items (ls.map Obj.leaf ++ rest)).1) = (ls, .dict items) := by
  obtain ⟨h1, h2, _⟩ := fits_items items h ls rest hl
  generalize hr : flattenItems (unflattenItems items (ls.map Obj.leaf ++ rest)).1 = r at h1 h2
  have hk : r.map Prod.fst = items.map Prod.fst := by rw [← h2, List.map_map]; rfl
  have hsort : sortKeys r = r := sortKeys_sorted (by rw [hk]; exact hn) (by rw [← hk, List.pairwise_map] at hs; exact hs)
  rw [flattenDict, hsort, h1, h2]

theorem fits_of_canonical : ∀ d : Def, Canonical d → Fits (α := α) d := by
  intro d
  induction d using dind_aux with
  | leaf =>
    intro _ ls rest hl
    obtain ⟨a, rfl⟩ := List.length_eq_one_iff.1 hl
    exact ⟨rfl, rfl⟩
  | none =>
    intro _ ls rest hl
    have : ls = [] := List.length_eq_zero_iff.1 hl
    subst this
    exact ⟨rfl, rfl⟩
  | dict items ih =>
    intro h ls rest hl
    have hf := fun p hp => ih p hp (canonicalItems_iff.1 h.2.2 p hp)
    exact ⟨fits_dict hf h.1 h.2.1 ls rest hl, (fits_items items hf ls rest hl).2.2⟩
  | seq items ih =>
    intro h ls rest hl
    obtain ⟨h1, h2, h3⟩ := fits_list items (fun p hp => ih p hp (canonicalList_iff.1 h p hp)) ls rest hl
    refine ⟨?_, h3⟩
    simp only [unflatten, flatten]
    rw [h1, h2]
  | flat inner ih =>
    intro h ls rest hl
    obtain ⟨⟨items, rfl⟩, hc⟩ := h
    obtain ⟨h1, h2⟩ := ih hc ls rest hl
    refine ⟨?_, h2⟩
    simp only [unflatten, asFlat, flatten] at h1 ⊢
    rw [h1]

theorem canonical_flatten : ∀ o : Obj α, Proper o → Canonical (flatten o).2 ∧ (flatten o).1.length = leafCount (flatten o).2 := by
  have hitems : ∀ l : List (Str × Obj α), (∀ p ∈ l, Canonical (flatten p.2).2 ∧ (flatten p.2).1.length = leafCount (flatten p.2).2) →
      CanonicalItems (l.map fun p => (p.1, (flatten p.2).2)) ∧
      (l.flatMap fun p => (flatten p.2).1).length = leafCountItems (l.map fun p => (p.1, (flatten p.2).2)) := by
    intro l
    induction l with
    | nil => intro _; exact ⟨trivial, rfl⟩
    | cons p l ih =>
      intro h
      obtain ⟨h1, h2⟩ := ih fun q hq => h q (by simp [hq])
      obtain ⟨h3, h4⟩ := h p (by simp)
      exact ⟨⟨h3, h1⟩, by simp only [List.flatMap_cons, List.length_append, List.map_cons, leafCountItems]; omega⟩
  have hdict : ∀ items : List (Str × Obj α), (items.map Prod.fst).Nodup → (∀ p ∈ items, Canonical (flatten p.2).2 ∧ (flatten p.2).1.length = leafCount (flatten p.2).2) →
      Canonical (flattenDict (flattenItems items)).2 ∧ (flattenDict (flattenItems items)).1.length = leafCount (flattenDict (flattenItems items)).2 := by
    intro items hn h
    obtain ⟨h1, h2⟩ := hitems (sortKeys items) fun p hp => h p (mem_sortKeys.1 hp)
    rw [flattenDict_eq]
    refine ⟨⟨?_, ?_, h1⟩, h2⟩
    · rw [List.map_map, List.pairwise_map]; exact sorted_sortKeys items
    · rw [List.map_map]; exact nodup_sortKeys hn
  intro o
  induction o using ind_aux with
  | leaf a => intro _; exact ⟨trivial, rfl⟩
  | none => intro _; exact ⟨trivial, rfl⟩
  | dict items ih => intro h; exact hdict items h.1 fun p hp => ih p hp (properItems_iff.1 h.2 p hp)
  | flat items ih =>
    intro h
    obtain ⟨h1, h2⟩ := hdict items h.1 fun p hp => ih p hp (properItems_iff.1 h.2 p hp)
    exact ⟨⟨⟨_, rfl⟩, h1⟩, h2⟩
  | seq items ih =>
    intro h
    have h' := fun o ho => ih o ho (properList_iff.1 h o ho)
    simp only [flatten, flattenList_eq]
    clear ih h
    induction items with
    | nil => exact ⟨trivial, rfl⟩
    | cons o l ihl =>
      obtain ⟨h1, h2⟩ := ihl fun q hq => h' q (by simp [hq])
      obtain ⟨h3, h4⟩ := h' o (by simp)
      refine ⟨⟨h3, h1⟩, ?_⟩
      simp only [List.map_cons, List.flatMap_cons, List.length_append, leafCount, leafCountList]
      simp only [leafCount] at h2
      omega

/-- C35 a `FlatMapping` made from the structure of a mapping and any leaves, one for each place, has exactly that structure and these leaves: what the
constructor stores without computing it is what it would have computed. -/
theorem components_consistent (items : List (Str × Obj β)) (h : Proper (.flat items)) (ls : List α) (hl : ls.length = (hashed items).2.length) :
    ∃ items', (unflatten (.flat (hashed items).1) (ls.map Obj.leaf)).1 = .flat items' ∧ hashed items' = ((hashed items).1, ls) := by
  obtain ⟨hc, hn⟩ := canonical_flatten (.flat items) h
  obtain ⟨h1, _⟩ := fits_of_canonical (α := α) _ hc ls [] (by rw [← hn]; exact hl)
  rw [List.append_nil] at h1
  have e : (flatten (.flat items)).2 = .flat (hashed items).1 := rfl
  rw [e] at h1
  generalize hu : (unflatten (.flat (hashed items).1) (ls.map Obj.leaf)).1 = u at h1
  cases u with
  | flat items' =>
    refine ⟨items', rfl, ?_⟩
    simp only [flatten] at h1
    injection h1 with h2 h3
    injection h3 with h3
    rw [hashed, h2, h3]
  | leaf a => simp only [flatten] at h1; injection h1 with _ h3; cases h3
  | none => simp only [flatten] at h1; injection h1 with _ h3; cases h3
  | seq s => simp only [flatten] at h1; injection h1 with _ h3; cases h3
  | dict d => simp only [flatten, flattenDict] at h1; injection h1 with _ h3; cases h3

example : ∃ items : List (Str × Obj Nat), Proper (.flat items) ∧ ([4, 5] : List Nat).length = (hashed items).2.length :=
  ⟨[(['b'], .leaf 1), (['a'], .flat [(['x'], .leaf 7)])], by simp [Proper, ProperItems], by
    rw [hashed, flattenDict_eq, sortKeys_two _ _ (by decide)]
    simp [flatten, flattenDict_eq, sortKeys_one]⟩

/-! ## Hashes -/

mutual
/-- No dict anywhere inside. -/
def NoDict : Obj α → Prop
  | .dict _ => False
  | .flat items => NoDictItems items
  | .seq items => NoDictList items
  | _ => True
def NoDictItems : List (Str × Obj α) → Prop
  | [] => True
  | (_, o) :: items => NoDict o ∧ NoDictItems items
def NoDictList : List (Obj α) → Prop
  | [] => True
  | o :: items => NoDict o ∧ NoDictList items
end

theorem noDictItems_iff : ∀ {items : List (Str × Obj α)}, NoDictItems items ↔ ∀ p ∈ items, NoDict p.2
  | [] => by simp [NoDictItems]
  | (k, o) :: items => by simp [NoDictItems, noDictItems_iff (items := items)]

theorem noDictList_iff : ∀ {items : List (Obj α)}, NoDictList items ↔ ∀ p ∈ items, NoDict p
  | [] => by simp [NoDictList]
  | o :: items => by simp [NoDictList, noDictList_iff (items := items)]

theorem mem_of_eqItems [DecidableEq α] : ∀ {items items' : List (Str × Obj α)}, eqItems items items' = true → ∀ p ∈ items, ∃ o', Dict.get? items' p.1 = some o' ∧ eq p.2 o' = true
  | [], _, _, p, hp => by simp at hp
  | (k, o) :: items, items', h, p, hp => by
    simp only [eqItems] at h
    cases hg : Dict.get? items' k with
    | none => rw [hg] at h; cases h
    | some o' =>
      rw [hg] at h
      simp only [Bool.and_eq_true] at h
      rcases List.mem_cons.1 hp with rfl | hp
      · exact ⟨o', hg, h.1⟩
      · exact mem_of_eqItems h.2 p hp

theorem flatten_of_eq [DecidableEq α] : ∀ (a b : Obj α), Proper a → Proper b → NoDict a → NoDict b → eq a b = true → flatten a = flatten b := by
  intro a
  induction a using ind_aux with
  | leaf x => intro b _ _ _ _ h; cases b <;> simp_all [eq]
  | none => intro b _ _ _ _ h; cases b <;> simp_all [eq]
  | dict items _ => intro b _ _ h; exact h.elim
  | seq items ih =>
    intro b pa pb na nb h
    cases b with
    | seq items' =>
      simp only [eq] at h
      have key : ∀ (l l' : List (Obj α)), (∀ o ∈ l, o ∈ items) → ProperList l → ProperList l' → NoDictList l → NoDictList l' → eqList l l' = true → l.map flatten = l'.map flatten := by
        intro l
        induction l with
        | nil => intro l' _ _ _ _ _ h; cases l' with
          | nil => rfl
          | cons _ _ => simp [eqList] at h
        | cons o l ihl =>
          intro l' hm p1 p2 n1 n2 h
          cases l' with
          | nil => simp [eqList] at h
          | cons o' l' =>
            simp only [eqList, Bool.and_eq_true] at h
            rw [List.map_cons, List.map_cons, ih o (hm o (by simp)) o' p1.1 p2.1 n1.1 n2.1 h.1, ihl l' (fun q hq => hm q (by simp [hq])) p1.2 p2.2 n1.2 n2.2 h.2]
      have := key items items' (fun _ h => h) pa pb na nb h
      simp only [flatten, flattenList_eq, this]
    | _ => simp [eq] at h
  | flat items ih =>
    intro b pa pb na nb h
    cases b with
    | flat items' =>
      simp only [eq, items?, Bool.and_eq_true, decide_eq_true_eq] at h
      obtain ⟨hlen, he⟩ := h
      have hmem := mem_of_eqItems he
      have hsub : ∀ x ∈ flattenItems items, x ∈ flattenItems items' := by
        intro x hx
        rw [flattenItems_eq] at hx ⊢
        obtain ⟨p, hp, rfl⟩ := List.mem_map.1 hx
        obtain ⟨o', hg, heq⟩ := hmem p hp
        have hm := Dict.mem_of_get? hg
        refine List.mem_map.2 ⟨(p.1, o'), hm, ?_⟩
        rw [ih p hp o' (properItems_iff.1 pa.2 p hp) (properItems_iff.1 pb.2 _ hm) (noDictItems_iff.1 na p hp) (noDictItems_iff.1 nb _ hm) heq]
      have hn : ((flattenItems items).map Prod.fst).Nodup := by
        rw [flattenItems_eq, List.map_map]; exact pa.1
      have hperm : (flattenItems items).Perm (flattenItems items') := by
        refine (List.subperm_of_subset ?_ hsub).perm_of_length_le ?_
        · exact List.Nodup.of_map _ hn
        · rw [flattenItems_eq, flattenItems_eq, List.length_map, List.length_map, hlen]; exact Nat.le_refl _
      have : flattenDict (flattenItems items) = flattenDict (flattenItems items') := by
        rw [flattenDict, flattenDict, sortKeys_perm hn hperm]
      simp only [flatten, this]
    | dict _ => exact nb.elim
    | _ => simp [eq, items?] at h

/-- C36 two equal `FlatMapping`s that contain no dicts (as built by `to_immutable_dict`) have the same structure and leaves, so hash equal, whatever the
order their items were given in.  Missing from the full property: `FlatMapping`s holding dicts, where it fails (`equal_but_hashed_differently`). -/
theorem equal_hash_partial [DecidableEq α] (a b : List (Str × Obj α)) (pa : Proper (.flat a)) (pb : Proper (.flat b)) (na : NoDict (.flat a)) (nb : NoDict (.flat b))
    (h : eq (.flat a) (.flat b) = true) : hashed a = hashed b := by
  have := flatten_of_eq _ _ pa pb na nb h
  simp only [flatten] at this
  injection this with h1 h2
  injection h2 with h2
  rw [hashed, hashed, h1, h2]

/-- C36 is violated: a `FlatMapping` holding a dict equals one holding the corresponding `FlatMapping`, but different structures are hashed. -/
theorem equal_but_hashed_differently : ∃ a b : List (Str × Obj Nat), Proper (.flat a) ∧ Proper (.flat b) ∧ eq (.flat a) (.flat b) = true ∧ hashed a ≠ hashed b := by
  refine ⟨[(['a'], .dict [(['b'], .leaf 1)])], [(['a'], .flat [(['b'], .leaf 1)])], by simp [Proper, ProperItems], by simp [Proper, ProperItems], by rfl, ?_⟩
  rw [hashed, hashed, flattenDict_eq, flattenDict_eq, sortKeys_one, sortKeys_one]
  intro h
  simp [flatten, flattenDict] at h

example : ∃ a b : List (Str × Obj Nat), Proper (.flat a) ∧ Proper (.flat b) ∧ NoDict (.flat a) ∧ NoDict (.flat b) ∧ eq (.flat a) (.flat b) = true ∧ a.map Prod.fst ≠ b.map Prod.fst :=
  ⟨[(['a'], .leaf 1), (['b'], .flat [(['c'], .none)])], [(['b'], .flat [(['c'], .none)]), (['a'], .leaf 1)],
    by simp [Proper, ProperItems], by simp [Proper, ProperItems], by simp [NoDict, NoDictItems], by simp [NoDict, NoDictItems], by rfl, by decide⟩

end Verif.Props.Tree
