import Verif.Props.Filtering
import Verif.Props.TopK

/-!
# Partitions and masks of the pruning example (C145)
-/

set_option linter.unusedVariables false
set_option linter.unusedSectionVars false

namespace Verif.Props.Pruning
open Verif.Shapes (Err size)
open Verif.Conv (indices)
open Verif.Props.Reset (Valid mem_indices)
open Verif.Filtering (Structure)
open Verif.Props.Filtering (IsDict Entry entry_iff partition_entries partition_dicts merge_isDict merge_entries merge_only)
open Verif.Frame (lookup2)
open Verif.Pruning

/-! ### Specification -/

section
variable {K : Type}

/-- The first predicate that a parameter satisfies: its number. -/
def group (ms : List (Predicate K × K)) (m n : Str) (v : Leaf K) : Option Nat := ms.findIdx? fun p => p.1 m n v

/-- The predicates look at the names and the shape only. -/
def ShapeOnly (ms : List (Predicate K × K)) : Prop := ∀ p ∈ ms, ∀ m n (v w : Leaf K), v.shape = w.shape → p.1 m n v = p.1 m n w

/-- The array that masks a parameter. -/
def MaskOf (ms : List (Predicate K × K)) (masks : List (Structure (Leaf K))) (m n : Str) (v y : Leaf K) : Prop := ∃ j M, group ms m n v = some j ∧ masks[j]? = some M ∧ Entry M m n y

/-- Two arrays have the same shape and the same elements. -/
def Agree (v w : Leaf K) : Prop := v.shape = w.shape ∧ ∀ i, Valid v.shape i → v.val i = w.val i

/-- Two sets of parameters have the same entries. -/
def AgreeAll (a b : Structure (Leaf K)) : Prop := (∀ m n v, Entry a m n v → ∃ w, Entry b m n w ∧ Agree v w) ∧ ∀ m n w, Entry b m n w → ∃ v, Entry a m n v ∧ Agree v w

/-- Two sets of parameters have the same names and shapes. -/
def Alike (a b : Structure (Leaf K)) : Prop := (∀ m n v, Entry a m n v → ∃ w, Entry b m n w ∧ w.shape = v.shape) ∧ ∀ m n w, Entry b m n w → ∃ v, Entry a m n v ∧ w.shape = v.shape

/-- No module is empty. -/
def Inhabited (a : Structure (Leaf K)) : Prop := ∀ p ∈ a, p.2 ≠ []

/-- The masks are made for these parameters: one for each predicate, with zeros and ones for the parameters that belong to the predicate and nothing else. -/
structure Fits [Zero K] [One K] (ms : List (Predicate K × K)) (params : Structure (Leaf K)) (masks : List (Structure (Leaf K))) : Prop where
  count : masks.length = ms.length
  dict : ∀ M ∈ masks, IsDict M ∧ Inhabited M
  keys : ∀ j M, masks[j]? = some M → ∀ m n, (∃ y, Entry M m n y) ↔ ∃ v, Entry params m n v ∧ group ms m n v = some j
  shape : ∀ m n v y, Entry params m n v → MaskOf ms masks m n v y → y.shape = v.shape ∧ ∀ i, Valid v.shape i → y.val i = 0 ∨ y.val i = 1

end

/-- `w` is `v` with all but `k` of its elements set to zero, where nothing that is kept is smaller in absolute value than something that is not; `k` is cut to the range from 0 to the size. -/
def Pruned {K : Type} [Field K] [LinearOrder K] (v w : Leaf K) (k : Int) : Prop :=
  ∃ S : Finset (List Nat), (∀ i ∈ S, Valid v.shape i) ∧ S.card = min k.toNat (size v.shape) ∧ w.shape = v.shape ∧ (∀ i ∈ S, w.val i = v.val i) ∧ (∀ i, Valid v.shape i → i ∉ S → w.val i = 0) ∧
    ∀ i ∈ S, ∀ j, Valid v.shape j → j ∉ S → |v.val j| ≤ |v.val i|

/-- The number of zeros of an array. -/
def zeros {K : Type} [Zero K] [DecidableEq K] (v : Leaf K) : Nat := ((indices v.shape).filter fun i => decide (v.val i = 0)).length

/-! ### Mapping over two structures -/

section
variable {β γ δ : Type}

theorem mapM_ok {α : Type} (g : α → Except Err β) : ∀ (l : List α) (c : List β), l.mapM g = .ok c → List.Forall₂ (fun p q => g p = .ok q) l c
  | [], c, h => by
    cases h
    exact .nil
  | p :: l, c, h => by
    rw [List.mapM_cons] at h
    cases hp : g p with
    | error e => rw [hp] at h; cases h
    | ok q =>
      rw [hp] at h
      cases hl : l.mapM g with
      | error e =>
        have h' : (List.mapM g l >>= fun bs => pure (q :: bs)) = .ok c := h
        rw [hl] at h'
        cases h'
      | ok d =>
        have h' : (List.mapM g l >>= fun bs => pure (q :: bs)) = .ok c := h
        rw [hl] at h'
        cases h'
        exact .cons hp (mapM_ok g l d hl)

theorem mapM_run {α : Type} (g : α → Except Err β) : ∀ l : List α, (∀ p ∈ l, ∃ q, g p = .ok q) → ∃ c, l.mapM g = .ok c
  | [], _ => ⟨[], rfl⟩
  | p :: l, h => by
    obtain ⟨q, hq⟩ := h p List.mem_cons_self
    obtain ⟨c, hc⟩ := mapM_run g l fun p hp => h p (List.mem_cons_of_mem _ hp)
    refine ⟨q :: c, ?_⟩
    rw [List.mapM_cons, hq]
    show (List.mapM g l >>= fun bs => pure (q :: bs)) = .ok (q :: c)
    rw [hc]
    rfl

theorem sameKeys_iff (a : Dict Str β) (b : Dict Str γ) : sameKeys a b = true ↔ ∀ k, k ∈ a.keys ↔ k ∈ b.keys := by
  unfold sameKeys
  rw [Bool.and_eq_true, List.all_eq_true, List.all_eq_true]
  constructor
  · rintro ⟨h1, h2⟩ k
    constructor
    · intro hk
      obtain ⟨p, hp, rfl⟩ := List.mem_map.mp hk
      exact (Dict.has_iff _ _).mp (h1 p hp)
    · intro hk
      obtain ⟨p, hp, rfl⟩ := List.mem_map.mp hk
      exact (Dict.has_iff _ _).mp (h2 p hp)
  · intro h
    exact ⟨fun p hp => (Dict.has_iff _ _).mpr ((h p.1).mp (List.mem_map_of_mem hp)), fun p hp => (Dict.has_iff _ _).mpr ((h p.1).mpr (List.mem_map_of_mem hp))⟩

/-- What mapping over two dictionaries gives. -/
theorem zipBundle_ok {f : β → γ → Except Err δ} {a : Dict Str β} {b : Dict Str γ} {c : Dict Str δ} (h : zipBundle f a b = .ok c) :
    c.keys = a.keys ∧ (∀ k, k ∈ a.keys ↔ k ∈ b.keys) ∧ ∀ k z, c.get? k = some z ↔ ∃ x y, a.get? k = some x ∧ b.get? k = some y ∧ f x y = .ok z := by
  unfold zipBundle at h
  by_cases hs : sameKeys a b = true
  · rw [if_pos hs] at h
    have hf := mapM_ok _ _ _ h
    refine ⟨?_, (sameKeys_iff a b).mp hs, ?_⟩
    · clear h hs
      induction hf with
      | nil => rfl
      | cons h1 h2 ih =>
        rename_i p q l c
        have : q.1 = p.1 := by
          cases hb : b.get? p.1 with
          | none => rw [hb] at h1; cases h1
          | some y =>
            rw [hb] at h1
            dsimp only at h1
            cases hz : f p.2 y with
            | error e => rw [hz] at h1; cases h1
            | ok z => rw [hz] at h1; cases h1; rfl
        show q.1 :: Dict.keys c = p.1 :: Dict.keys l
        rw [this, ih]
    · clear h hs
      intro k z
      induction hf with
      | nil => simp
      | cons h1 h2 ih =>
        rename_i p q l c
        obtain ⟨p1, p2⟩ := p
        obtain ⟨q1, q2⟩ := q
        cases hb : b.get? p1 with
        | none => dsimp only at h1; rw [hb] at h1; cases h1
        | some y =>
          dsimp only at h1
          rw [hb] at h1
          dsimp only at h1
          cases hz : f p2 y with
          | error e => rw [hz] at h1; cases h1
          | ok w =>
            rw [hz] at h1
            cases h1
            rw [Dict.get?_cons, Dict.get?_cons]
            by_cases hk : p1 = k
            · subst hk
              rw [if_pos rfl, if_pos rfl, hb]
              constructor
              · intro e; cases e; exact ⟨p2, y, rfl, rfl, hz⟩
              · rintro ⟨x, y', e1, e2, e3⟩
                cases e1; cases e2
                rw [hz] at e3
                cases e3; rfl
            · rw [if_neg hk, if_neg hk]
              exact ih
  · rw [if_neg hs] at h
    cases h

theorem zipBundle_run {f : β → γ → Except Err δ} {a : Dict Str β} {b : Dict Str γ} (hk : ∀ k, k ∈ a.keys ↔ k ∈ b.keys) (hn : a.keys.Nodup)
    (hf : ∀ k x y, a.get? k = some x → b.get? k = some y → ∃ z, f x y = .ok z) : ∃ c, zipBundle f a b = .ok c := by
  unfold zipBundle
  rw [if_pos ((sameKeys_iff a b).mpr hk)]
  refine mapM_run _ _ fun p hp => ?_
  have h1 : a.get? p.1 = some p.2 := Dict.get?_of_mem hn hp
  have h2 : (b.get? p.1).isSome := (Dict.mem_keys_iff b p.1).mp ((hk p.1).mp (List.mem_map_of_mem hp))
  obtain ⟨y, hy⟩ := Option.isSome_iff_exists.mp h2
  obtain ⟨z, hz⟩ := hf _ _ _ h1 hy
  exact ⟨(p.1, z), by rw [hy]; dsimp only; rw [hz]; rfl⟩

/-- What mapping over two structures gives. -/
theorem treeMultimap_ok {f : β → γ → Except Err δ} {a : Structure β} {b : Structure γ} {c : Structure δ} (h : treeMultimap f a b = .ok c) :
    (IsDict a → IsDict c) ∧ (∀ m n, (∃ x, lookup2 a m n = some x) ↔ ∃ y, lookup2 b m n = some y) ∧
      ∀ m n z, lookup2 c m n = some z ↔ ∃ x y, lookup2 a m n = some x ∧ lookup2 b m n = some y ∧ f x y = .ok z := by
  obtain ⟨h1, h2, h3⟩ := zipBundle_ok h
  refine ⟨fun hd => ?_, fun m n => ?_, fun m n z => ?_⟩
  · rw [Verif.Props.Filtering.wf2_iff] at hd ⊢
    refine ⟨by rw [h1]; exact hd.1, fun k i hi => ?_⟩
    obtain ⟨x, y, hx, hy, hf⟩ := (h3 k i).mp hi
    rw [(zipBundle_ok hf).1]
    exact hd.2 _ _ hx
  · have key : ∀ x y, a.get? m = some x → b.get? m = some y → ∃ z, zipBundle f x y = .ok z := by
      intro x y hx hy
      have : m ∈ c.keys := by rw [h1, Dict.mem_keys_iff, hx]; rfl
      obtain ⟨z, hz⟩ := Option.isSome_iff_exists.mp ((Dict.mem_keys_iff c m).mp this)
      obtain ⟨x', y', hx', hy', hf⟩ := (h3 m z).mp hz
      rw [hx] at hx'; rw [hy] at hy'
      cases hx'; cases hy'
      exact ⟨z, hf⟩
    unfold lookup2
    cases hx : a.get? m with
    | none =>
      have : m ∉ b.keys := fun hm => by
        have := (h2 m).mpr hm
        rw [Dict.mem_keys_iff, hx] at this
        cases this
      rw [(Dict.get?_eq_none_iff b m).mpr this]
      simp
    | some x =>
      have : m ∈ b.keys := (h2 m).mp (by rw [Dict.mem_keys_iff, hx]; rfl)
      obtain ⟨y, hy⟩ := Option.isSome_iff_exists.mp ((Dict.mem_keys_iff b m).mp this)
      obtain ⟨z, hz⟩ := key x y hx hy
      rw [hy]
      have := (zipBundle_ok hz).2.1 n
      rw [Dict.mem_keys_iff, Dict.mem_keys_iff, Option.isSome_iff_exists, Option.isSome_iff_exists] at this
      exact this
  · unfold lookup2
    cases hz : c.get? m with
    | none =>
      simp only [Option.bind_none, reduceCtorEq, false_iff]
      rintro ⟨x, y, hx, hy, hf⟩
      cases hx' : a.get? m with
      | none => rw [hx'] at hx; cases hx
      | some x' =>
        have : m ∈ c.keys := by rw [h1, Dict.mem_keys_iff, hx']; rfl
        rw [Dict.mem_keys_iff, hz] at this
        cases this
    | some z' =>
      obtain ⟨x, y, hx, hy, hf⟩ := (h3 m z').mp hz
      rw [hx, hy]
      exact (zipBundle_ok hf).2.2 n z

theorem mem_keys_of_inhabited {a : Structure β} (hd : IsDict a) (hi : ∀ p ∈ a, p.2 ≠ []) (m : Str) : m ∈ a.keys ↔ ∃ n x, lookup2 a m n = some x := by
  rw [Dict.mem_keys_iff, Option.isSome_iff_exists]
  constructor
  · rintro ⟨b, hb⟩
    have := hi _ (Dict.mem_of_get? hb)
    cases b with
    | nil => exact absurd rfl this
    | cons q b => exact ⟨q.1, q.2, by unfold lookup2; rw [hb]; show Dict.get? (q :: b) q.1 = _; rw [show q :: b = (q.1, q.2) :: b from rfl, Dict.get?_cons, if_pos rfl]⟩
  · rintro ⟨n, x, h⟩
    unfold lookup2 at h
    cases hb : a.get? m with
    | none => rw [hb] at h; cases h
    | some b => exact ⟨b, rfl⟩

theorem treeMultimap_run {f : β → γ → Except Err δ} {a : Structure β} {b : Structure γ} (ha : IsDict a) (hb : IsDict b) (hai : ∀ p ∈ a, p.2 ≠ []) (hbi : ∀ p ∈ b, p.2 ≠ [])
    (hk : ∀ m n, (∃ x, lookup2 a m n = some x) ↔ ∃ y, lookup2 b m n = some y) (hf : ∀ m n x y, lookup2 a m n = some x → lookup2 b m n = some y → ∃ z, f x y = .ok z) :
    ∃ c, treeMultimap f a b = .ok c := by
  have ha' := Verif.Props.Filtering.wf2_iff.mp ha
  refine zipBundle_run (fun m => ?_) ha'.1 fun m x y hx hy => ?_
  · rw [mem_keys_of_inhabited ha hai, mem_keys_of_inhabited hb hbi]
    exact exists_congr fun n => hk m n
  · refine zipBundle_run (fun n => ?_) (ha'.2 _ _ hx) fun n u v hu hv => ?_
    · have := hk m n
      unfold lookup2 at this
      rw [hx, hy] at this
      rw [Dict.mem_keys_iff, Dict.mem_keys_iff, Option.isSome_iff_exists, Option.isSome_iff_exists]
      exact this
    · exact hf m n u v (by unfold lookup2; rw [hx]; exact hu) (by unfold lookup2; rw [hy]; exact hv)

theorem treeMap_get (f : β → γ) (a : Structure β) (m n : Str) : lookup2 (treeMap f a) m n = (lookup2 a m n).map f := by
  have key : ∀ (b : Dict Str β) n, Dict.get? (b.map fun q => (q.1, f q.2)) n = (Dict.get? b n).map f := by
    intro b n
    induction b with
    | nil => rfl
    | cons q b ih =>
      rw [List.map_cons, Dict.get?_cons, ih]
      show _ = Option.map f (Dict.get? ((q.1, q.2) :: b) n)
      rw [Dict.get?_cons]
      split <;> rfl
  unfold lookup2 treeMap
  induction a with
  | nil => rfl
  | cons p a ih =>
    rw [List.map_cons, Dict.get?_cons]
    show _ = Option.map f (Option.bind (Dict.get? ((p.1, p.2) :: a) m) _)
    rw [Dict.get?_cons]
    split
    · exact key p.2 n
    · exact ih

theorem treeMap_dict (f : β → γ) {a : Structure β} (h : IsDict a) : IsDict (treeMap f a) := by
  constructor
  · unfold treeMap
    rw [List.map_map]
    exact h.1
  · intro p hp
    obtain ⟨q, hq, rfl⟩ := List.mem_map.mp hp
    show (List.map Prod.fst (List.map _ q.2)).Nodup
    rw [List.map_map]
    exact h.2 q hq

end

/-! ### Partitions -/

section
variable {K : Type}

theorem group_cons (p : Predicate K × K) (ms : List (Predicate K × K)) (m n : Str) (v : Leaf K) :
    group (p :: ms) m n v = if p.1 m n v then some 0 else (group ms m n v).map (· + 1) := by
  unfold group
  rw [List.findIdx?_cons]

theorem parts_length : ∀ (ms : List (Predicate K × K)) (a : Structure (Leaf K)), (createPartitions ms a).1.length = ms.length
  | [], _ => rfl
  | p :: ms, a => by
    show (_ :: (createPartitions ms _).1).length = _
    rw [List.length_cons, parts_length ms, List.length_cons]

theorem parts_levels : ∀ (ms : List (Predicate K × K)) (a : Structure (Leaf K)), (createPartitions ms a).2.1 = ms.map Prod.snd
  | [], _ => rfl
  | p :: ms, a => by
    show _ :: (createPartitions ms _).2.1 = _
    rw [parts_levels ms]
    rfl

/-- C145: the parameters are split by the first predicate they satisfy: each is in exactly one part, or in the rest if there is none, and the parts hold nothing else. -/
theorem parts_entries : ∀ (ms : List (Predicate K × K)) {a : Structure (Leaf K)}, IsDict a → ∀ (m n : Str) (v : Leaf K),
    (∀ j P, (createPartitions ms a).1[j]? = some P → (Entry P m n v ↔ Entry a m n v ∧ group ms m n v = some j)) ∧
      (Entry (createPartitions ms a).2.2 m n v ↔ Entry a m n v ∧ group ms m n v = none)
  | [], a, h, m, n, v => ⟨fun j P hP => (by simp [createPartitions] at hP), ⟨fun h => ⟨h, rfl⟩, fun h => h.1⟩⟩
  | p :: ms, a, h, m, n, v => by
    obtain ⟨d1, d2, _⟩ := partition_dicts p.1 a
    obtain ⟨e1, e2⟩ := partition_entries p.1 h m n v
    obtain ⟨i1, i2⟩ := parts_entries ms d2 m n v
    rw [group_cons]
    constructor
    · intro j P hP
      cases j with
      | zero =>
        cases Option.some.inj hP
        rw [e1]
        by_cases hp : p.1 m n v = true
        · simp [hp]
        · simp [hp]
      | succ j =>
        rw [i1 j P hP, e2]
        by_cases hp : p.1 m n v = true
        · simp [hp]
        · simp [hp]
    · show Entry (createPartitions ms (Filtering.partition p.1 a).2).2.2 m n v ↔ _
      rw [i2, e2]
      by_cases hp : p.1 m n v = true
      · simp [hp]
      · simp [hp]

/-- C145: the parts are dictionaries without empty modules. -/
theorem parts_dicts : ∀ (ms : List (Predicate K × K)) {a : Structure (Leaf K)}, IsDict a →
    (∀ P ∈ (createPartitions ms a).1, IsDict P ∧ Inhabited P) ∧ IsDict (createPartitions ms a).2.2
  | [], a, h => ⟨fun P hP => (by simp [createPartitions] at hP), h⟩
  | p :: ms, a, h => by
    obtain ⟨d1, d2, d3⟩ := partition_dicts p.1 a
    obtain ⟨i1, i2⟩ := parts_dicts ms d2
    refine ⟨fun P hP => ?_, i2⟩
    rcases List.mem_cons.mp hP with rfl | hP
    · exact ⟨d1, fun q hq => d3 q (.inl hq)⟩
    · exact i1 P hP

theorem entry_unique {β : Type} {a : Structure β} (h : IsDict a) {m n : Str} {v w : β} (hv : Entry a m n v) (hw : Entry a m n w) : v = w := by
  rw [entry_iff h] at hv hw
  rw [hv] at hw
  exact Option.some.inj hw

end

/-! ### Applying masks -/

section
variable {K : Type} [Field K]

theorem maskAll_ok : ∀ (vs ms out : List (Structure (Leaf K))), maskAll vs ms = .ok out → out.length = min vs.length ms.length ∧
    ∀ (j : Nat) W, out[j]? = some W → ∃ V M, vs[j]? = some V ∧ ms[j]? = some M ∧ treeMultimap (Nd.zip (· * ·)) V M = .ok W
  | [], ms, out, h => by
    have : out = [] := by
      unfold maskAll at h
      cases h
      rfl
    subst this
    exact ⟨by simp, fun j W hW => (by simp at hW)⟩
  | V :: vs, [], out, h => by
    have : out = [] := by
      unfold maskAll at h
      cases h
      rfl
    subst this
    exact ⟨by simp, fun j W hW => (by simp at hW)⟩
  | V :: vs, M :: ms, out, h => by
    have h' : (treeMultimap (Nd.zip (· * ·)) V M >>= fun v => maskAll vs ms >>= fun vs => Except.ok (v :: vs)) = .ok out := h
    cases h1 : treeMultimap (Nd.zip (· * ·)) V M with
    | error e => rw [h1] at h'; cases h'
    | ok W =>
      cases h2 : maskAll vs ms with
      | error e => rw [h1, h2] at h'; cases h'
      | ok ws =>
        rw [h1, h2] at h'
        cases h'
        obtain ⟨i1, i2⟩ := maskAll_ok vs ms ws h2
        refine ⟨by simp [i1], fun j X hX => ?_⟩
        cases j with
        | zero =>
          cases Option.some.inj hX
          exact ⟨V, M, rfl, rfl, h1⟩
        | succ j => exact i2 j X hX

theorem maskAll_run : ∀ (vs ms : List (Structure (Leaf K))), (∀ (j : Nat) V M, vs[j]? = some V → ms[j]? = some M → ∃ W, treeMultimap (Nd.zip (· * ·)) V M = .ok W) → ∃ out, maskAll vs ms = .ok out
  | [], ms, _ => ⟨[], by unfold maskAll; rfl⟩
  | V :: vs, [], _ => ⟨[], by unfold maskAll; rfl⟩
  | V :: vs, M :: ms, h => by
    obtain ⟨W, hW⟩ := h 0 V M rfl rfl
    obtain ⟨ws, hws⟩ := maskAll_run vs ms fun j => h (j + 1)
    refine ⟨W :: ws, ?_⟩
    show (treeMultimap (Nd.zip (· * ·)) V M >>= fun v => maskAll vs ms >>= fun vs => Except.ok (v :: vs)) = _
    rw [hW, hws]
    rfl

/-- C145: what `apply_mask` returns: the parameters without a predicate as they are, and the others multiplied with their masks.  A parameter whose mask is missing is not returned at all. -/
theorem apply_entries {params out : Structure (Leaf K)} {masks : List (Structure (Leaf K))} {ms : List (Predicate K × K)} (h : IsDict params) (hm : ∀ M ∈ masks, IsDict M)
    (hok : applyMask params masks ms = .ok out) : IsDict out ∧ ∀ m n w, Entry out m n w ↔
      ∃ v, Entry params m n v ∧ ((group ms m n v = none ∧ w = v) ∨ ∃ y, MaskOf ms masks m n v y ∧ Nd.zip (· * ·) v y = .ok w) := by
  have h' : (maskAll (createPartitions ms params).1 masks >>= fun pruned => Except.ok (Filtering.merge (pruned ++ [(createPartitions ms params).2.2]))) = .ok out := hok
  cases hp : maskAll (createPartitions ms params).1 masks with
  | error e => rw [hp] at h'; cases h'
  | ok pruned =>
    rw [hp] at h'
    have h' := Except.ok.inj h'
    subst h'
    obtain ⟨hl, hj⟩ := maskAll_ok _ _ _ hp
    obtain ⟨d1, d2⟩ := parts_dicts ms h
    have dp : ∀ W ∈ pruned, IsDict W := by
      intro W hW
      obtain ⟨j, hW⟩ := List.mem_iff_getElem?.mp hW
      obtain ⟨V, M, hV, hM, ht⟩ := hj j W hW
      exact (treeMultimap_ok ht).1 (d1 V (List.mem_of_getElem? hV)).1
    have hall : ∀ d ∈ pruned ++ [(createPartitions ms params).2.2], IsDict d := by
      intro d hd
      rcases List.mem_append.mp hd with hd | hd
      · exact dp d hd
      · rw [List.mem_singleton.mp hd]; exact d2
    -- the entries of the pruned parts
    have hw : ∀ (j : Nat) W m n w, pruned[j]? = some W → (Entry W m n w ↔ ∃ v, Entry params m n v ∧ group ms m n v = some j ∧ ∃ M y, masks[j]? = some M ∧ Entry M m n y ∧ Nd.zip (· * ·) v y = .ok w) := by
      intro j W m n w hW
      obtain ⟨V, M, hV, hM, ht⟩ := hj j W hW
      rw [entry_iff (dp W (List.mem_of_getElem? hW)), (treeMultimap_ok ht).2.2]
      constructor
      · rintro ⟨x, y, hx, hy, hz⟩
        rw [← entry_iff (d1 V (List.mem_of_getElem? hV)).1, ((parts_entries ms h m n x).1 j V hV)] at hx
        exact ⟨x, hx.1, hx.2, M, y, hM, (entry_iff (hm M (List.mem_of_getElem? hM))).mpr hy, hz⟩
      · rintro ⟨v, hv, hg, M', y, hM', hy, hz⟩
        rw [hM] at hM'
        cases hM'
        exact ⟨v, y, (entry_iff (d1 V (List.mem_of_getElem? hV)).1).mp (((parts_entries ms h m n v).1 j V hV).mpr ⟨hv, hg⟩), (entry_iff (hm M (List.mem_of_getElem? hM))).mp hy, hz⟩
    refine ⟨merge_isDict _, fun m n w => ⟨fun he => ?_, ?_⟩⟩
    · obtain ⟨d, hd, hed⟩ := merge_only _ hall m n w he
      rcases List.mem_append.mp hd with hd | hd
      · obtain ⟨j, hdj⟩ := List.mem_iff_getElem?.mp hd
        obtain ⟨v, hv, hg, M, y, hM, hy, hz⟩ := (hw j d m n w hdj).mp hed
        exact ⟨v, hv, .inr ⟨y, ⟨j, M, hg, hM, hy⟩, hz⟩⟩
      · rw [List.mem_singleton.mp hd, (parts_entries ms h m n w).2] at hed
        exact ⟨w, hed.1, .inl ⟨hed.2, rfl⟩⟩
    · rintro ⟨v, hv, ⟨hg, rfl⟩ | ⟨y, ⟨j, M, hg, hM, hy⟩, hz⟩⟩
      · exact merge_entries pruned [] _ dp d2 (fun x hx => (by cases hx)) m n w ((parts_entries ms h m n w).2.mpr ⟨hv, hg⟩) fun x hx => (by cases hx)
      · have hjl : j < pruned.length := by
          have h1 : j < ms.length := by
            unfold group at hg
            exact (List.findIdx?_eq_some_iff_findIdx_eq.mp hg).1
          have h2 := (List.getElem?_eq_some_iff.mp hM).1
          rw [hl, parts_length]
          omega
        have e : pruned ++ [(createPartitions ms params).2.2] = pruned.take j ++ pruned[j] :: (pruned.drop (j + 1) ++ [(createPartitions ms params).2.2]) := by
          rw [← List.cons_append, ← List.append_assoc]
          congr 1
          rw [← List.drop_eq_getElem_cons hjl, List.take_append_drop]
        rw [e]
        refine merge_entries _ _ _ (fun x hx => dp x (List.mem_of_mem_take hx)) (dp _ (List.getElem_mem hjl)) (fun x hx => ?_) m n w ((hw j _ m n w (List.getElem?_eq_getElem hjl)).mpr ⟨v, hv, hg, M, y, hM, hy, hz⟩) fun x hx w' hx' => ?_
        · rcases List.mem_append.mp hx with hx | hx
          · exact dp x (List.mem_of_mem_drop hx)
          · rw [List.mem_singleton.mp hx]; exact d2
        · rcases List.mem_append.mp hx with hx | hx
          · obtain ⟨r, hr⟩ := List.mem_iff_getElem?.mp hx
            rw [List.getElem?_drop] at hr
            obtain ⟨v', hv', hg', _⟩ := (hw _ x m n w' hr).mp hx'
            rw [entry_unique h hv' hv, hg] at hg'
            have := Option.some.inj hg'
            omega
          · rw [List.mem_singleton.mp hx, (parts_entries ms h m n w').2] at hx'
            have := hx'.2
            rw [entry_unique h hx'.1 hv, hg] at this
            cases this

theorem zip_same (f : K → K → K) {x y : Leaf K} (h : y.shape = x.shape) : ∃ z, Nd.zip f x y = .ok z ∧ z.shape = x.shape ∧ ∀ i, Valid x.shape i → z.val i = f (x.val i) (y.val i) := by
  refine ⟨_, Nd.zip_right (by rw [h]; exact Nd.broadcasts_refl _), rfl, fun i hi => ?_⟩
  dsimp only
  rw [h, Nd.project_self hi]

/-- C145: masks that are made for the parameters can be applied; the names and shapes stay, the parameters without a predicate stay, and the others are multiplied element by element. -/
theorem apply_masks {params : Structure (Leaf K)} {masks : List (Structure (Leaf K))} {ms : List (Predicate K × K)} (h : IsDict params) (hf : Fits ms params masks) :
    ∃ out, applyMask params masks ms = .ok out ∧ IsDict out ∧ Alike params out ∧ (∀ m n v, Entry params m n v → group ms m n v = none → Entry out m n v) ∧
      ∀ m n v w y, Entry params m n v → Entry out m n w → MaskOf ms masks m n v y → w.shape = v.shape ∧ ∀ i, Valid v.shape i → w.val i = v.val i * y.val i := by
  obtain ⟨d1, d2⟩ := parts_dicts ms h
  obtain ⟨pruned, hp⟩ := maskAll_run (createPartitions ms params).1 masks (by
    intro j V M hV hM
    have dV := d1 V (List.mem_of_getElem? hV)
    have dM := hf.dict M (List.mem_of_getElem? hM)
    refine treeMultimap_run dV.1 dM.1 dV.2 dM.2 (fun m n => ?_) fun m n x y hx hy => ?_
    · simp only [← entry_iff dV.1, ← entry_iff dM.1]
      rw [hf.keys j M hM m n]
      exact exists_congr fun v => (parts_entries ms h m n v).1 j V hV
    · rw [← entry_iff dV.1, (parts_entries ms h m n x).1 j V hV] at hx
      rw [← entry_iff dM.1] at hy
      obtain ⟨z, hz, _⟩ := zip_same (· * ·) (hf.shape m n x y hx.1 ⟨j, M, hx.2, hM, hy⟩).1
      exact ⟨z, hz⟩)
  have hok : applyMask params masks ms = .ok (Filtering.merge (pruned ++ [(createPartitions ms params).2.2])) := by
    show (maskAll (createPartitions ms params).1 masks >>= fun pruned => Except.ok (Filtering.merge (pruned ++ [(createPartitions ms params).2.2]))) = _
    rw [hp]
    rfl
  obtain ⟨hd, he⟩ := apply_entries h (fun M hM => (hf.dict M hM).1) hok
  have hmask : ∀ m n v, Entry params m n v → (∃ j, group ms m n v = some j) → ∃ y, MaskOf ms masks m n v y := by
    rintro m n v hv ⟨j, hj⟩
    have h1 : j < masks.length := by
      rw [hf.count]
      unfold group at hj
      exact (List.findIdx?_eq_some_iff_findIdx_eq.mp hj).1
    obtain ⟨y, hy⟩ := (hf.keys j _ (List.getElem?_eq_getElem h1) m n).mpr ⟨v, hv, hj⟩
    exact ⟨y, j, _, hj, List.getElem?_eq_getElem h1, hy⟩
  refine ⟨_, hok, hd, ⟨fun m n v hv => ?_, fun m n w hw => ?_⟩, fun m n v hv hg => ?_, fun m n v w y hv hw hy => ?_⟩
  · cases hg : group ms m n v with
    | none => exact ⟨v, (he m n v).mpr ⟨v, hv, .inl ⟨hg, rfl⟩⟩, rfl⟩
    | some j =>
      obtain ⟨y, hy⟩ := hmask m n v hv ⟨j, hg⟩
      obtain ⟨z, hz, hs, _⟩ := zip_same (· * ·) (hf.shape m n v y hv hy).1
      exact ⟨z, (he m n z).mpr ⟨v, hv, .inr ⟨y, hy, hz⟩⟩, hs⟩
  · obtain ⟨v, hv, ⟨_, rfl⟩ | ⟨y, hy, hz⟩⟩ := (he m n w).mp hw
    · exact ⟨_, hv, rfl⟩
    · obtain ⟨z, hz', hs, _⟩ := zip_same (· * ·) (hf.shape m n v y hv hy).1
      rw [hz'] at hz
      cases hz
      exact ⟨v, hv, hs⟩
  · exact (he m n v).mpr ⟨v, hv, .inl ⟨hg, rfl⟩⟩
  · obtain ⟨v', hv', hc⟩ := (he m n w).mp hw
    have := entry_unique h hv' hv
    subst this
    rcases hc with ⟨hg, rfl⟩ | ⟨y', hy', hz⟩
    · obtain ⟨j, M, hg', _⟩ := hy
      rw [hg] at hg'
      cases hg'
    · obtain ⟨j, M, hg, hM, hyM⟩ := hy
      obtain ⟨j', M', hg', hM', hyM'⟩ := hy'
      rw [hg] at hg'
      cases hg'
      rw [hM] at hM'
      cases hM'
      have := entry_unique (hf.dict M (List.mem_of_getElem? hM)).1 hyM' hyM
      subst this
      obtain ⟨z, hz', hs, hval⟩ := zip_same (· * ·) (hf.shape m n v' y' hv' ⟨j, M, hg, hM, hyM⟩).1
      rw [hz'] at hz
      cases hz
      exact ⟨hs, hval⟩

/-- C145: a parameter whose mask is missing, because the list of masks is too short, is dropped without an error. -/
theorem missing_mask_drops {params out : Structure (Leaf K)} {masks : List (Structure (Leaf K))} {ms : List (Predicate K × K)} (h : IsDict params) (hm : ∀ M ∈ masks, IsDict M)
    (hok : applyMask params masks ms = .ok out) {m n : Str} {v : Leaf K} {j : Nat} (hv : Entry params m n v) (hg : group ms m n v = some j) (hj : masks.length ≤ j) : ∀ w, ¬Entry out m n w := by
  intro w hw
  obtain ⟨v', hv', hc⟩ := ((apply_entries h hm hok).2 m n w).mp hw
  rw [entry_unique h hv' hv] at hc
  rcases hc with ⟨hg', _⟩ | ⟨y, ⟨j', M, hg', hM, _⟩, _⟩
  · rw [hg] at hg'; cases hg'
  · rw [hg] at hg'
    cases hg'
    have := (List.getElem?_eq_some_iff.mp hM).1
    omega

theorem group_shape {ms : List (Predicate K × K)} (hs : ShapeOnly ms) (m n : Str) {v w : Leaf K} (h : w.shape = v.shape) : group ms m n w = group ms m n v := by
  unfold group
  induction ms with
  | nil => rfl
  | cons p ms ih =>
    rw [List.findIdx?_cons, List.findIdx?_cons, hs p List.mem_cons_self m n w v h, ih fun q hq => hs q (List.mem_cons_of_mem _ hq)]

/-- Masks that are made for some parameters are made for all parameters of the same names and shapes. -/
theorem Fits.alike {ms : List (Predicate K × K)} {a b : Structure (Leaf K)} {masks : List (Structure (Leaf K))} (hs : ShapeOnly ms) (ha : IsDict a) (hb : IsDict b) (hab : Alike a b) (hf : Fits ms a masks) : Fits ms b masks := by
  refine ⟨hf.count, hf.dict, fun j M hM m n => ?_, fun m n w y hw hy => ?_⟩
  · rw [hf.keys j M hM m n]
    constructor
    · rintro ⟨v, hv, hg⟩
      obtain ⟨w, hw, hsw⟩ := hab.1 m n v hv
      exact ⟨w, hw, by rw [group_shape hs m n hsw]; exact hg⟩
    · rintro ⟨w, hw, hg⟩
      obtain ⟨v, hv, hsw⟩ := hab.2 m n w hw
      exact ⟨v, hv, by rw [← group_shape hs m n hsw]; exact hg⟩
  · obtain ⟨v, hv, hsw⟩ := hab.2 m n w hw
    rw [hsw]
    refine hf.shape m n v y hv ?_
    obtain ⟨j, M, hg, hM, hy⟩ := hy
    exact ⟨j, M, by rw [← group_shape hs m n hsw]; exact hg, hM, hy⟩

theorem fits_mask {ms : List (Predicate K × K)} {params : Structure (Leaf K)} {masks : List (Structure (Leaf K))} (hf : Fits ms params masks) {m n : Str} {v : Leaf K} {j : Nat} (hv : Entry params m n v)
    (hj : group ms m n v = some j) : ∃ y, MaskOf ms masks m n v y := by
  have h1 : j < masks.length := by
    rw [hf.count]
    unfold group at hj
    exact (List.findIdx?_eq_some_iff_findIdx_eq.mp hj).1
  obtain ⟨y, hy⟩ := (hf.keys j _ (List.getElem?_eq_getElem h1) m n).mpr ⟨v, hv, hj⟩
  exact ⟨y, j, _, hj, List.getElem?_eq_getElem h1, hy⟩

/-- C145: applying the same masks again changes nothing. -/
theorem apply_idempotent {params : Structure (Leaf K)} {masks : List (Structure (Leaf K))} {ms : List (Predicate K × K)} (hs : ShapeOnly ms) (h : IsDict params) (hf : Fits ms params masks) :
    ∃ once twice, applyMask params masks ms = .ok once ∧ applyMask once masks ms = .ok twice ∧ AgreeAll once twice := by
  obtain ⟨once, ho, hod, hoa, hon, hom⟩ := apply_masks h hf
  obtain ⟨twice, ht, htd, hta, htn, htm⟩ := apply_masks hod (hf.alike hs h hod hoa)
  have key : ∀ m n w x, Entry once m n w → Entry twice m n x → Agree w x := by
    intro m n w x hw hx
    obtain ⟨v, hv, hvw⟩ := hoa.2 m n w hw
    cases hg : group ms m n v with
    | none =>
      have := htn m n w hw (by rw [group_shape hs m n hvw]; exact hg)
      rw [entry_unique htd hx this]
      exact ⟨rfl, fun _ _ => rfl⟩
    | some j =>
      obtain ⟨y, hy⟩ := fits_mask hf hv hg
      have h1 := hom m n v w y hv hw hy
      have hy' : MaskOf ms masks m n w y := by
        obtain ⟨j, M, hg, hM, hyM⟩ := hy
        exact ⟨j, M, by rw [group_shape hs m n hvw]; exact hg, hM, hyM⟩
      have h2 := htm m n w x y hw hx hy'
      refine ⟨h2.1.symm, fun i hi => ?_⟩
      rw [h2.2 i hi]
      rw [hvw] at hi
      rcases (hf.shape m n v y hv hy).2 i hi with e | e
      · rw [h1.2 i hi, e, mul_zero, mul_zero]
      · rw [e, mul_one]
  refine ⟨once, twice, ho, ht, fun m n w hw => ?_, fun m n x hx => ?_⟩
  · obtain ⟨x, hx, _⟩ := hta.1 m n w hw
    exact ⟨x, hx, key m n w x hw hx⟩
  · obtain ⟨w, hw, _⟩ := hta.2 m n x hx
    exact ⟨w, hw, key m n w x hw hx⟩

end

/-! ### Making masks -/

section
variable {K : Type} [Field K] [LinearOrder K] [IsStrictOrderedRing K] [FloorRing K]

theorem updateMask_get {argsort : List K → List Nat} {shuffle : Nat → List Nat} {params : Structure (Leaf K)} {fraction : K} {ms : List (Predicate K × K)} (j : Nat) :
    (updateMask argsort shuffle params fraction ms)[j]? = ((createPartitions ms params).1[j]?).bind fun P => (ms[j]?).map fun p => treeMap (mapFn argsort shuffle fraction p.2) P := by
  unfold updateMask
  dsimp only
  rw [List.getElem?_map, parts_levels]
  cases h1 : (createPartitions ms params).1[j]? with
  | none =>
    have : ((createPartitions ms params).1.zip (ms.map Prod.snd))[j]? = none := by
      rw [List.getElem?_eq_none_iff] at h1 ⊢
      rw [List.length_zip]
      omega
    rw [this]
    rfl
  | some P =>
    cases h2 : ms[j]? with
    | none =>
      have : ((createPartitions ms params).1.zip (ms.map Prod.snd))[j]? = none := by
        rw [List.getElem?_eq_none_iff] at h2 ⊢
        rw [List.length_zip, List.length_map]
        omega
      rw [this]
      rfl
    | some p =>
      have : ((createPartitions ms params).1.zip (ms.map Prod.snd))[j]? = some (P, p.2) := List.getElem?_zip_eq_some.mpr ⟨h1, by rw [List.getElem?_map, h2]; rfl⟩
      rw [this]
      rfl

theorem entry_treeMap {β γ : Type} (f : β → γ) {a : Structure β} (h : IsDict a) (m n : Str) (w : γ) : Entry (treeMap f a) m n w ↔ ∃ v, Entry a m n v ∧ f v = w := by
  rw [entry_iff (treeMap_dict f h), treeMap_get, Option.map_eq_some_iff]
  simp only [entry_iff h]

/-- The mask of a parameter. -/
theorem maskOf_update {argsort : List K → List Nat} {shuffle : Nat → List Nat} {params : Structure (Leaf K)} {fraction : K} {ms : List (Predicate K × K)} (h : IsDict params) {m n : Str} {v y : Leaf K}
    (hv : Entry params m n v) : MaskOf ms (updateMask argsort shuffle params fraction ms) m n v y ↔ ∃ j p, group ms m n v = some j ∧ ms[j]? = some p ∧ y = mapFn argsort shuffle fraction p.2 v := by
  constructor
  · rintro ⟨j, M, hg, hM, hy⟩
    rw [updateMask_get] at hM
    cases hP : (createPartitions ms params).1[j]? with
    | none => rw [hP] at hM; cases hM
    | some P =>
      cases hp : ms[j]? with
      | none => rw [hP, hp] at hM; cases hM
      | some p =>
        rw [hP, hp] at hM
        cases Option.some.inj hM
        obtain ⟨v', hv', rfl⟩ := (entry_treeMap _ ((parts_dicts ms h).1 P (List.mem_of_getElem? hP)).1 m n y).mp hy
        have := ((parts_entries ms h m n v').1 j P hP).mp hv'
        rw [entry_unique h this.1 hv]
        exact ⟨j, p, hg, hp, rfl⟩
  · rintro ⟨j, p, hg, hp, rfl⟩
    have hl : j < (createPartitions ms params).1.length := by
      rw [parts_length]
      exact (List.getElem?_eq_some_iff.mp hp).1
    have hP := List.getElem?_eq_getElem hl
    refine ⟨j, _, hg, by rw [updateMask_get, hP, hp]; rfl, ?_⟩
    exact (entry_treeMap _ ((parts_dicts ms h).1 _ (List.getElem_mem hl)).1 m n _).mpr ⟨v, ((parts_entries ms h m n v).1 j _ hP).mpr ⟨hv, hg⟩, rfl⟩

/-- C145: the masks of `update_mask` are made for the parameters. -/
theorem update_fits {argsort : List K → List Nat} {shuffle : Nat → List Nat} (ha : Sorts argsort) (hs : Shuffles shuffle) {params : Structure (Leaf K)} (fraction : K) (ms : List (Predicate K × K)) (h : IsDict params) :
    Fits ms params (updateMask argsort shuffle params fraction ms) := by
  have shape : ∀ M, ∀ j : Nat, (updateMask argsort shuffle params fraction ms)[j]? = some M → ∃ P, ∃ p : Predicate K × K, (createPartitions ms params).1[j]? = some P ∧ ms[j]? = some p ∧ M = treeMap (mapFn argsort shuffle fraction p.2) P := by
    intro M j hM
    rw [updateMask_get] at hM
    cases hP : (createPartitions ms params).1[j]? with
    | none => rw [hP] at hM; cases hM
    | some P =>
      cases hp : ms[j]? with
      | none => rw [hP, hp] at hM; cases hM
      | some p =>
        rw [hP, hp] at hM
        exact ⟨P, p, rfl, rfl, (Option.some.inj hM).symm⟩
  refine ⟨?_, fun M hM => ?_, fun j M hM m n => ?_, fun m n v y hv hy => ?_⟩
  · unfold updateMask
    dsimp only
    rw [List.length_map, List.length_zip, parts_levels, parts_length, List.length_map, min_self]
  · obtain ⟨j, hM⟩ := List.mem_iff_getElem?.mp hM
    obtain ⟨P, p, hP, hp, rfl⟩ := shape M j hM
    have hd := (parts_dicts ms h).1 P (List.mem_of_getElem? hP)
    refine ⟨treeMap_dict _ hd.1, fun q hq => ?_⟩
    obtain ⟨r, hr, rfl⟩ := List.mem_map.mp hq
    have := hd.2 r hr
    show List.map _ r.2 ≠ []
    intro e
    exact this (List.map_eq_nil_iff.mp e)
  · obtain ⟨P, p, hP, hp, rfl⟩ := shape M j hM
    have hd := (parts_dicts ms h).1 P (List.mem_of_getElem? hP)
    constructor
    · rintro ⟨y, hy⟩
      obtain ⟨v, hv, _⟩ := (entry_treeMap _ hd.1 m n y).mp hy
      exact ⟨v, ((parts_entries ms h m n v).1 j P hP).mp hv⟩
    · rintro ⟨v, hv⟩
      exact ⟨_, (entry_treeMap _ hd.1 m n _).mpr ⟨v, ((parts_entries ms h m n v).1 j P hP).mpr hv, rfl⟩⟩
  · obtain ⟨j, p, _, _, rfl⟩ := (maskOf_update h hv).mp hy
    exact ⟨rfl, fun i hi => (topk_binary ha hs _ _).2 i hi⟩

/-- C145: making masks for the parameters and applying them prunes each parameter with a predicate: of `n` elements the `(1 - sparsity * fraction) * n` largest in absolute value are kept, up to rounding, and
the others are set to zero.  The other parameters stay. -/
theorem update_prunes {argsort : List K → List Nat} {shuffle : Nat → List Nat} (ha : Sorts argsort) (hs : Shuffles shuffle) {params : Structure (Leaf K)} (fraction : K) (ms : List (Predicate K × K)) (h : IsDict params) :
    ∃ out, applyMask params (updateMask argsort shuffle params fraction ms) ms = .ok out ∧ IsDict out ∧ Alike params out ∧
      (∀ m n v, Entry params m n v → group ms m n v = none → Entry out m n v) ∧
      ∀ m n v w j predicate sparsity k, Entry params m n v → Entry out m n w → group ms m n v = some j → ms[j]? = some (predicate, sparsity) →
        Nearest ((1 - sparsity * fraction) * size v.shape) k → Pruned v w k := by
  obtain ⟨out, hok, hd, hal, hn, hmul⟩ := apply_masks h (update_fits ha hs fraction ms h)
  refine ⟨out, hok, hd, hal, hn, fun m n v w j predicate sparsity k hv hw hg hj hk => ?_⟩
  have hy : MaskOf ms (updateMask argsort shuffle params fraction ms) m n v (mapFn argsort shuffle fraction sparsity v) := (maskOf_update h hv).mpr ⟨j, _, hg, hj, rfl⟩
  obtain ⟨h1, h2⟩ := hmul m n v w _ hv hw hy
  let x : Leaf K := ⟨v.shape, fun i => max (v.val i) (-v.val i)⟩
  have hm : mapFn argsort shuffle fraction sparsity v = topkMask argsort shuffle x (1 - sparsity * fraction) := rfl
  rw [hm] at h2
  have hb := (topk_binary ha hs x (1 - sparsity * fraction)).2
  have hc := topk_count ha hs x (1 - sparsity * fraction) k hk
  let S := ((indices v.shape).filter fun i => decide ((topkMask argsort shuffle x (1 - sparsity * fraction)).val i = 1)).toFinset
  have hS : ∀ i, i ∈ S ↔ Valid v.shape i ∧ (topkMask argsort shuffle x (1 - sparsity * fraction)).val i = 1 := by
    intro i
    show i ∈ List.toFinset _ ↔ _
    rw [List.mem_toFinset, List.mem_filter, mem_indices, decide_eq_true_eq]
  refine ⟨S, fun i hi => ((hS i).mp hi).1, ?_, h1, fun i hi => ?_, fun i hi hni => ?_, fun i hi j hj hnj => ?_⟩
  · show (List.toFinset _).card = _
    rw [List.toFinset_card_of_nodup ((Nd.nodup_indices _).filter _)]
    exact hc
  · obtain ⟨hi, e⟩ := (hS i).mp hi
    rw [h2 i hi, e, mul_one]
  · rcases hb i hi with e | e
    · rw [h2 i hi, e, mul_zero]
    · exact absurd ((hS i).mpr ⟨hi, e⟩) hni
  · obtain ⟨hi, e⟩ := (hS i).mp hi
    rcases hb j hj with e' | e'
    · exact topk_largest ha hs x _ hi hj e e'
    · exact absurd ((hS j).mpr ⟨hj, e'⟩) hnj

/-- C145: at the fraction 0 nothing is pruned. -/
theorem fraction_zero {argsort : List K → List Nat} {shuffle : Nat → List Nat} (ha : Sorts argsort) (hs : Shuffles shuffle) {params : Structure (Leaf K)} (ms : List (Predicate K × K)) (h : IsDict params) :
    ∃ out, applyMask params (updateMask argsort shuffle params 0 ms) ms = .ok out ∧ AgreeAll params out := by
  obtain ⟨out, hok, hd, hal, hn, hmul⟩ := apply_masks h (update_fits ha hs 0 ms h)
  have key : ∀ m n v w, Entry params m n v → Entry out m n w → Agree v w := by
    intro m n v w hv hw
    cases hg : group ms m n v with
    | none =>
      rw [entry_unique hd hw (hn m n v hv hg)]
      exact ⟨rfl, fun _ _ => rfl⟩
    | some j =>
      have hj : j < ms.length := by
        unfold group at hg
        exact (List.findIdx?_eq_some_iff_findIdx_eq.mp hg).1
      have hy : MaskOf ms (updateMask argsort shuffle params 0 ms) m n v (mapFn argsort shuffle 0 (ms[j]).2 v) := (maskOf_update h hv).mpr ⟨j, _, hg, List.getElem?_eq_getElem hj, rfl⟩
      obtain ⟨h1, h2⟩ := hmul m n v w _ hv hw hy
      refine ⟨h1.symm, fun i hi => ?_⟩
      rw [h2 i hi]
      unfold mapFn
      rw [mul_zero, sub_zero, topk_all ha hs ⟨v.shape, fun i => max (v.val i) (-v.val i)⟩ hi, mul_one]
  refine ⟨out, hok, fun m n v hv => ?_, fun m n w hw => ?_⟩
  · obtain ⟨w, hw, _⟩ := hal.1 m n v hv
    exact ⟨w, hw, key m n v w hv hw⟩
  · obtain ⟨v, hv, _⟩ := hal.2 m n w hw
    exact ⟨v, hv, key m n v w hv hw⟩

/-! ### Counting zeros -/

theorem indices_length (s : List Nat) : (indices s).length = size s := by
  rw [indices_unravel, List.length_map, List.length_range]

theorem zeros_flat (v : Leaf K) : (flat v).countP (fun x => decide (x = 0)) = zeros v := by
  rw [flat_indices, List.countP_map, List.countP_eq_length_filter]
  rfl

/-- C145: the report of `get_sparsity`: the first number counts all elements, the second those that are not zero, and for each parameter there is the number of its zeros divided by its size. -/
theorem sparsity_report {params : Structure (Leaf K)} (h : IsDict params) :
    (getSparsity params).1 = (getSparsity params).2.1 + ((params.flatMap fun p => p.2.map fun q => zeros q.2).sum) ∧
      (getSparsity params).1 = (params.flatMap fun p => p.2.map fun q => size q.2.shape).sum ∧
      ∀ m n r, Entry (getSparsity params).2.2 m n r ↔ ∃ v, Entry params m n v ∧ r = (zeros v : K) / (size v.shape : K) := by
  have e : ∀ {γ : Type} (g : Leaf K → γ), (leaves params).map g = params.flatMap fun p => p.2.map fun q => g q.2 := by
    intro γ g
    unfold leaves
    rw [List.map_flatMap]
    simp only [List.map_map]
    rfl
  refine ⟨?_, ?_, fun m n r => ?_⟩
  · show ((leaves params).map fun x => size x.shape).sum = ((leaves params).map fun x => (flat x).countP fun v => decide (v ≠ 0)).sum + _
    rw [← e fun v => zeros v]
    generalize leaves params = l
    induction l with
    | nil => rfl
    | cons v l ih =>
      have hz := zeros_flat v
      have hl := List.length_eq_countP_add_countP (fun x : K => decide (x = 0)) (l := flat v)
      rw [flat_length, hz] at hl
      have hne : (flat v).countP (fun x => decide (x ≠ 0)) = (flat v).countP (fun x => decide ¬(decide (x = 0) = true)) := by
        congr 1
        funext x
        by_cases hx : x = 0 <;> simp [hx]
      simp only [List.map_cons, List.sum_cons]
      rw [ih, hne]
      omega
  · show ((leaves params).map fun x => size x.shape).sum = _
    rw [← e fun v => size v.shape]
  · unfold getSparsity
    dsimp only
    rw [entry_treeMap _ h]
    refine exists_congr fun v => and_congr_right fun _ => ?_
    rw [zeros_flat]
    exact eq_comm

/-- C145: an array that is pruned to `k` elements has at least as many zeros as that asks for. -/
theorem pruned_zeros {v w : Leaf K} {k : Int} (h : Pruned v w k) : size w.shape - min k.toNat (size v.shape) ≤ zeros w := by
  obtain ⟨S, hS, hc, hsh, _, h0, _⟩ := h
  rw [hsh]
  have h1 : ((indices v.shape).filter fun i => decide (i ∉ S)).length ≤ zeros w := by
    unfold zeros
    rw [hsh, ← List.countP_eq_length_filter, ← List.countP_eq_length_filter]
    refine List.countP_mono_left fun i hi hn => ?_
    rw [decide_eq_true_eq] at hn ⊢
    exact h0 i (mem_indices.mp hi) hn
  have h2 : ((indices v.shape).filter fun i => decide (i ∈ S)).length ≤ S.card := by
    rw [← List.toFinset_card_of_nodup ((Nd.nodup_indices _).filter _)]
    refine Finset.card_le_card fun i hi => ?_
    rw [List.mem_toFinset, List.mem_filter, decide_eq_true_eq] at hi
    exact hi.2
  have h3 := List.length_eq_countP_add_countP (fun i => decide (i ∈ S)) (l := indices v.shape)
  rw [indices_length, List.countP_eq_length_filter, List.countP_eq_length_filter] at h3
  have h4 : (fun i => decide ¬(decide (i ∈ S) = true)) = fun i => decide (i ∉ S) := by
    funext i
    by_cases hi : i ∈ S <;> simp [hi]
  rw [h4] at h3
  omega

end

/-! ### The predicates of `main` -/

section
variable {K : Type}

theorem isIn_iff (a : Str) : ∀ b : Str, isIn a b = true ↔ ∃ p s, b = p ++ a ++ s
  | [] => by
    show a.isPrefixOf [] = true ↔ _
    rw [List.isPrefixOf_iff_prefix]
    constructor
    · rintro ⟨t, h⟩; exact ⟨[], t, by simpa using h.symm⟩
    · rintro ⟨p, t, h⟩
      have h := h.symm
      simp only [List.append_eq_nil_iff] at h
      rw [h.1.2]
  | c :: b => by
    show (a.isPrefixOf (c :: b) || isIn a b) = true ↔ _
    rw [Bool.or_eq_true, List.isPrefixOf_iff_prefix, isIn_iff a b]
    constructor
    · rintro (⟨t, h⟩ | ⟨p, t, h⟩)
      · exact ⟨[], t, by simpa using h.symm⟩
      · exact ⟨c :: p, t, by rw [h]; simp⟩
    · rintro ⟨p, t, h⟩
      cases p with
      | nil => exact .inl ⟨t, by simpa using h.symm⟩
      | cons d p =>
        rw [List.append_assoc, List.cons_append, List.cons.injEq] at h
        exact .inr ⟨p, t, by rw [h.2, List.append_assoc]⟩

/-- C145: which parameters `main` prunes: those of modules whose name ends with the given one, except biases, vectors and the parameters of batch normalisation. -/
theorem matching_iff (s m n : Str) (v : Leaf K) : moduleMatching s m n v = true ↔
    (∃ p, m = p ++ s) ∧ n ≠ "b".toList ∧ v.shape.length ≠ 1 ∧ (¬∃ p t, m = p ++ "batchnorm".toList ++ t) ∧ ¬∃ p t, m = p ++ "batch_norm".toList ++ t := by
  have e1 : "b".toList = ['b'] := by decide
  have e2 : "batchnorm".toList = ['b', 'a', 't', 'c', 'h', 'n', 'o', 'r', 'm'] := by decide
  have e3 : "batch_norm".toList = ['b', 'a', 't', 'c', 'h', '_', 'n', 'o', 'r', 'm'] := by decide
  rw [e1, e2, e3, ← isIn_iff, ← isIn_iff]
  unfold moduleMatching sparsityIgnore
  rw [Bool.and_eq_true, List.isSuffixOf_iff_suffix]
  generalize isIn ['b', 'a', 't', 'c', 'h', 'n', 'o', 'r', 'm'] m = x
  generalize isIn ['b', 'a', 't', 'c', 'h', '_', 'n', 'o', 'r', 'm'] m = y
  have : s <:+ m ↔ ∃ p, m = p ++ s := ⟨fun ⟨p, h⟩ => ⟨p, h.symm⟩, fun ⟨p, h⟩ => ⟨p, h.symm⟩⟩
  rw [this]
  cases x <;> cases y <;> simp

/-- C145: the predicates of `main` look at names and shapes only. -/
theorem matching_shape (l : List (Str × K)) : ShapeOnly (l.map fun p => (moduleMatching p.1, p.2)) := by
  intro p hp m n v w h
  obtain ⟨q, _, rfl⟩ := List.mem_map.mp hp
  show moduleMatching q.1 m n v = moduleMatching q.1 m n w
  unfold moduleMatching sparsityIgnore
  rw [h]

end

/-! ### Examples -/

/-- The sparsities of `main`, for smaller matrices. -/
def demoSparsity : List (Predicate ℚ × ℚ) := [("linear".toList, (1 / 2 : ℚ)), ("linear_1".toList, 1 / 3)].map fun p => (moduleMatching p.1, p.2)

/-- Parameters of a network with two layers. -/
def demoParams : Structure (Leaf ℚ) :=
  [("linear".toList, [("w".toList, weights), ("b".toList, ⟨[3], fun _ => 7⟩)]), ("linear_1".toList, [("w".toList, weights)]), ("linear_2".toList, [("w".toList, weights)])]

theorem demo_dict : IsDict demoParams := by
  unfold IsDict demoParams
  decide

theorem demo_entry : Entry demoParams "linear".toList "w".toList weights := ⟨_, List.mem_cons_self, List.mem_cons_self⟩

example : group demoSparsity "linear".toList "w".toList weights = some 0 ∧ group demoSparsity "linear_1".toList "w".toList weights = some 1 ∧
    group demoSparsity "linear_2".toList "w".toList weights = none ∧ group demoSparsity "linear".toList "b".toList ⟨[3], fun _ => 7⟩ = none := by decide +kernel

-- At half of the way a quarter of the six weights of the first layer is pruned: 4.5 are to be kept, which is rounded to 4.
example : ∃ out, applyMask demoParams (updateMask stableArgsort backwards demoParams (1 / 2) demoSparsity) demoSparsity = .ok out ∧
    ∀ w, Entry out "linear".toList "w".toList w → Pruned weights w 4 := by
  obtain ⟨out, h1, _, _, _, h2⟩ := update_prunes stable_sorts backwards_shuffles (1 / 2) demoSparsity demo_dict
  exact ⟨out, h1, fun w hw => h2 _ _ weights w 0 _ (1 / 2) 4 demo_entry hw (by decide +kernel) rfl (by unfold Nearest weights; norm_num [size])⟩

example : ∃ once twice, applyMask demoParams (updateMask stableArgsort backwards demoParams 1 demoSparsity) demoSparsity = .ok once ∧
    applyMask once (updateMask stableArgsort backwards demoParams 1 demoSparsity) demoSparsity = .ok twice ∧ AgreeAll once twice :=
  apply_idempotent (matching_shape _) demo_dict (update_fits stable_sorts backwards_shuffles 1 demoSparsity demo_dict)

example : (getSparsity demoParams).1 = 21 ∧ (getSparsity demoParams).2.1 = 21 := by decide +kernel

-- With one mask instead of two the second layer is lost.
example : ∀ out, applyMask demoParams [(createPartitions demoSparsity demoParams).1.headD []] demoSparsity = .ok out → ∀ w, ¬Entry out "linear_1".toList "w".toList w := by
  intro out h
  refine missing_mask_drops (v := weights) (j := 1) demo_dict (fun M hM => ?_) h ⟨_, .tail _ (.head _), List.mem_cons_self⟩ (by decide +kernel) (le_refl 1)
  rw [List.mem_singleton.mp hM]
  exact ((parts_dicts demoSparsity demo_dict).1 _ (List.mem_cons_self)).1

end Verif.Props.Pruning
