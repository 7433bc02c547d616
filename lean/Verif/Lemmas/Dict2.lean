import Verif.Model.Frame
import Mathlib.Tactic.Tauto

/-!
# Two-level dictionaries

Extension order on the parameter and state dictionaries, and `update ∘ difference`.
-/

namespace Verif
open Frame

variable {β γ : Type}

/-- No repeated key on either level. -/
def WF2 (d : Dict Str (Dict Str β)) : Prop := d.keys.Nodup ∧ ∀ b i, d.get? b = some i → i.keys.Nodup

/-- `d'` has the keys of `d`, in the same order, and possibly further ones after them, on both levels. -/
def Ext2 (d : Dict Str (Dict Str β)) (d' : Dict Str (Dict Str γ)) : Prop :=
  d.keys <+: d'.keys ∧ ∀ b i, d.get? b = some i → ∃ i', d'.get? b = some i' ∧ i.keys <+: i'.keys

theorem Ext2.refl (d : Dict Str (Dict Str β)) : Ext2 d d := ⟨List.prefix_refl _, fun _ i h => ⟨i, h, List.prefix_refl _⟩⟩

theorem Ext2.trans {a b c : Dict Str (Dict Str β)} (h : Ext2 a b) (k : Ext2 b c) : Ext2 a c := by
  refine ⟨h.1.trans k.1, fun n i hi => ?_⟩
  obtain ⟨i', h1, h2⟩ := h.2 n i hi
  obtain ⟨i'', h3, h4⟩ := k.2 n i' h1
  exact ⟨i'', h3, h2.trans h4⟩

theorem WF2.nil : WF2 ([] : Dict Str (Dict Str β)) := ⟨by simp [Dict.keys], by simp⟩

theorem WF2.set {d : Dict Str (Dict Str β)} (h : WF2 d) (b : Str) {i : Dict Str β} (hi : i.keys.Nodup) : WF2 (d.set b i) := by
  refine ⟨Dict.nodup_set h.1 _ _, fun b' i' h' => ?_⟩
  rw [Dict.get?_set] at h'
  split at h'
  · cases h'; exact hi
  · exact h.2 _ _ h'

theorem Ext2.set (d : Dict Str (Dict Str β)) (b : Str) {i : Dict Str β} (hi : ((d.get? b).getD []).keys <+: i.keys) : Ext2 d (d.set b i) := by
  refine ⟨Dict.keys_prefix_set _ _ _, fun b' i' h' => ?_⟩
  rw [Dict.get?_set]
  split
  · rename_i e
    subst e
    rw [h'] at hi
    exact ⟨i, rfl, hi⟩
  · exact ⟨i', h', List.prefix_refl _⟩

theorem WF2.inner {d : Dict Str (Dict Str β)} (h : WF2 d) (b : Str) : ((d.get? b).getD []).keys.Nodup := by
  cases hb : d.get? b with
  | none => simp [Dict.keys]
  | some i => exact h.2 b i hb

theorem WF2.setDefault {d : Dict Str (Dict Str β)} (h : WF2 d) (b : Str) : WF2 (d.setDefault b []) := by
  unfold Dict.setDefault
  split
  · exact h
  · exact h.set b (by simp [Dict.keys])

theorem Ext2.setDefault (d : Dict Str (Dict Str β)) (b : Str) : Ext2 d (d.setDefault b []) := by
  unfold Dict.setDefault
  split
  · exact Ext2.refl d
  · rename_i hb
    exact Ext2.set d b (by rw [hb]; exact List.prefix_refl _)

theorem WF2.store2 {d : Dict Str (Dict Str β)} (h : WF2 d) (b n : Str) (v : β) : WF2 (store2 d b n v) :=
  h.set b (Dict.nodup_set (h.inner b) _ _)

theorem Ext2.store2 (d : Dict Str (Dict Str β)) (b n : Str) (v : β) : Ext2 d (Frame.store2 d b n v) :=
  Ext2.set d b (Dict.keys_prefix_set _ _ _)

theorem lookup2_store2 (d : Dict Str (Dict Str β)) (b n : Str) (v : β) (b' n' : Str) :
    lookup2 (store2 d b n v) b' n' = if b = b' ∧ n = n' then some v else lookup2 d b' n' := by
  unfold lookup2 store2
  rw [Dict.get?_set]
  by_cases h : b = b'
  · subst h
    simp only [if_true, Option.bind_some, Dict.get?_set, true_and]
    split
    · rfl
    · cases d.get? b <;> simp
  · simp [h]

/-! ### `dict2` -/

theorem WF2.dict2 (l : List (Str × List (Str × β))) : WF2 (Frame.dict2 l) := by
  refine ⟨Dict.nodup_ofItems _, fun b i h => ?_⟩
  have := Dict.mem_ofItems (Dict.mem_of_get? h)
  rw [List.mem_map] at this
  obtain ⟨p, -, hp⟩ := this
  have : i = Dict.ofItems p.2 := by cases hp; rfl
  rw [this]
  exact Dict.nodup_ofItems _

theorem WF2.mem {d : Dict Str (Dict Str β)} (h : WF2 d) {p : Str × Dict Str β} (hp : p ∈ d) : p.2.keys.Nodup :=
  h.2 p.1 p.2 (Dict.get?_of_mem h.1 hp)

theorem dict2_of_wf {d : Dict Str (Dict Str β)} (h : WF2 d) : Frame.dict2 d = d := by
  unfold Frame.dict2
  have : (d.map fun p => (p.1, Dict.ofItems p.2)) = d := by
    refine (List.map_congr_left (g := id) fun p hp => ?_).trans (List.map_id d)
    rw [Dict.ofItems_of_nodup (h.mem hp)]
    rfl
  rw [this]
  exact Dict.ofItems_of_nodup h.1

theorem WF2.mapVals {d : Dict Str (Dict Str β)} (h : WF2 d) (f : Str → Str → β → γ) :
    WF2 (d.mapVals fun b i => i.mapVals fun n v => f b n v) := by
  refine ⟨by rw [Dict.keys_mapVals]; exact h.1, fun b i hi => ?_⟩
  rw [Dict.get?_mapVals] at hi
  cases hb : d.get? b with
  | none => rw [hb] at hi; simp at hi
  | some j =>
    rw [hb] at hi
    simp only [Option.map_some, Option.some.injEq] at hi
    rw [← hi, Dict.keys_mapVals]
    exact h.2 b j hb

theorem lookup2_mapVals (d : Dict Str (Dict Str β)) (f : Str → Str → β → γ) (b n : Str) :
    lookup2 (d.mapVals fun b i => i.mapVals fun n v => f b n v) b n = (lookup2 d b n).map (f b n) := by
  unfold lookup2
  rw [Dict.get?_mapVals]
  cases d.get? b with
  | none => rfl
  | some i => simp [Dict.get?_mapVals]

/-! ### `pack_into_dict` -/

theorem packIntoDict_props (pfx : Str) : ∀ (src dst : PDict), (∀ p ∈ src, p.2.keys.Nodup) →
    (WF2 dst → WF2 (packIntoDict pfx src dst).2) ∧ Ext2 dst (packIntoDict pfx src dst).2 := by
  intro src
  induction src with
  | nil => intro dst _; exact ⟨id, Ext2.refl _⟩
  | cons p src ih =>
    intro dst h
    obtain ⟨k, v⟩ := p
    unfold packIntoDict
    dsimp only
    split
    · exact ⟨id, Ext2.refl _⟩
    · rename_i hk
      have hg : dst.get? (fqName pfx k) = none := by
        cases hx : dst.get? (fqName pfx k) with
        | none => rfl
        | some i => exact absurd (by rw [Dict.has_iff, Dict.mem_keys_iff, hx]; rfl) hk
      obtain ⟨h1, h2⟩ := ih (dst.set (fqName pfx k) v) fun q hq => h q (List.mem_cons_of_mem _ hq)
      exact ⟨fun hw => h1 (hw.set _ (h _ List.mem_cons_self)),
        (Ext2.set dst _ (by rw [hg]; simp [Dict.keys])).trans h2⟩

/-- Packing never changes an existing entry. -/
theorem packIntoDict_get? (pfx : Str) : ∀ (src dst : PDict) (b : Str) (i : Dict Str Arr), dst.get? b = some i →
    (packIntoDict pfx src dst).2.get? b = some i := by
  intro src
  induction src with
  | nil => intro dst b i h; exact h
  | cons p src ih =>
    intro dst b i h
    obtain ⟨k, v⟩ := p
    unfold packIntoDict
    dsimp only
    split
    · exact h
    · rename_i hk
      refine ih _ b i ?_
      rw [Dict.get?_set]
      split
      · rename_i e
        exact absurd (by rw [e, Dict.has_iff, Dict.mem_keys_iff, h]; rfl) hk
      · exact h

/-! ### `update_recursive` -/

/-- `update_recursive` on one bundle. -/
def updInner (i : Dict Str β) (items : Dict Str (Option β)) : Dict Str β :=
  items.foldl (fun i q => match q.2 with
    | some v => i.set q.1 v
    | none => i) i

theorem Dict.set_get_self {κ ν : Type} [DecidableEq κ] {d : Dict κ ν} {k : κ} {v : ν} (h : d.get? k = some v) : d.set k v = d := by
  induction d with
  | nil => simp at h
  | cons p d ih =>
    obtain ⟨k', v'⟩ := p
    simp only [Dict.get?_cons] at h
    simp only [Dict.set]
    split
    · rename_i e; rw [if_pos e] at h; cases h; rfl
    · rename_i e; rw [if_neg e] at h; rw [ih h]

theorem Dict.set_set {κ ν : Type} [DecidableEq κ] (d : Dict κ ν) (k : κ) (v w : ν) : (d.set k v).set k w = d.set k w := by
  induction d with
  | nil => simp [Dict.set]
  | cons p d ih =>
    obtain ⟨k', v'⟩ := p
    simp only [Dict.set]
    split
    · rename_i e; simp [Dict.set, e]
    · rename_i e; simp [Dict.set, e, ih]

theorem foldl_store2 (b : Str) (items : Dict Str (Option β)) : ∀ (d : Dict Str (Dict Str β)) (i : Dict Str β), d.get? b = some i →
    items.foldl (fun dst q => match q.2 with
      | some v => store2 dst b q.1 v
      | none => dst) d = d.set b (updInner i items) := by
  induction items with
  | nil => intro d i h; exact (Dict.set_get_self h).symm
  | cons q items ih =>
    intro d i h
    obtain ⟨n, v⟩ := q
    cases v with
    | none => exact ih d i h
    | some v =>
      simp only [List.foldl_cons]
      have : (store2 d b n v).get? b = some (i.set n v) := by simp [store2, h]
      rw [ih _ _ this]
      simp only [store2, h, Option.getD_some, Dict.set_set]
      rfl

theorem updateRecursive_eq (dst : Dict Str (Dict Str β)) (src : Dict Str (Dict Str (Option β))) :
    updateRecursive dst src = src.foldl (fun d p => d.set p.1 (updInner ((d.get? p.1).getD []) p.2)) dst := by
  unfold updateRecursive
  congr 1
  funext d p
  dsimp only
  have hg : (d.setDefault p.1 []).get? p.1 = some ((d.get? p.1).getD []) := by rw [Dict.get?_setDefault]; simp
  refine (foldl_store2 p.1 p.2 _ _ hg).trans ?_
  unfold Dict.setDefault
  cases d.get? p.1 with
  | some w => rfl
  | none => simp [Dict.set_set]

theorem keys_updInner (items : Dict Str (Option β)) : ∀ i : Dict Str β, i.keys <+: (updInner i items).keys ∧
    (i.keys.Nodup → (updInner i items).keys.Nodup) := by
  induction items with
  | nil => intro i; exact ⟨List.prefix_refl _, id⟩
  | cons q items ih =>
    intro i
    obtain ⟨n, v⟩ := q
    cases v with
    | none => exact ih i
    | some v =>
      obtain ⟨h1, h2⟩ := ih (i.set n v)
      exact ⟨(Dict.keys_prefix_set _ _ _).trans h1, fun h => h2 (Dict.nodup_set h _ _)⟩

theorem updateRecursive_props (src : Dict Str (Dict Str (Option β))) : ∀ dst : Dict Str (Dict Str β),
    (WF2 dst → WF2 (updateRecursive dst src)) ∧ Ext2 dst (updateRecursive dst src) := by
  simp only [updateRecursive_eq]
  induction src with
  | nil => intro dst; exact ⟨id, Ext2.refl _⟩
  | cons p src ih =>
    intro dst
    obtain ⟨h1, h2⟩ := ih (dst.set p.1 (updInner ((dst.get? p.1).getD []) p.2))
    exact ⟨fun h => h1 (h.set _ ((keys_updInner _ _).2 (h.inner _))), (Ext2.set dst _ (keys_updInner _ _).1).trans h2⟩

/-- Lookup after `updInner`, for items without repeated keys. -/
theorem get?_updInner (items : Dict Str (Option β)) (hn : items.keys.Nodup) : ∀ (i : Dict Str β) (n : Str),
    (updInner i items).get? n = ((items.get? n).getD none).or (i.get? n) := by
  induction items with
  | nil => intro i n; simp [updInner]
  | cons q items ih =>
    intro i n
    obtain ⟨m, v⟩ := q
    simp only [Dict.keys, List.map_cons, List.nodup_cons] at hn
    have ih := ih hn.2
    rw [Dict.get?_cons]
    by_cases e : m = n
    · subst e
      have hm : Dict.get? items m = none := (Dict.get?_eq_none_iff _ _).2 hn.1
      cases v with
      | none =>
        show (updInner i items).get? m = _
        rw [ih, hm]; simp
      | some v =>
        show (updInner (i.set m v) items).get? m = _
        rw [ih, hm]; simp
    · cases v with
      | none =>
        show (updInner i items).get? n = _
        rw [ih]; simp [e]
      | some v =>
        show (updInner (i.set m v) items).get? n = _
        rw [ih]; simp [e, Dict.get?_set_ne _ _ e]

theorem keys_updInner_eq (items : Dict Str (Option β)) (hn : items.keys.Nodup) : ∀ (i : Dict Str β),
    (∀ n, items.get? n = some none → n ∈ i.keys) →
    (updInner i items).keys = i.keys ++ items.keys.filter fun n => !i.keys.contains n := by
  induction items with
  | nil => intro i _; simp [updInner, Dict.keys]
  | cons q items ih =>
    intro i h
    obtain ⟨m, v⟩ := q
    simp only [Dict.keys, List.map_cons, List.nodup_cons] at hn
    have hm : Dict.get? items m = none := (Dict.get?_eq_none_iff _ _).2 hn.1
    have hrest : ∀ n, Dict.get? items n = some none → n ∈ i.keys := by
      intro n hn'
      refine h n ?_
      rw [Dict.get?_cons]
      have : m ≠ n := by rintro rfl; rw [hm] at hn'; cases hn'
      simpa [this] using hn'
    cases v with
    | none =>
      have := h m (by simp [Dict.get?_cons])
      show (updInner i items).keys = _
      rw [ih hn.2 i hrest]
      simp only [Dict.keys, List.map_cons, List.filter_cons]
      have h2 : (List.map Prod.fst i).contains m = true := by simpa [Dict.keys] using this
      rw [h2]; simp
    | some v =>
      show (updInner (i.set m v) items).keys = _
      rw [ih hn.2 (i.set m v) fun n hn' => (Dict.keys_prefix_set i m v).subset (hrest n hn')]
      simp only [Dict.keys, List.map_cons, List.filter_cons]
      by_cases hmi : m ∈ i.keys
      · have e : List.map Prod.fst (i.set m v) = List.map Prod.fst i := (Dict.keys_set _ _ _).trans (if_pos hmi)
        have : (List.map Prod.fst i).contains m = true := by simpa [Dict.keys] using hmi
        rw [e, this]; simp
      · have e : List.map Prod.fst (i.set m v) = List.map Prod.fst i ++ [m] := (Dict.keys_set _ _ _).trans (if_neg hmi)
        have : (List.map Prod.fst i).contains m = false := by simpa [Dict.keys] using hmi
        rw [e, this]
        simp only [List.append_assoc, List.singleton_append, Bool.not_false, if_true]
        congr 2
        apply List.filter_congr
        intro x hx
        have hxm : x ≠ m := by rintro rfl; exact hn.1 hx
        simp [hxm]

theorem prefix_filter {a b : List Str} (h : a <+: b) (hn : b.Nodup) :
    a ++ b.filter (fun x => !a.contains x) = b := by
  obtain ⟨c, rfl⟩ := h
  rw [List.nodup_append] at hn
  rw [List.filter_append]
  have h1 : a.filter (fun x => !a.contains x) = [] := by
    rw [List.filter_eq_nil_iff]; intro x hx; simp [hx]
  have h2 : c.filter (fun x => !a.contains x) = c := by
    rw [List.filter_eq_self]
    intro x hx
    have : x ∉ a := fun hxa => hn.2.2 x hxa x hx rfl
    simp [this]
  rw [h1, h2]; rfl

theorem updInner_diff {i i' : Dict Str β} {items : Dict Str (Option β)} (hp : i.keys <+: i'.keys) (hn : i'.keys.Nodup)
    (hk : items.keys = i'.keys) (hitems : ∀ n v, i'.get? n = some v → items.get? n = some (some v) ∨
      (items.get? n = some none ∧ i.get? n = some v)) : updInner i items = i' := by
  have hin : items.keys.Nodup := by rw [hk]; exact hn
  have hkeys : (updInner i items).keys = i'.keys := by
    rw [keys_updInner_eq items hin]
    · rw [hk]; exact prefix_filter hp hn
    · intro n h
      have : n ∈ i'.keys := by rw [← hk, Dict.mem_keys_iff, h]; rfl
      rw [Dict.mem_keys_iff] at this
      cases hv : i'.get? n with
      | none => rw [hv] at this; simp at this
      | some v =>
        rcases hitems n v hv with h1 | ⟨h1, h2⟩
        · rw [h] at h1; cases h1
        · rw [Dict.mem_keys_iff, h2]; rfl
  refine Dict.ext_of_keys hkeys (by rw [hkeys]; exact hn) fun n => ?_
  rw [get?_updInner items hin]
  cases hv : i'.get? n with
  | none =>
    have h1 : items.get? n = none := by rw [Dict.get?_eq_none_iff, hk, ← Dict.get?_eq_none_iff]; exact hv
    have h2 : i.get? n = none := by
      rw [Dict.get?_eq_none_iff]
      intro hc
      rw [Dict.get?_eq_none_iff] at hv
      exact hv (hp.subset hc)
    rw [h1, h2]; rfl
  | some v =>
    rcases hitems n v hv with h1 | ⟨h1, h2⟩
    · rw [h1]; rfl
    · rw [h1, h2]; rfl

theorem get?_foldl_upd (src : Dict Str (Dict Str (Option β))) (hn : src.keys.Nodup) : ∀ (d : Dict Str (Dict Str β)) (b : Str),
    (src.foldl (fun d p => d.set p.1 (updInner ((d.get? p.1).getD []) p.2)) d).get? b =
      match src.get? b with
      | some items => some (updInner ((d.get? b).getD []) items)
      | none => d.get? b := by
  induction src with
  | nil => intro d b; rfl
  | cons p src ih =>
    intro d b
    obtain ⟨c, items⟩ := p
    simp only [Dict.keys, List.map_cons, List.nodup_cons] at hn
    simp only [List.foldl_cons]
    rw [ih hn.2, Dict.get?_cons]
    by_cases e : c = b
    · subst e
      have : Dict.get? src c = none := (Dict.get?_eq_none_iff _ _).2 hn.1
      rw [this]; simp
    · simp only [e, if_false]
      rw [Dict.get?_set_ne _ _ e]

theorem keys_foldl_upd (src : Dict Str (Dict Str (Option β))) (hn : src.keys.Nodup) : ∀ (d : Dict Str (Dict Str β)),
    (src.foldl (fun d p => d.set p.1 (updInner ((d.get? p.1).getD []) p.2)) d).keys =
      d.keys ++ src.keys.filter fun n => !d.keys.contains n := by
  induction src with
  | nil => intro d; simp [Dict.keys]
  | cons p src ih =>
    intro d
    obtain ⟨c, items⟩ := p
    simp only [Dict.keys, List.map_cons, List.nodup_cons] at hn
    simp only [List.foldl_cons]
    rw [ih hn.2]
    simp only [Dict.keys, List.map_cons, List.filter_cons]
    by_cases hmi : c ∈ d.keys
    · have e : ∀ v, List.map Prod.fst (d.set c v) = List.map Prod.fst d := fun v => (Dict.keys_set _ _ _).trans (if_pos hmi)
      have : (List.map Prod.fst d).contains c = true := by simpa [Dict.keys] using hmi
      rw [e, this]; simp
    · have e : ∀ v, List.map Prod.fst (d.set c v) = List.map Prod.fst d ++ [c] := fun v => (Dict.keys_set _ _ _).trans (if_neg hmi)
      have : (List.map Prod.fst d).contains c = false := by simpa [Dict.keys] using hmi
      rw [e, this]
      simp only [List.append_assoc, List.singleton_append, Bool.not_false, if_true]
      congr 2
      apply List.filter_congr
      intro x hx
      have hxm : x ≠ c := by rintro rfl; exact hn.1 hx
      simp [hxm]

/-- One bundle of `diff2`. -/
def diffInner (isNew : β → β → Bool) (d : Dict Str (Dict Str β)) (b : Str) (i : Dict Str β) : Dict Str (Option β) :=
  i.mapVals fun n v => match lookup2 d b n with
    | none => some v
    | some old => if isNew old v then some v else none

/-- `update_recursive(d, difference(d, d'))` is `d'`, when `d'` extends `d` and the identity test never calls different
values identical. -/
theorem updateRecursive_diff2 {isNew : β → β → Bool} (hs : ∀ a b, isNew a b = false → a = b) {d d' : Dict Str (Dict Str β)}
    (he : Ext2 d d') (hw : WF2 d') : updateRecursive d (diff2 isNew d d') = d' := by
  rw [updateRecursive_eq]
  have hdk : (diff2 isNew d d').keys = d'.keys := by simp [diff2, Dict.keys]
  have hsn : (diff2 isNew d d').keys.Nodup := by rw [hdk]; exact hw.1
  have hkeys : ((diff2 isNew d d').foldl (fun d p => d.set p.1 (updInner ((d.get? p.1).getD []) p.2)) d).keys = d'.keys := by
    rw [keys_foldl_upd _ hsn, hdk]; exact prefix_filter he.1 hw.1
  refine Dict.ext_of_keys hkeys (by rw [hkeys]; exact hw.1) fun b => ?_
  rw [get?_foldl_upd _ hsn]
  have hget : (diff2 isNew d d').get? b = (d'.get? b).map (diffInner isNew d b) := Dict.get?_mapVals (diffInner isNew d) d' b
  rw [hget]
  cases hb : d'.get? b with
  | none =>
    simp only [Option.map_none]
    rw [Dict.get?_eq_none_iff] at hb ⊢
    exact fun hc => hb (he.1.subset hc)
  | some i' =>
    simp only [Option.map_some, Option.some.injEq]
    have hni := hw.2 b i' hb
    refine updInner_diff ?_ hni ?_ ?_
    · cases hd : d.get? b with
      | none => simp [Dict.keys]
      | some i =>
        obtain ⟨i'', h1, h2⟩ := he.2 b i hd
        rw [hb] at h1; cases h1; exact h2
    · exact Dict.keys_mapVals _ _
    · intro n v hv
      have hg : (diffInner isNew d b i').get? n = (i'.get? n).map fun v => match lookup2 d b n with
          | none => some v
          | some old => if isNew old v then some v else none := Dict.get?_mapVals _ _ _
      have hl : lookup2 d b n = ((d.get? b).getD []).get? n := by
        unfold lookup2; cases d.get? b <;> simp
      rw [hv] at hg
      simp only [Option.map_some] at hg
      rw [hg]
      cases hold : lookup2 d b n with
      | none => left; rfl
      | some old =>
        dsimp only
        cases hnew : isNew old v with
        | true => left; rfl
        | false =>
          right
          refine ⟨rfl, ?_⟩
          rw [← hl, hold, hs _ _ hnew]

/-- Updating with all entries of `d'` gives `d'`, when `d'` extends `d`. -/
theorem updateRecursive_full {d d' : Dict Str (Dict Str β)} (he : Ext2 d d') (hw : WF2 d') :
    updateRecursive d (d'.mapVals fun _ b => b.mapVals fun _ v => some v) = d' := by
  have : (d'.mapVals fun _ b => b.mapVals fun _ v => some v) = diff2 (fun _ _ => true) d d' := by
    unfold diff2 Dict.mapVals
    refine List.map_congr_left fun p _ => ?_
    congr 1
    refine List.map_congr_left fun q _ => ?_
    congr 1
    cases lookup2 d p.1 q.1 <;> simp
  rw [this]
  exact updateRecursive_diff2 (fun _ _ h => by cases h) he hw

end Verif
