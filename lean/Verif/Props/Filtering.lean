import Verif.Model.Filtering
import Verif.Lemmas.Dict2

/-!
# Partition, filter, map, merge (C33)
-/

namespace Verif.Props.Filtering
open Verif Verif.Filtering Frame

variable {β γ : Type}

/-! ## Specification -/

/-- Python dictionaries: no key occurs twice, at either level. -/
def IsDict (d : Structure β) : Prop := (d.map Prod.fst).Nodup ∧ ∀ p ∈ d, (p.2.map Prod.fst).Nodup

/-- The structure has entry `v` under module `m` and name `n`. -/
def Entry (d : Structure β) (m n : Str) (v : β) : Prop := ∃ b, (m, b) ∈ d ∧ (n, v) ∈ b

/-! ## Loops over entries -/

/-- The assignments a loop makes, in order. -/
def assigns (f : Str → Str → β → Option γ) (d : Structure β) : List (Str × Str × γ) :=
  d.flatMap fun p => p.2.filterMap fun q => (f p.1 q.1 q.2).map fun v => (p.1, q.1, v)

theorem loop_eq (f : Str → Str → β → Option γ) (d : Structure β) : ∀ out : Structure γ,
    d.foldl (fun out p => p.2.foldl (fun out q => match f p.1 q.1 q.2 with | some v => store2 out p.1 q.1 v | none => out) out) out =
      (assigns f d).foldl (fun out x => store2 out x.1 x.2.1 x.2.2) out := by
  induction d with
  | nil => intro out; rfl
  | cons p d ih =>
    intro out
    rw [List.foldl_cons, ih, show assigns f (p :: d) = (p.2.filterMap fun q => (f p.1 q.1 q.2).map fun v => (p.1, q.1, v)) ++ assigns f d from rfl,
      List.foldl_append]
    congr 1
    generalize p.2 = b
    induction b generalizing out with
    | nil => rfl
    | cons q b ihb =>
      rw [List.foldl_cons, ihb]
      cases h : f p.1 q.1 q.2 <;> simp [h]

theorem lookup_foldl (l : List (Str × Str × γ)) : ∀ (out : Structure γ) (m n : Str),
    lookup2 (l.foldl (fun out x => store2 out x.1 x.2.1 x.2.2) out) m n =
      ((l.reverse.find? fun x => decide (x.1 = m ∧ x.2.1 = n)).map fun x => x.2.2).or (lookup2 out m n) := by
  induction l with
  | nil => intro out m n; simp
  | cons x l ih =>
    intro out m n
    rw [List.foldl_cons, ih, lookup2_store2, List.reverse_cons, List.find?_append]
    by_cases h : x.1 = m ∧ x.2.1 = n
    · cases List.find? _ l.reverse <;> simp [h]
    · cases List.find? _ l.reverse <;> simp [h]

theorem nodup_foldl (l : List (Str × Str × γ)) : ∀ (out : Structure γ), WF2 out → WF2 (l.foldl (fun out x => store2 out x.1 x.2.1 x.2.2) out) := by
  induction l with
  | nil => intro out h; exact h
  | cons x l ih => intro out h; exact ih _ (h.store2 _ _ _)

theorem wf2_iff {d : Structure β} : IsDict d ↔ WF2 d := by
  constructor
  · rintro ⟨h1, h2⟩
    exact ⟨h1, fun b i hb => h2 (b, i) (Dict.mem_of_get? hb)⟩
  · intro h
    exact ⟨h.1, fun p hp => h.mem hp⟩

theorem entry_iff {d : Structure β} (h : IsDict d) {m n : Str} {v : β} : Entry d m n v ↔ lookup2 d m n = some v := by
  constructor
  · rintro ⟨b, h1, h2⟩
    have e1 : d.get? m = some b := Dict.get?_of_mem h.1 h1
    have e2 : b.get? n = some v := Dict.get?_of_mem (h.2 _ h1) h2
    simp [lookup2, e1, e2]
  · intro e
    unfold lookup2 at e
    cases h1 : d.get? m with
    | none => simp [h1] at e
    | some b => exact ⟨b, Dict.mem_of_get? h1, Dict.mem_of_get? (by simpa [h1] using e)⟩

theorem mem_assigns {f : Str → Str → β → Option γ} {d : Structure β} {x : Str × Str × γ} :
    x ∈ assigns f d ↔ ∃ v, Entry d x.1 x.2.1 v ∧ f x.1 x.2.1 v = some x.2.2 := by
  obtain ⟨m, n, w⟩ := x
  simp only [assigns, List.mem_flatMap, List.mem_filterMap, Option.map_eq_some_iff, Prod.mk.injEq, Entry]
  constructor
  · rintro ⟨⟨m', b⟩, hp, ⟨n', v⟩, hq, w', hf, rfl, rfl, rfl⟩
    exact ⟨v, ⟨b, hp, hq⟩, hf⟩
  · rintro ⟨v, ⟨b, hp, hq⟩, hf⟩
    exact ⟨(m, b), hp, (n, v), hq, w, hf, rfl, rfl, rfl⟩

/-- A loop over a dictionary, started from an empty one. -/
theorem lookup_loop (f : Str → Str → β → Option γ) {d : Structure β} (h : IsDict d) (m n : Str) :
    lookup2 ((assigns f d).foldl (fun out x => store2 out x.1 x.2.1 x.2.2) []) m n = (lookup2 d m n).bind (f m n) := by
  rw [lookup_foldl]
  cases hf : List.find? (fun x : Str × Str × γ => decide (x.1 = m ∧ x.2.1 = n)) (assigns f d).reverse with
  | some x =>
    have h1 := List.mem_of_find?_eq_some hf
    have h2 := List.find?_some hf
    obtain ⟨m', n', w⟩ := x
    simp only [decide_eq_true_eq] at h2
    obtain ⟨rfl, rfl⟩ := h2
    rw [List.mem_reverse, mem_assigns] at h1
    obtain ⟨v, he, hv⟩ := h1
    rw [(entry_iff h).1 he]
    simp only at hv
    simp [hv]
  | none =>
    rw [List.find?_eq_none] at hf
    cases hl : lookup2 d m n with
    | none => simp [lookup2]
    | some v =>
      cases hv : f m n v with
      | none => simp [lookup2, hv]
      | some w =>
        have := hf (m, n, w) (by rw [List.mem_reverse, mem_assigns]; exact ⟨v, (entry_iff h).2 hl, hv⟩)
        simp at this

theorem filter_eq (predicate : Str → Str → β → Bool) (d : Structure β) :
    Filtering.filter predicate d = (assigns (fun m n v => if predicate m n v then some v else none) d).foldl (fun out x => store2 out x.1 x.2.1 x.2.2) [] := by
  rw [← loop_eq]
  unfold Filtering.filter
  congr 1
  funext out p
  congr 1
  funext out q
  cases predicate p.1 q.1 q.2 <;> rfl

theorem map_eq (fn : Str → Str → β → γ) (d : Structure β) :
    Filtering.map fn d = (assigns (fun m n v => some (fn m n v)) d).foldl (fun out x => store2 out x.1 x.2.1 x.2.2) [] := by
  rw [← loop_eq]
  rfl

theorem partition_eq (predicate : Str → Str → β → Bool) (d : Structure β) :
    partition predicate d = (Filtering.filter predicate d, Filtering.filter (fun m n v => !predicate m n v) d) := by
  have key : ∀ (d : Structure β) (a b : Structure β),
      d.foldl (fun out p => p.2.foldl (fun out q =>
        if predicate p.1 q.1 q.2 then (store2 out.1 p.1 q.1 q.2, out.2) else (out.1, store2 out.2 p.1 q.1 q.2)) out) (a, b) =
      (d.foldl (fun out p => p.2.foldl (fun out q => if predicate p.1 q.1 q.2 then store2 out p.1 q.1 q.2 else out) out) a,
       d.foldl (fun out p => p.2.foldl (fun out q => if !predicate p.1 q.1 q.2 then store2 out p.1 q.1 q.2 else out) out) b) := by
    intro d
    induction d with
    | nil => intro a b; rfl
    | cons p d ih =>
      intro a b
      simp only [List.foldl_cons]
      have inner : ∀ (c : Dict Str β) (a b : Structure β),
          c.foldl (fun out q => if predicate p.1 q.1 q.2 then (store2 out.1 p.1 q.1 q.2, out.2) else (out.1, store2 out.2 p.1 q.1 q.2)) (a, b) =
          (c.foldl (fun out q => if predicate p.1 q.1 q.2 then store2 out p.1 q.1 q.2 else out) a,
           c.foldl (fun out q => if !predicate p.1 q.1 q.2 then store2 out p.1 q.1 q.2 else out) b) := by
        intro c
        induction c with
        | nil => intro a b; rfl
        | cons q c ihc =>
          intro a b
          simp only [List.foldl_cons]
          cases predicate p.1 q.1 q.2 <;> simp [ihc]
      rw [inner, ih]
  exact key d [] []

theorem filter_isDict (predicate : Str → Str → β → Bool) (d : Structure β) : IsDict (Filtering.filter predicate d) := by
  rw [filter_eq, wf2_iff]; exact nodup_foldl _ _ WF2.nil

theorem map_isDict (fn : Str → Str → β → γ) (d : Structure β) : IsDict (Filtering.map fn d) := by
  rw [map_eq, wf2_iff]; exact nodup_foldl _ _ WF2.nil

/-! ## Theorems -/

/-- C33 `filter` keeps exactly the entries satisfying the predicate. -/
theorem filter_entries (predicate : Str → Str → β → Bool) {d : Structure β} (h : IsDict d) (m n : Str) (v : β) :
    Entry (Filtering.filter predicate d) m n v ↔ Entry d m n v ∧ predicate m n v = true := by
  rw [entry_iff (filter_isDict _ _), entry_iff h, filter_eq, lookup_loop _ h]
  cases lookup2 d m n with
  | none => simp
  | some w =>
    by_cases hp : predicate m n w = true
    · simp only [Option.bind_some, hp, if_true, Option.some.injEq]
      constructor
      · rintro rfl; exact ⟨rfl, hp⟩
      · exact fun h => h.1
    · simp only [Option.bind_some, hp]
      simp only [Bool.false_eq_true, if_false, reduceCtorEq, Option.some.injEq, false_iff, not_and]
      rintro rfl; exact hp

/-- C33 every entry is in exactly one half of `partition`, the first if it satisfies the predicate and the second otherwise, and the halves contain
nothing else. -/
theorem partition_entries (predicate : Str → Str → β → Bool) {d : Structure β} (h : IsDict d) (m n : Str) (v : β) :
    (Entry (partition predicate d).1 m n v ↔ Entry d m n v ∧ predicate m n v = true) ∧
    (Entry (partition predicate d).2 m n v ↔ Entry d m n v ∧ predicate m n v = false) := by
  rw [partition_eq]
  exact ⟨filter_entries predicate h m n v, by simpa using filter_entries (fun m n v => !predicate m n v) h m n v⟩

/-- C33 the halves are dictionaries again and hold no empty module. -/
theorem partition_dicts (predicate : Str → Str → β → Bool) (d : Structure β) :
    IsDict (partition predicate d).1 ∧ IsDict (partition predicate d).2 ∧
    ∀ p, p ∈ (partition predicate d).1 ∨ p ∈ (partition predicate d).2 → p.2 ≠ [] := by
  have ne : ∀ (l : List (Str × Str × β)) (out : Structure β), (∀ p ∈ out, p.2 ≠ []) →
      ∀ p ∈ l.foldl (fun out x => store2 out x.1 x.2.1 x.2.2) out, p.2 ≠ [] := by
    intro l
    induction l with
    | nil => intro out h; exact h
    | cons x l ih =>
      intro out h
      refine ih _ ?_
      intro p hp
      have : ∀ (o : Structure β) (b : Dict Str β), (∀ p ∈ o, p.2 ≠ []) → b ≠ [] → ∀ p ∈ o.set x.1 b, p.2 ≠ [] := by
        intro o b ho hb
        induction o with
        | nil => intro p hp; simp [Dict.set] at hp; subst hp; exact hb
        | cons q o iho =>
          intro p hp
          simp only [Dict.set] at hp
          split at hp
          · rcases List.mem_cons.1 hp with rfl | hp
            · exact hb
            · exact ho _ (List.mem_cons_of_mem _ hp)
          · rcases List.mem_cons.1 hp with rfl | hp
            · exact ho _ (by simp)
            · exact iho (fun p hp => ho p (List.mem_cons_of_mem _ hp)) p hp
      refine this out _ h ?_ p hp
      cases Dict.get? out x.1 with
      | none => simp [Dict.set]
      | some b => cases b with
        | nil => simp [Dict.set]
        | cons q b => simp only [Option.getD_some, Dict.set]; split <;> simp
  rw [partition_eq]
  refine ⟨filter_isDict predicate d, filter_isDict (fun m n v => !predicate m n v) d, fun p hp => ?_⟩
  rw [filter_eq, filter_eq] at hp
  rcases hp with hp | hp
  · exact ne _ [] (by simp) p hp
  · exact ne _ [] (by simp) p hp

/-- C33 `map` changes values only. -/
theorem map_entries (fn : Str → Str → β → γ) {d : Structure β} (h : IsDict d) (m n : Str) (w : γ) :
    Entry (Filtering.map fn d) m n w ↔ ∃ v, Entry d m n v ∧ fn m n v = w := by
  rw [entry_iff (map_isDict _ _), map_eq, lookup_loop _ h]
  simp only [entry_iff h]
  cases lookup2 d m n <;> simp

theorem merge_isDict (ds : List (Structure β)) : IsDict (merge ds) := by
  rw [wf2_iff]
  unfold merge
  have key : ∀ (ds : List (Structure β)) (out : Structure β), WF2 out →
      WF2 (ds.foldl (fun out s => s.foldl (fun out p => p.2.foldl (fun out q => store2 out p.1 q.1 q.2) out) out) out) := by
    intro ds
    induction ds with
    | nil => intro out h; exact h
    | cons d ds ih =>
      intro out h
      refine ih _ ?_
      show WF2 (d.foldl (fun out p => p.2.foldl (fun out q => match some q.2 with | some v => store2 out p.1 q.1 v | none => out) out) out)
      rw [loop_eq (fun _ _ v => some v)]
      exact nodup_foldl _ _ h
  exact key ds [] WF2.nil

theorem lookup_merge (ds : List (Structure β)) (h : ∀ d ∈ ds, IsDict d) (m n : Str) :
    lookup2 (merge ds) m n = ds.foldl (fun r d => (lookup2 d m n).or r) none := by
  unfold merge
  have key : ∀ (ds : List (Structure β)), (∀ d ∈ ds, IsDict d) → ∀ (out : Structure β),
      lookup2 (ds.foldl (fun out s => s.foldl (fun out p => p.2.foldl (fun out q => store2 out p.1 q.1 q.2) out) out) out) m n =
      ds.foldl (fun r d => (lookup2 d m n).or r) (lookup2 out m n) := by
    intro ds
    induction ds with
    | nil => intro _ out; rfl
    | cons d ds ih =>
      intro h out
      rw [List.foldl_cons, List.foldl_cons, ih fun d' hd => h d' (List.mem_cons_of_mem _ hd)]
      congr 1
      have e : d.foldl (fun out p => p.2.foldl (fun out q => store2 out p.1 q.1 q.2) out) out =
          (assigns (fun _ _ v => some v) d).foldl (fun out x => store2 out x.1 x.2.1 x.2.2) out := loop_eq (fun _ _ v => some v) d out
      rw [e, lookup_foldl]
      congr 1
      have := lookup_loop (fun _ _ v => some v) (h d (by simp)) m n
      rw [lookup_foldl] at this
      simpa [lookup2] using this
  exact key ds h []

/-- C33 `merge` has an entry exactly when some argument has one under that path, and the last such argument wins. -/
theorem merge_entries (before after : List (Structure β)) (d : Structure β) (hb : ∀ x ∈ before, IsDict x) (hd : IsDict d) (ha : ∀ x ∈ after, IsDict x)
    (m n : Str) (v : β) (hv : Entry d m n v) (hl : ∀ x ∈ after, ∀ w, ¬ Entry x m n w) : Entry (merge (before ++ d :: after)) m n v := by
  have hall : ∀ x ∈ before ++ d :: after, IsDict x := by
    intro x hx
    rcases List.mem_append.1 hx with h | h
    · exact hb x h
    · rcases List.mem_cons.1 h with rfl | h
      · exact hd
      · exact ha x h
  rw [entry_iff (merge_isDict _), lookup_merge _ hall, List.foldl_append, List.foldl_cons, (entry_iff hd).1 hv]
  generalize before.foldl _ _ = r
  simp only [Option.some_or]
  induction after with
  | nil => rfl
  | cons x xs ih =>
    have hx : lookup2 x m n = none := by
      cases h : lookup2 x m n with
      | none => rfl
      | some w => exact absurd ((entry_iff (ha x (by simp))).2 h) (hl x (by simp) w)
    rw [List.foldl_cons, hx, Option.none_or]
    exact ih (fun y hy => ha y (List.mem_cons_of_mem _ hy)) (fun y hy => hl y (List.mem_cons_of_mem _ hy))
      (fun y hy => hall y (by
        rcases List.mem_append.1 hy with h | h
        · exact List.mem_append_left _ h
        · rcases List.mem_cons.1 h with rfl | h
          · simp
          · simp [h]))

/-- C33 `merge` has no other entries: each comes from some argument. -/
theorem merge_only (ds : List (Structure β)) (h : ∀ d ∈ ds, IsDict d) (m n : Str) (v : β) (hv : Entry (merge ds) m n v) : ∃ d ∈ ds, Entry d m n v := by
  rw [entry_iff (merge_isDict _), lookup_merge _ h] at hv
  have key : ∀ (ds : List (Structure β)) (r : Option β), ds.foldl (fun r d => (lookup2 d m n).or r) r = some v →
      r = some v ∨ ∃ d ∈ ds, lookup2 d m n = some v := by
    intro ds
    induction ds with
    | nil => intro r h; exact .inl h
    | cons d ds ih =>
      intro r h
      rcases ih _ h with h | ⟨x, hx, h⟩
      · dsimp only at h
        cases hd : lookup2 d m n with
        | none => rw [hd, Option.none_or] at h; exact .inl h
        | some w => rw [hd, Option.some_or] at h; exact .inr ⟨d, by simp, by rw [hd, h]⟩
      · exact .inr ⟨x, List.mem_cons_of_mem _ hx, h⟩
  rcases key ds none hv with h' | ⟨d, hd, h'⟩
  · cases h'
  · exact ⟨d, hd, (entry_iff (h d hd)).2 h'⟩

/-- C33 merging the two halves of `partition`, in either order, restores exactly the entries of the input. -/
theorem merge_partition (predicate : Str → Str → β → Bool) {d : Structure β} (h : IsDict d) (m n : Str) (v : β) :
    (Entry (merge [(partition predicate d).1, (partition predicate d).2]) m n v ↔ Entry d m n v) ∧
    (Entry (merge [(partition predicate d).2, (partition predicate d).1]) m n v ↔ Entry d m n v) := by
  obtain ⟨h1, h2, _⟩ := partition_dicts predicate d
  have p := fun w => partition_entries predicate h m n w
  have uniq : ∀ w, Entry d m n v → Entry d m n w → w = v := fun w a b => by
    rw [entry_iff h] at a b; rw [a] at b; exact (Option.some.inj b).symm
  constructor
  · constructor
    · intro hm
      obtain ⟨x, hx, he⟩ := merge_only _ (by simp [h1, h2]) m n v hm
      simp only [List.mem_cons, List.not_mem_nil, or_false] at hx
      rcases hx with rfl | rfl
      · exact ((p v).1.1 he).1
      · exact ((p v).2.1 he).1
    · intro he
      cases hp : predicate m n v with
      | true =>
        refine merge_entries [] [_] _ (by simp) h1 (by simp [h2]) m n v ((p v).1.2 ⟨he, hp⟩) ?_
        intro x hx w hw
        simp only [List.mem_singleton] at hx
        subst hx
        obtain ⟨a, b⟩ := (p w).2.1 hw
        rw [uniq w he a, hp] at b; cases b
      | false => exact merge_entries [_] [] _ (by simp [h1]) h2 (by simp) m n v ((p v).2.2 ⟨he, hp⟩) (by simp)
  · constructor
    · intro hm
      obtain ⟨x, hx, he⟩ := merge_only _ (by simp [h1, h2]) m n v hm
      simp only [List.mem_cons, List.not_mem_nil, or_false] at hx
      rcases hx with rfl | rfl
      · exact ((p v).2.1 he).1
      · exact ((p v).1.1 he).1
    · intro he
      cases hp : predicate m n v with
      | false =>
        refine merge_entries [] [_] _ (by simp) h2 (by simp [h1]) m n v ((p v).2.2 ⟨he, hp⟩) ?_
        intro x hx w hw
        simp only [List.mem_singleton] at hx
        subst hx
        obtain ⟨a, b⟩ := (p w).1.1 hw
        rw [uniq w he a, hp] at b; cases b
      | true => exact merge_entries [_] [] _ (by simp [h2]) h1 (by simp) m n v ((p v).1.2 ⟨he, hp⟩) (by simp)

/-- Parameters of a two-layer network. -/
def sample : Structure Nat := [(['a'], [(['w'], 1), (['b'], 2)]), (['c'], [(['w'], 3)]), (['d'], [])]

example : IsDict sample ∧ Entry sample ['c'] ['w'] 3 ∧
    partition (fun _ n _ => n = ['w']) sample = ([(['a'], [(['w'], 1)]), (['c'], [(['w'], 3)])], [(['a'], [(['b'], 2)])]) ∧
    merge [[(['a'], [(['w'], 5)])], sample] = [(['a'], [(['w'], 1), (['b'], 2)]), (['c'], [(['w'], 3)])] := by
  refine ⟨by simp [IsDict, sample], ⟨[(['w'], 3)], by simp [sample], by simp⟩, by rfl, by rfl⟩

end Verif.Props.Filtering
