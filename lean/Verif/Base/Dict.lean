/-!
# Python dictionaries

`dict` (and `collections.defaultdict`, `collections.Counter`) are modelled as association lists in insertion
order.  `set` overwrites in place or appends, as `d[k] = v` does in CPython.
This file is the data representation used by every model in `Verif/Model`; it models the built-in type that
`/repo/haiku/_src/base.py` 180-189 (`collections.defaultdict(dict)`) relies on, and no Haiku function.
-/

namespace Verif

/-- A Python `dict` in insertion order (used e.g. for `frame.params`, `/repo/haiku/_src/base.py` 57-58). -/
abbrev Dict (κ ν : Type) := List (κ × ν)

namespace Dict

variable {κ ν μ : Type} [DecidableEq κ]

/-- `d.get(k)`; used at `/repo/haiku/_src/base.py` 280, 703. -/
def get? : Dict κ ν → κ → Option ν
  | [], _ => none
  | (k', v) :: d, k => if k' = k then some v else get? d k

/-- `d[k] = v`; used at `/repo/haiku/_src/base.py` 292, 713, 757. -/
def set : Dict κ ν → κ → ν → Dict κ ν
  | [], k, v => [(k, v)]
  | (k', v') :: d, k, v => if k' = k then (k', v) :: d else (k', v') :: set d k v

/-- `k in d`; used at `/repo/haiku/_src/base.py` 273, 752. -/
def has (d : Dict κ ν) (k : κ) : Bool := (d.get? k).isSome

/-- `d.keys()` as a list in iteration order; used at `/repo/haiku/_src/base.py` 786-793. -/
def keys (d : Dict κ ν) : List κ := d.map Prod.fst

/-- `d[k]` on a `defaultdict` with default `v` / `d.setdefault(k, v)`: inserts the default when `k` is absent;
used at `/repo/haiku/_src/base.py` 279, 699, 751 and `/repo/haiku/_src/stateful.py` 49. -/
def setDefault (d : Dict κ ν) (k : κ) (v : ν) : Dict κ ν :=
  match d.get? k with
  | some _ => d
  | none => d.set k v

/-- Python's `a == b` on dicts: same lookups, regardless of order (`/repo/haiku/_src/data_structures.py` 185). -/
def Equiv (a b : Dict κ ν) : Prop := ∀ k, a.get? k = b.get? k

@[simp] theorem get?_nil (k : κ) : get? ([] : Dict κ ν) k = none := rfl

theorem get?_cons (k' : κ) (v : ν) (d : Dict κ ν) (k : κ) :
    get? ((k', v) :: d) k = if k' = k then some v else get? d k := rfl

@[simp] theorem get?_set_self (d : Dict κ ν) (k : κ) (v : ν) : (d.set k v).get? k = some v := by
  induction d with
  | nil => simp [set, get?]
  | cons p d ih =>
    obtain ⟨k', v'⟩ := p
    by_cases h : k' = k <;> simp [set, get?, h, ih]

theorem get?_set_ne (d : Dict κ ν) {k j : κ} (v : ν) (h : k ≠ j) : (d.set k v).get? j = d.get? j := by
  induction d with
  | nil => simp [set, get?, h]
  | cons p d ih =>
    obtain ⟨k', v'⟩ := p
    by_cases hk : k' = k
    · subst hk; simp [set, get?, h]
    · simp [set, get?, hk, ih]

theorem get?_set (d : Dict κ ν) (k j : κ) (v : ν) :
    (d.set k v).get? j = if k = j then some v else d.get? j := by
  by_cases h : k = j
  · subst h; simp
  · simp [h, get?_set_ne]

theorem get?_append (a b : Dict κ ν) (k : κ) : get? (a ++ b) k = (get? a k).or (get? b k) := by
  induction a with
  | nil => simp
  | cons p a ih =>
    obtain ⟨k', v⟩ := p
    by_cases h : k' = k <;> simp [get?_cons, h, ih]

theorem mem_keys_iff (d : Dict κ ν) (k : κ) : k ∈ d.keys ↔ (d.get? k).isSome := by
  induction d with
  | nil => simp [keys]
  | cons p d ih =>
    obtain ⟨k', v⟩ := p
    by_cases h : k' = k
    · subst h; simp [keys, get?]
    · have h' : k ≠ k' := fun e => h e.symm
      simp only [keys, List.map_cons, List.mem_cons, h', false_or, get?_cons, h, if_false]
      exact ih

theorem get?_eq_none_iff (d : Dict κ ν) (k : κ) : d.get? k = none ↔ k ∉ d.keys := by
  rw [mem_keys_iff]; cases d.get? k <;> simp

theorem has_iff (d : Dict κ ν) (k : κ) : d.has k = true ↔ k ∈ d.keys := by
  rw [mem_keys_iff]; rfl

/-- Keys after an assignment: unchanged if present, appended at the end otherwise. -/
theorem keys_set (d : Dict κ ν) (k : κ) (v : ν) :
    (d.set k v).keys = if k ∈ d.keys then d.keys else d.keys ++ [k] := by
  induction d with
  | nil => simp [set, keys]
  | cons p d ih =>
    obtain ⟨k', v'⟩ := p
    by_cases h : k' = k
    · subst h; simp [set, keys]
    · have h' : k ≠ k' := fun e => h e.symm
      simp only [set, h, if_false, keys, List.map_cons, List.mem_cons, h', false_or]
      simp only [keys] at ih
      rw [ih]
      by_cases hm : k ∈ List.map Prod.fst d <;> simp [hm]

theorem keys_prefix_set (d : Dict κ ν) (k : κ) (v : ν) : d.keys <+: (d.set k v).keys := by
  rw [keys_set]; split
  · exact List.prefix_refl _
  · exact List.prefix_append _ _

theorem nodup_set {d : Dict κ ν} (h : d.keys.Nodup) (k : κ) (v : ν) : (d.set k v).keys.Nodup := by
  rw [keys_set]; split
  · exact h
  · rename_i hk
    rw [List.nodup_append]
    refine ⟨h, by simp, ?_⟩
    intro a ha b hb
    simp only [List.mem_singleton] at hb
    subst hb; exact fun e => hk (e ▸ ha)

theorem setDefault_of_some {d : Dict κ ν} {k : κ} {v w : ν} (h : d.get? k = some w) : d.setDefault k v = d := by
  simp [setDefault, h]

theorem setDefault_of_none {d : Dict κ ν} {k : κ} {v : ν} (h : d.get? k = none) :
    d.setDefault k v = d.set k v := by
  simp [setDefault, h]

theorem get?_setDefault (d : Dict κ ν) (k j : κ) (v : ν) :
    (d.setDefault k v).get? j = if k = j then some ((d.get? k).getD v) else d.get? j := by
  unfold setDefault
  cases h : d.get? k with
  | some w =>
    by_cases e : k = j
    · subst e; simp [h]
    · simp [e]
  | none => simp [get?_set]

theorem keys_prefix_setDefault (d : Dict κ ν) (k : κ) (v : ν) : d.keys <+: (d.setDefault k v).keys := by
  unfold setDefault; split
  · exact List.prefix_refl _
  · exact keys_prefix_set _ _ _

theorem nodup_setDefault {d : Dict κ ν} (h : d.keys.Nodup) (k : κ) (v : ν) : (d.setDefault k v).keys.Nodup := by
  unfold setDefault; split
  · exact h
  · exact nodup_set h _ _

/-- Two dicts with the same key order, no duplicate keys and the same lookups are the same list. -/
theorem ext_of_keys {a b : Dict κ ν} (hk : a.keys = b.keys) (hn : a.keys.Nodup)
    (hl : ∀ k, a.get? k = b.get? k) : a = b := by
  induction a generalizing b with
  | nil =>
    cases b with
    | nil => rfl
    | cons q b => simp [keys] at hk
  | cons p a ih =>
    cases b with
    | nil => simp [keys] at hk
    | cons q b =>
      obtain ⟨k, v⟩ := p
      obtain ⟨k', v'⟩ := q
      simp only [keys, List.map_cons, List.cons.injEq] at hk
      obtain ⟨rfl, hk⟩ := hk
      simp only [keys, List.map_cons, List.nodup_cons] at hn
      have h1 := hl k
      simp [get?_cons] at h1
      subst h1
      congr 1
      refine ih hk hn.2 fun j => ?_
      have := hl j
      simp only [get?_cons] at this
      by_cases e : k = j
      · subst e
        have ha : get? a k = none := (get?_eq_none_iff a k).2 hn.1
        have hb : get? b k = none := (get?_eq_none_iff b k).2 (by simpa [keys, ← hk] using hn.1)
        rw [ha, hb]
      · simpa [e] using this

theorem mem_of_get? {d : Dict κ ν} {k : κ} {v : ν} (h : d.get? k = some v) : (k, v) ∈ d := by
  induction d with
  | nil => simp at h
  | cons p d ih =>
    obtain ⟨k', v'⟩ := p
    by_cases e : k' = k
    · subst e; simp [get?_cons] at h; simp [h]
    · simp [get?_cons, e] at h; exact List.mem_cons_of_mem _ (ih h)

theorem get?_of_mem {d : Dict κ ν} {k : κ} {v : ν} (hn : d.keys.Nodup) (h : (k, v) ∈ d) : d.get? k = some v := by
  induction d with
  | nil => simp at h
  | cons p d ih =>
    obtain ⟨k', v'⟩ := p
    simp only [keys, List.map_cons, List.nodup_cons] at hn
    rcases List.mem_cons.1 h with e | e
    · cases e; simp [get?_cons]
    · have : k' ≠ k := by
        rintro rfl
        exact hn.1 (List.mem_map_of_mem e)
      simp [get?_cons, this]
      exact ih hn.2 e

/-- `{k: f(k, v) for k, v in d.items()}`: a dict comprehension keeping the keys. -/
def mapVals (f : κ → ν → μ) (d : Dict κ ν) : Dict κ μ := d.map fun p => (p.1, f p.1 p.2)

theorem get?_mapVals (f : κ → ν → μ) (d : Dict κ ν) (k : κ) : (mapVals f d).get? k = (d.get? k).map (f k) := by
  induction d with
  | nil => simp [mapVals]
  | cons p d ih =>
    obtain ⟨k', v⟩ := p
    by_cases h : k' = k
    · subst h; simp [mapVals, get?]
    · simp only [mapVals, List.map_cons, get?_cons, h, if_false]; exact ih

omit [DecidableEq κ] in
@[simp] theorem keys_mapVals (f : κ → ν → μ) (d : Dict κ ν) : (mapVals f d).keys = d.keys := by
  simp [mapVals, keys]

/-- `dict(items)`: later entries win (the dict comprehension at `/repo/haiku/_src/base.py` 186-187, `to_immutable_dict`,
`/repo/haiku/_src/data_structures.py` 98-108).  The identity on lists without repeated keys. -/
def ofItems (l : List (κ × ν)) : Dict κ ν := l.foldl (fun d p => d.set p.1 p.2) []

theorem set_append {d : Dict κ ν} {k : κ} {v : ν} (h : k ∉ d.keys) : d.set k v = d ++ [(k, v)] := by
  induction d with
  | nil => rfl
  | cons p d ih =>
    obtain ⟨k', v'⟩ := p
    simp only [keys, List.map_cons, List.mem_cons, not_or] at h
    have h1 : k' ≠ k := fun e => h.1 e.symm
    simp only [set, h1, if_false, List.cons_append]
    rw [ih h.2]

theorem foldl_set_append {l : List (κ × ν)} {d : Dict κ ν} (h : (d.keys ++ l.map Prod.fst).Nodup) :
    l.foldl (fun d p => d.set p.1 p.2) d = d ++ l := by
  induction l generalizing d with
  | nil => simp
  | cons p l ih =>
    have hk : p.1 ∉ d.keys := by
      rw [List.nodup_append] at h
      intro hm
      exact h.2.2 _ hm _ (by simp) rfl
    simp only [List.foldl_cons]
    rw [set_append hk, ih]
    · simp
    · simpa [keys] using h

theorem ofItems_of_nodup {l : List (κ × ν)} (h : (l.map Prod.fst).Nodup) : ofItems l = l := by
  have := foldl_set_append (d := ([] : Dict κ ν)) (l := l) (by simpa [keys] using h)
  simpa [ofItems] using this

theorem nodup_foldl_set {l : List (κ × ν)} {d : Dict κ ν} (h : d.keys.Nodup) :
    (l.foldl (fun d p => d.set p.1 p.2) d).keys.Nodup := by
  induction l generalizing d with
  | nil => exact h
  | cons p l ih => exact ih (nodup_set h _ _)

theorem nodup_ofItems (l : List (κ × ν)) : (ofItems l).keys.Nodup := nodup_foldl_set (by simp [keys])

theorem mem_foldl_set {l : List (κ × ν)} {d : Dict κ ν} {p : κ × ν} (h : p ∈ l.foldl (fun d p => d.set p.1 p.2) d) : p ∈ d ∨ p ∈ l := by
  induction l generalizing d with
  | nil => exact Or.inl h
  | cons q l ih =>
    rcases ih h with h | h
    · have : ∀ (d : Dict κ ν), p ∈ d.set q.1 q.2 → p ∈ d ∨ p = q := by
        intro d
        induction d with
        | nil => intro h; right; simpa [set] using h
        | cons r d ih =>
          intro h
          simp only [set] at h
          split at h
          · rename_i e
            rcases List.mem_cons.1 h with h | h
            · right; rw [h, e]
            · left; exact List.mem_cons_of_mem _ h
          · rcases List.mem_cons.1 h with h | h
            · left; rw [h]; exact List.mem_cons_self
            · rcases ih h with h | h
              · left; exact List.mem_cons_of_mem _ h
              · right; exact h
      rcases this d h with h | h
      · exact Or.inl h
      · right; rw [h]; exact List.mem_cons_self
    · exact Or.inr (List.mem_cons_of_mem _ h)

theorem mem_ofItems {l : List (κ × ν)} {p : κ × ν} (h : p ∈ ofItems l) : p ∈ l := by
  rcases mem_foldl_set h with h | h
  · simp at h
  · exact h

end Dict
end Verif

/-- Decidable equality of results (only used to check concrete examples). -/
instance instDecidableEqExcept {ε α : Type} [DecidableEq ε] [DecidableEq α] : DecidableEq (Except ε α)
  | .error a, .error b => if h : a = b then isTrue (by rw [h]) else isFalse (fun e => h (by cases e; rfl))
  | .ok a, .ok b => if h : a = b then isTrue (by rw [h]) else isFalse (fun e => h (by cases e; rfl))
  | .error _, .ok _ => isFalse nofun
  | .ok _, .error _ => isFalse nofun
