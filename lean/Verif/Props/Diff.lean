import Verif.Lemmas.FrameOps
import Verif.Lemmas.Dict2

/-!
# `difference` and `assert_no_new_parameters` (C30, C31)
-/

namespace Verif.Props.Diff
open Verif Frame

variable {β : Type}

/-! ### Specification vocabulary -/

/-- A test for changes that never misses one (it may report a change where there is none), like `is not` in Python. -/
def Sound (isNew : β → β → Bool) : Prop := ∀ a b, a ≠ b → isNew a b = true

/-- Every entry of `d` is also an entry of `d'`, possibly with another value. -/
def Within (d d' : Dict Str (Dict Str β)) : Prop := ∀ m n, (lookup2 d m n).isSome → (lookup2 d' m n).isSome

/-- The same entries with the same values. -/
def SameEntries (d d' : Dict Str (Dict Str β)) : Prop := ∀ m n, lookup2 d m n = lookup2 d' m n

/-! ### Lookups -/

theorem lookup_getD (d : Dict Str (Dict Str β)) (m n : Str) : ((d.get? m).getD []).get? n = lookup2 d m n := by
  unfold lookup2
  cases d.get? m <;> simp

theorem diff2_get? (isNew : β → β → Bool) (d d' : Dict Str (Dict Str β)) (m : Str) :
    (diff2 isNew d d').get? m = (d'.get? m).map (diffInner isNew d m) := Dict.get?_mapVals (diffInner isNew d) d' m

/-- What `difference` reports for an entry. -/
theorem lookup_diff2 (isNew : β → β → Bool) (d d' : Dict Str (Dict Str β)) (m n : Str) :
    lookup2 (diff2 isNew d d') m n = (lookup2 d' m n).map fun v => match lookup2 d m n with
      | none => some v
      | some old => if isNew old v then some v else none := by
  unfold lookup2
  rw [diff2_get?]
  cases d'.get? m with
  | none => rfl
  | some i => exact Dict.get?_mapVals _ _ _

theorem lookup_update {isNew : β → β → Bool} (hs : Sound isNew) (d : Dict Str (Dict Str β)) {d' : Dict Str (Dict Str β)} (hw : WF2 d')
    (m n : Str) : lookup2 (updateRecursive d (diff2 isNew d d')) m n = (lookup2 d' m n).or (lookup2 d m n) := by
  have hdk : (diff2 isNew d d').keys = d'.keys := by simp [diff2, Dict.keys]
  have hsn : (diff2 isNew d d').keys.Nodup := by rw [hdk]; exact hw.1
  rw [updateRecursive_eq]
  have hl := lookup_diff2 isNew d d' m n
  unfold lookup2 at hl ⊢
  rw [get?_foldl_upd _ hsn, diff2_get?]
  rw [diff2_get?] at hl
  cases hb : d'.get? m with
  | none => simp
  | some i' =>
    rw [hb] at hl
    simp only [Option.map_some, Option.bind_some] at hl ⊢
    have hin : (diffInner isNew d m i').keys.Nodup := by
      rw [show (diffInner isNew d m i').keys = i'.keys from Dict.keys_mapVals _ _]; exact hw.2 m i' hb
    rw [get?_updInner _ hin, hl, lookup_getD]
    cases hv : i'.get? n with
    | none => simp [lookup2]
    | some v =>
      simp only [Option.map_some, Option.some_or]
      change _ = some v
      cases ho : lookup2 d m n with
      | none => unfold lookup2 at ho; rw [ho]; rfl
      | some old =>
        have ho' := ho
        unfold lookup2 at ho'
        rw [ho']
        dsimp only
        cases hn : isNew old v with
        | true => rfl
        | false =>
          have : old = v := by
            by_cases e : old = v
            · exact e
            · rw [hs _ _ e] at hn; cases hn
          rw [this]; rfl

/-! ### C30 -/

/-- C30 applying the difference of `before` and `after` to a frame holding `before` makes it hold `after`: every parameter and state entry
and the RNG. -/
theorem difference_update {newP : Arr → Arr → Bool} {newS : StatePair → StatePair → Bool} {newR : (Key × List Key) → (Key × List Key) → Bool}
    (hP : Sound newP) (hS : Sound newS) (hR : Sound newR) (E : Env) (hE : E.frozen = false) (s : Loc) (after : IState) (p : PDict)
    (hp : after.params = some p) (wp : WF2 p) (ws : WF2 after.state) (ep : Within s.params p) (es : Within s.state after.state)
    (er : after.rng.isSome = s.rng.isSome) :
    ∃ s', updateInternalState (differenceWith newP newS newR ⟨some s.params, s.state, s.rng.map PRNGSeq.internalState, s.trace⟩ after) E s = (.ok (), s') ∧
      SameEntries s'.params p ∧ SameEntries s'.state after.state ∧ s'.rng.map PRNGSeq.internalState = after.rng := by
  rw [updateInternalState_eq]
  have key : ∀ {γ : Type} {isNew : γ → γ → Bool} {d d' : Dict Str (Dict Str γ)}, Sound isNew → WF2 d' → Within d d' →
      SameEntries (updateRecursive d (diff2 isNew d d')) d' := by
    intro γ isNew d d' h1 h2 h3 m n
    rw [lookup_update h1 d h2]
    cases h4 : lookup2 d' m n with
    | some v => rfl
    | none =>
      have := h3 m n
      rw [h4] at this
      cases h5 : lookup2 d m n with
      | none => rfl
      | some v => rw [h5] at this; simp at this
  obtain ⟨ap, as, ar, at'⟩ := after
  dsimp only at hp er ws es
  subst hp
  refine ⟨_, Prod.ext ?_ rfl, ?_, ?_, ?_⟩
  · obtain ⟨sp, ss, sr, sc, hh, lg, tr⟩ := s
    dsimp only at er
    cases sr <;> cases ar <;> simp [differenceWith] at er ⊢
  · simp only [hE, differenceWith, Option.map_some, Option.getD_some, Bool.false_eq_true, if_false]
    exact key hP wp ep
  · exact key hS ws es
  · obtain ⟨sp, ss, sr, sc, hh, lg, tr⟩ := s
    dsimp only at er
    cases sr with
    | none => cases ar with
      | none => rfl
      | some r => simp at er
    | some q => cases ar with
      | none => simp at er
      | some r =>
        simp only [differenceWith, Option.map_some]
        cases hn : newR q.internalState r with
        | true => rfl
        | false =>
          have : q.internalState = r := by
            by_cases e : q.internalState = r
            · exact e
            · rw [hR _ _ e] at hn; cases hn
          simp [this]

/-- C30 an entry that is new or has another value is always reported with its value after; an entry reported as unchanged has the
same value before and after. -/
theorem difference_reports {isNew : β → β → Bool} (hs : Sound isNew) (d d' : Dict Str (Dict Str β)) (m n : Str) (v : β)
    (hv : lookup2 d' m n = some v) :
    (lookup2 d m n ≠ some v → lookup2 (diff2 isNew d d') m n = some (some v)) ∧
    (lookup2 (diff2 isNew d d') m n = some none → lookup2 d m n = some v) := by
  rw [lookup_diff2, hv]
  simp only [Option.map_some]
  cases hd : lookup2 d m n with
  | none => simp
  | some old =>
    by_cases e : old = v
    · subst e; simp
    · simp [hs _ _ e, e]

/-- C30 a new or moved RNG is always reported with its state after; if no RNG is reported it is the same before and after. -/
theorem difference_reports_rng {newP : Arr → Arr → Bool} {newS : StatePair → StatePair → Bool} {newR : (Key × List Key) → (Key × List Key) → Bool} (hR : Sound newR)
    (a b : IState) (r : Key × List Key) (hr : b.rng = some r) :
    (a.rng ≠ some r → (differenceWith newP newS newR a b).rng = some r) ∧ ((differenceWith newP newS newR a b).rng = none → a.rng = some r) := by
  cases ha : a.rng with
  | none => simp [differenceWith, ha, hr]
  | some q =>
    by_cases hn : newR q r = true
    · simp [differenceWith, ha, hr, hn]
    · have : q = r := Classical.byContradiction fun h => hn (hR q r h)
      simp [differenceWith, ha, hr, this]

/-- The RNG of a context is new in `b`. -/
example : (difference ⟨none, [], none, []⟩ ⟨none, [], some (.root 1, []), []⟩).rng = some (.root 1, []) := rfl

/-- C30 with a frozen frame (apply) the parameters are left alone. -/
theorem update_frozen (d : Diff) (E : Env) (hE : E.frozen = true) (s : Loc) : (updateInternalState d E s).2.params = s.params := by
  rw [updateInternalState_eq]
  simp [hE]

/-- A module with one parameter. -/
def before : PDict := [("a".toList, [("w".toList, ⟨[], .f32, [1]⟩), ("b".toList, ⟨[], .f32, [2]⟩)])]

/-- The same in another order, one parameter changed, one added, one module added. -/
def after : PDict := [("z".toList, [("w".toList, ⟨[], .f32, [9]⟩)]),
  ("a".toList, [("b".toList, ⟨[], .f32, [3]⟩), ("w".toList, ⟨[], .f32, [1]⟩), ("c".toList, ⟨[], .f32, [4]⟩)])]

theorem ne_sound [DecidableEq β] : Sound (fun a b : β => decide (a ≠ b)) := fun _ _ h => by simpa using h

theorem within_iff (d d' : Dict Str (Dict Str β)) (h : ∀ x ∈ d.flatMap (fun p => p.2.map fun q => (p.1, q.1)), (lookup2 d' x.1 x.2).isSome) :
    Within d d' := by
  intro m n hl
  refine h (m, n) ?_
  unfold lookup2 at hl
  cases hm : d.get? m with
  | none => rw [hm] at hl; simp at hl
  | some i =>
    rw [hm] at hl
    simp only [Option.bind_some] at hl
    rw [← Dict.mem_keys_iff] at hl
    simp only [List.mem_flatMap, List.mem_map, Dict.keys] at hl ⊢
    obtain ⟨q, hq, rfl⟩ := hl
    exact ⟨(m, i), Dict.mem_of_get? hm, q, hq, rfl⟩

example : Sound (fun a b : Arr => decide (a ≠ b)) ∧ Sound (fun _ _ : Arr => true) ∧ Within before after ∧
    diff2 (fun a b => decide (a ≠ b)) before after =
      [("z".toList, [("w".toList, some ⟨[], .f32, [9]⟩)]),
       ("a".toList, [("b".toList, some ⟨[], .f32, [3]⟩), ("w".toList, none), ("c".toList, some ⟨[], .f32, [4]⟩)])] :=
  ⟨ne_sound, fun _ _ _ => rfl, within_iff _ _ (by decide +kernel), by decide +kernel⟩

/-! ### C31 -/

theorem mem_paramNames {d : PDict} (hw : WF2 d) (m n : Str) : (m, n) ∈ paramNames d ↔ (lookup2 d m n).isSome := by
  unfold paramNames lookup2
  simp only [List.mem_flatMap, List.mem_map, Prod.mk.injEq]
  constructor
  · rintro ⟨⟨m', i⟩, hp, ⟨n', v⟩, hq, h1, h2⟩
    dsimp only at h1 h2 hq
    subst h1; subst h2
    rw [Dict.get?_of_mem hw.1 hp]
    simp only [Option.bind_some]
    rw [← Dict.mem_keys_iff]
    exact List.mem_map.2 ⟨_, hq, rfl⟩
  · intro h
    cases hm : d.get? m with
    | none => rw [hm] at h; simp at h
    | some i =>
      rw [hm] at h
      simp only [Option.bind_some] at h
      rw [← Dict.mem_keys_iff] at h
      obtain ⟨q, hq, rfl⟩ := List.mem_map.1 h
      exact ⟨(m, i), Dict.mem_of_get? hm, q, hq, rfl, rfl⟩

/-- C31 `assert_no_new_parameters` raises exactly when some parameter present after the block was absent before. -/
theorem no_new_parameters_iff {d d' : PDict} (hw : WF2 d) (hw' : WF2 d') :
    hasNewParams d d' = true ↔ ∃ m n, (lookup2 d' m n).isSome ∧ lookup2 d m n = none := by
  unfold hasNewParams
  simp only [List.any_eq_true, Bool.not_eq_true', List.contains_eq_mem, decide_eq_false_iff_not, Prod.exists]
  constructor
  · rintro ⟨m, n, h1, h2⟩
    rw [mem_paramNames hw'] at h1
    rw [mem_paramNames hw] at h2
    exact ⟨m, n, h1, by simpa using h2⟩
  · rintro ⟨m, n, h1, h2⟩
    exact ⟨m, n, (mem_paramNames hw' m n).2 h1, fun h => by rw [mem_paramNames hw, h2] at h; simp at h⟩

theorem wf2_of (d : Dict Str (Dict Str β)) (h : d.keys.Nodup) (h' : ∀ p ∈ d, p.2.keys.Nodup) : WF2 d :=
  ⟨h, fun b i hb => h' (b, i) (Dict.mem_of_get? hb)⟩

example : WF2 before ∧ WF2 after ∧ hasNewParams before after = true ∧ hasNewParams after before = false :=
  ⟨wf2_of _ (by decide +kernel) (by decide +kernel), wf2_of _ (by decide +kernel) (by decide +kernel), by decide +kernel, by decide +kernel⟩

end Verif.Props.Diff
