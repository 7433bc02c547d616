import Verif.Model.AutoRepr
import Mathlib.Data.List.Nodup
import Mathlib.Data.List.Basic

/-!
# The text of a module (C174)
-/

set_option linter.unusedVariables false

namespace Verif.Props.AutoRepr
open Verif.AutoRepr

variable {V : Type}

/-! ### Specification -/

/-- A signature of Python: different names, and no more defaults than parameters. -/
structure ValidSpec (spec : ArgSpec V) : Prop where
  nodup : (spec.args ++ spec.kwonly.map Prod.fst).Nodup
  defaults : spec.defaults.length ≤ spec.args.length

/-- The arguments shown, read as a call: keywords must come after positional arguments, and no keyword twice. -/
def asCall : List (Option String × V) → Option (List V × Dict String V)
  | [] => some ([], [])
  | (none, v) :: l => (asCall l).map fun c => (v :: c.1, c.2)
  | (some n, v) :: l => (asCall l).bind fun c => if c.1.isEmpty && !c.2.has n then some ([], (n, v) :: c.2) else none

/-- The same value, or one for which `==` holds. -/
def Same (eq : V → V → Option Bool) (v w : V) : Prop := v = w ∨ eq v w = some true

/-- Two calls bind the parameters alike. -/
structure Alike (eq : V → V → Option Bool) (a b : Bound V) : Prop where
  args : List.Forall₂ (Same eq) a.args b.args
  kwonly : a.kwonly = b.kwonly
  rest : a.rest = b.rest
  restKw : a.restKw = b.restKw

/-! ### Lemmas -/

theorem sequence_eq_some {l : List (Option V)} {r : List V} : sequence l = some r ↔ l = r.map some := by
  induction l generalizing r with
  | nil =>
    constructor
    · intro h; cases h; rfl
    · intro h; cases r with
      | nil => rfl
      | cons _ _ => cases h
  | cons x l ih =>
    cases x with
    | none => constructor
              · intro h; cases h
              · intro h; cases r <;> cases h
    | some v =>
      show (sequence l).map (v :: ·) = some r ↔ _
      rw [Option.map_eq_some_iff]
      constructor
      · rintro ⟨r', h, rfl⟩
        rw [ih.1 h]
        rfl
      · intro h
        cases r with
        | nil => cases h
        | cons w r =>
          rw [List.map_cons, List.cons.injEq, Option.some.injEq] at h
          obtain ⟨rfl, h⟩ := h
          exact ⟨r, ih.2 h, rfl⟩

theorem get?_filter_keys {κ ν : Type} [DecidableEq κ] (d : Dict κ ν) (p : κ → Bool) (k : κ) : Dict.get? (d.filter fun x => p x.1) k = if p k then Dict.get? d k else none := by
  induction d with
  | nil => simp
  | cons x d ih =>
    obtain ⟨k', v⟩ := x
    rw [List.filter_cons]
    dsimp only
    by_cases hp : p k' = true
    · rw [if_pos hp, Dict.get?_cons, Dict.get?_cons, ih]
      by_cases hk : k' = k
      · subst hk; rw [if_pos rfl, if_pos rfl, if_pos hp]
      · rw [if_neg hk, if_neg hk]
    · rw [if_neg hp, ih, Dict.get?_cons]
      by_cases hk : k' = k
      · subst hk; rw [if_neg hp, if_neg hp]
      · rw [if_neg hk]

/-- All keywords: the call has no positional arguments. -/
theorem asCall_keywords : ∀ (d : Dict String V), d.keys.Nodup → asCall (d.map fun p => (some p.1, p.2)) = some ([], d) := by
  intro d
  induction d with
  | nil => intro _; rfl
  | cons p d ih =>
    intro h
    obtain ⟨h1, h2⟩ := List.nodup_cons.1 h
    show (asCall (d.map _)).bind _ = _
    rw [ih h2]
    have : Dict.has d p.1 = false := by
      rw [Bool.eq_false_iff]
      exact fun h => h1 ((Dict.has_iff _ _).1 h)
    simp [this]

theorem bind_some {spec : ArgSpec V} {pos : List V} {kw : Dict String V} {b : Bound V} (h : spec.bind pos kw = some b) :
    ((kw.filter fun p => !(spec.args ++ spec.kwonly.map Prod.fst).contains p.1).isEmpty = true ∨ spec.varkw = true) ∧ (pos.length ≤ spec.args.length ∨ spec.varargs = true) ∧
      (spec.args.mapIdx fun i a => spec.argValue pos kw i a) = b.args.map some ∧ (spec.kwonly.map fun p => (kw.get? p.1).or p.2) = b.kwonly.map some ∧ b.rest = pos.drop spec.args.length ∧
      b.restKw = kw.filter fun p => !(spec.args ++ spec.kwonly.map Prod.fst).contains p.1 := by
  unfold ArgSpec.bind at h
  dsimp only at h
  split at h
  · cases h
  rename_i h1
  split at h
  · cases h
  rename_i h2
  split at h
  · rename_i a k ha hk
    cases h
    refine ⟨?_, ?_, sequence_eq_some.1 ha, sequence_eq_some.1 hk, rfl, rfl⟩
    · rw [Bool.and_eq_true, not_and_or, Bool.not_eq_true', Bool.not_eq_true'] at h1
      rcases h1 with h1 | h1
      · exact .inl (by simpa using h1)
      · exact .inr (by simpa using h1)
    · rw [Bool.and_eq_true, not_and_or] at h2
      rcases h2 with h2 | h2
      · exact .inl (by simpa using h2)
      · exact .inr (by simpa using h2)
  · cases h

theorem bind_of {spec : ArgSpec V} {pos : List V} {kw : Dict String V} {args kwonly : List V}
    (h1 : (kw.filter fun p => !(spec.args ++ spec.kwonly.map Prod.fst).contains p.1).isEmpty = true ∨ spec.varkw = true) (h2 : pos.length ≤ spec.args.length ∨ spec.varargs = true)
    (h3 : (spec.args.mapIdx fun i a => spec.argValue pos kw i a) = args.map some) (h4 : (spec.kwonly.map fun p => (kw.get? p.1).or p.2) = kwonly.map some) :
    spec.bind pos kw = some ⟨args, kwonly, pos.drop spec.args.length, kw.filter fun p => !(spec.args ++ spec.kwonly.map Prod.fst).contains p.1⟩ := by
  unfold ArgSpec.bind
  dsimp only
  rw [if_neg, if_neg, sequence_eq_some.2 h3, sequence_eq_some.2 h4]
  · rcases h2 with h2 | h2
    · simp [Nat.not_lt.2 h2]
    · simp [h2]
  · rcases h1 with h1 | h1
    · rw [h1]; simp
    · rw [h1]; simp

theorem get?_filterMap (f : String → Option V) (names : List String) (k : String) : Dict.get? (names.filterMap fun n => (f n).map fun v => (n, v)) k = if k ∈ names then f k else none := by
  induction names with
  | nil => rfl
  | cons n names ih =>
    rw [List.filterMap_cons]
    rcases hf : f n with _ | v
    · show Dict.get? (names.filterMap fun n => (f n).map fun v => (n, v)) k = _
      rw [ih]
      by_cases hk : k = n
      · subst hk
        rw [if_pos List.mem_cons_self, hf]
        split <;> rfl
      · simp only [List.mem_cons, hk, false_or]
    · show Dict.get? ((n, v) :: names.filterMap fun n => (f n).map fun v => (n, v)) k = _
      rw [Dict.get?_cons, ih]
      by_cases hk : n = k
      · subst hk
        rw [if_pos rfl, if_pos List.mem_cons_self, hf]
      · rw [if_neg hk]
        simp only [List.mem_cons, show ¬ k = n from fun h => hk h.symm, false_or]

theorem keys_filterMap (f : String → Option V) (names : List String) : (Dict.keys (names.filterMap fun n => (f n).map fun v => (n, v))).Sublist names := by
  induction names with
  | nil => exact List.Sublist.refl _
  | cons n names ih =>
    rw [List.filterMap_cons]
    rcases hf : f n with _ | v
    · exact ih.cons _
    · exact ih.cons_cons _

theorem get?_zip : ∀ {names : List String} {vs : List V}, names.Nodup → ∀ {i : Nat} (h : i < names.length) (h' : i < vs.length), Dict.get? (names.zip vs) names[i] = some vs[i] := by
  intro names
  induction names with
  | nil => intro vs _ i h; cases h
  | cons n names ih =>
    intro vs hn i h h'
    cases vs with
    | nil => cases h'
    | cons v vs =>
      rw [List.zip_cons_cons, Dict.get?_cons]
      cases i with
      | zero => rw [if_pos (by rfl)]; rfl
      | succ i =>
        rw [if_neg]
        · exact ih (List.nodup_cons.1 hn).2 (Nat.lt_of_succ_lt_succ h) (Nat.lt_of_succ_lt_succ h')
        · intro e
          have e : n = names[i]'(Nat.lt_of_succ_lt_succ h) := e
          exact (List.nodup_cons.1 hn).1 (e ▸ List.getElem_mem _)

theorem collect {R : V → V → Prop} : ∀ {l : List (Option V)} {bs : List V}, List.Forall₂ (fun b o => ∃ w, o = some w ∧ R b w) bs l → ∃ c : List V, l = c.map some ∧ List.Forall₂ R bs c := by
  intro l bs h
  induction h with
  | nil => exact ⟨[], rfl, .nil⟩
  | cons h _ ih =>
    obtain ⟨w, rfl, hw⟩ := h
    obtain ⟨c, rfl, hc⟩ := ih
    exact ⟨w :: c, rfl, .cons hw hc⟩

theorem get?_zip_none {names : List String} {vs : List V} {n : String} (h : n ∉ names) : Dict.get? (names.zip vs) n = none := by
  rw [Dict.get?_eq_none_iff]
  intro h'
  obtain ⟨q, hq, rfl⟩ := List.mem_map.1 h'
  exact h (List.of_mem_zip hq).1

/-! ### C174 -/

/-- C174 the defaults that the text compares with are those of the call. -/
theorem default_at {spec : ArgSpec V} (hv : ValidSpec spec) {i : Nat} (h : i < spec.args.length) : spec.default spec.args[i] = spec.defaultAt i := by
  have hA : spec.args.Nodup := (List.nodup_append.1 hv.nodup).1
  have hd := hv.defaults
  unfold ArgSpec.default ArgSpec.defaultAt
  by_cases h0 : spec.defaults.length = 0
  · rw [if_pos h0, List.eq_nil_of_length_eq_zero h0, List.zip_nil_right]
    simp
  rw [if_neg h0]
  by_cases hi : spec.args.length ≤ i + spec.defaults.length
  · rw [if_pos hi]
    have e : spec.args[i] = (spec.args.drop (spec.args.length - spec.defaults.length))[i + spec.defaults.length - spec.args.length]'(by rw [List.length_drop]; omega) := by
      rw [List.getElem_drop]
      congr 1
      omega
    rw [e, get?_zip (hA.sublist (List.drop_sublist _ _)) _ (by omega), List.getElem?_eq_getElem (by omega)]
  · rw [if_neg hi]
    refine get?_zip_none fun hm => ?_
    obtain ⟨j, hj, e⟩ := List.getElem_of_mem hm
    rw [List.getElem_drop] at e
    have := (hA.getElem_inj_iff).1 e
    omega

/-- C174, in part: the text of a module shows a call that binds the parameters alike, except that an argument for which `==` holds with its default is left out.  It is all keywords.  This is for calls that give nothing to `*args`. -/
theorem repr_equivalent_partial {eq : V → V → Option Bool} {self : V} {spec : ArgSpec V} (hv : ValidSpec spec) {args : List V} {kw : Dict String V} (hkw : kw.keys.Nodup) (hlen : args.length + 1 ≤ spec.args.length) {b : Bound V}
    (hb : spec.bind (self :: args) kw = some b) :
    ∃ items shown b', namesAndValues eq self spec args kw = some items ∧ asCall items = some ([], shown) ∧ spec.bind [self] shown = some b' ∧ Alike eq b b' := by
  obtain ⟨h1, h2, h3, h4, h5, h6⟩ := bind_some hb
  have hA : spec.args.Nodup := (List.nodup_append.1 hv.nodup).1
  have hlenb : b.args.length = spec.args.length := by
    have := congrArg List.length h3
    rw [List.length_mapIdx, List.length_map] at this
    exact this.symm
  have hval : ∀ i (h : i < spec.args.length), spec.argValue (self :: args) kw i spec.args[i] = some (b.args[i]'(by omega)) := by
    intro i h
    have := congrArg (fun l => l[i]?) h3
    simpa [h, hlenb] using this
  -- what is shown
  let names := (spec.args.drop 1).take args.length ++ spec.args.filter fun n => kw.has n
  let isDef : String → V → Bool := fun n v => match spec.default n with | some d => compareOrFalse eq v d | none => false
  let f : String → Option V := fun n => (Dict.get? (spec.args.zip b.args) n).bind fun v => if isDef n v then none else some v
  let d1 : Dict String V := names.filterMap fun n => (f n).map fun v => (n, v)
  let d2 : Dict String V := kw.filter fun p => !spec.args.contains p.1
  have hitems : namesAndValues eq self spec args kw = some ((d1 ++ d2).map fun p => (some p.1, p.2)) := by
    unfold namesAndValues
    dsimp only
    rw [hb]
    show some _ = some _
    congr 1
    have e : sliceFrom args ((spec.args.length : Int) - 1) = [] := by
      unfold sliceFrom
      rw [if_neg (by omega)]
      exact List.drop_eq_nil_of_le (by omega)
    dsimp only
    rw [e, List.map_nil, List.append_nil, List.map_append]
    congr 1
    show names.filterMap _ = List.map _ (names.filterMap _)
    rw [List.map_filterMap]
    refine List.filterMap_congr fun n _ => ?_
    show (Dict.get? (spec.args.zip b.args) n).bind _ = Option.map _ (Option.map _ ((Dict.get? (spec.args.zip b.args) n).bind _))
    rcases Dict.get? (spec.args.zip b.args) n with _ | v
    · rfl
    · show (if isDef n v then none else some (some n, v)) = Option.map _ (Option.map _ (if isDef n v then none else some v))
      split <;> rfl
  -- names are shown once
  have hgiven : ∀ i (h : i < spec.args.length), i < args.length + 1 → kw.has spec.args[i] = false := by
    intro i h hi
    have := hval i h
    unfold ArgSpec.argValue at this
    rw [List.getElem?_eq_getElem (by exact hi)] at this
    dsimp only at this
    split at this
    · cases this
    · rename_i h; simpa using h
  have hmem : ∀ i (h : i < spec.args.length), spec.args[i] ∈ names ↔ (1 ≤ i ∧ i ≤ args.length) ∨ kw.has spec.args[i] = true := by
    intro i h
    show _ ∈ _ ++ _ ↔ _
    rw [List.mem_append, List.mem_filter]
    refine or_congr ?_ ⟨fun h => h.2, fun h' => ⟨List.getElem_mem h, h'⟩⟩
    rw [List.mem_take_iff_getElem]
    constructor
    · rintro ⟨j, hj, e⟩
      rw [List.getElem_drop] at e
      have := (hA.getElem_inj_iff).1 e
      rw [List.length_drop] at hj
      omega
    · rintro ⟨ha, hb'⟩
      refine ⟨i - 1, by rw [List.length_drop]; omega, ?_⟩
      rw [List.getElem_drop]
      congr 1
      omega
  have hnames : names.Nodup := by
    refine List.nodup_append.2 ⟨(hA.sublist (List.drop_sublist _ _)).sublist (List.take_sublist _ _), hA.filter _, ?_⟩
    intro a ha c hc e
    subst e
    obtain ⟨j, hj, rfl⟩ := List.mem_take_iff_getElem.1 ha
    rw [List.mem_filter, List.getElem_drop] at hc
    rw [List.length_drop] at hj
    have := hgiven (1 + j) (by omega) (by omega)
    rw [this] at hc
    cases hc.2
  have hsubA : ∀ n ∈ names, n ∈ spec.args := by
    intro n hn
    rcases List.mem_append.1 hn with hn | hn
    · exact List.mem_of_mem_drop (List.mem_of_mem_take hn)
    · exact (List.mem_filter.1 hn).1
  have hd1 : ∀ n, Dict.get? d1 n = if n ∈ names then f n else none := get?_filterMap f names
  have hd1keys : (Dict.keys d1).Sublist names := keys_filterMap f names
  have hd2keys : ∀ n ∈ Dict.keys d2, n ∉ spec.args := by
    intro n hn
    obtain ⟨q, hq, rfl⟩ := List.mem_map.1 hn
    have := (List.mem_filter.1 hq).2
    simpa using this
  have hkeys : (Dict.keys (d1 ++ d2)).Nodup := by
    show ((d1 ++ d2).map Prod.fst).Nodup
    rw [List.map_append]
    refine List.nodup_append.2 ⟨hnames.sublist hd1keys, hkw.sublist (List.filter_sublist.map _), ?_⟩
    intro a ha c hc e
    subst e
    exact hd2keys a hc (hsubA a (hd1keys.subset ha))
  have hd2A : ∀ n ∈ spec.args, Dict.get? d2 n = none := by
    intro n hn
    show Dict.get? (kw.filter fun p => !spec.args.contains p.1) n = none
    rw [get?_filter_keys kw (fun n => !spec.args.contains n), if_neg]
    simpa using hn
  have hd2n : ∀ n, n ∉ spec.args → Dict.get? d2 n = Dict.get? kw n := by
    intro n hn
    show Dict.get? (kw.filter fun p => !spec.args.contains p.1) n = _
    rw [get?_filter_keys kw (fun n => !spec.args.contains n), if_pos]
    simpa using hn
  have hd1n : ∀ n, n ∉ spec.args → Dict.get? d1 n = none := by
    intro n hn
    rw [hd1, if_neg fun h => hn (hsubA n h)]
  have hrestKw : ((d1 ++ d2).filter fun p => !(spec.args ++ spec.kwonly.map Prod.fst).contains p.1) = b.restKw := by
    rw [h6, List.filter_append]
    have e : (d1.filter fun p => !(spec.args ++ spec.kwonly.map Prod.fst).contains p.1) = [] := by
      refine List.filter_eq_nil_iff.2 fun q hq => ?_
      have : q.1 ∈ spec.args := hsubA _ (hd1keys.subset (List.mem_map_of_mem hq))
      simp [this]
    rw [e, List.nil_append]
    show List.filter _ (List.filter _ kw) = _
    rw [List.filter_filter]
    refine List.filter_congr fun q _ => ?_
    by_cases hq : q.1 ∈ spec.args <;> simp [hq]
  -- the values
  obtain ⟨c, hc, hcc⟩ := collect (R := Same eq) (l := spec.args.mapIdx fun i a => spec.argValue [self] (d1 ++ d2) i a) (bs := b.args) (by
    rw [List.forall₂_iff_get]
    refine ⟨by rw [List.length_mapIdx, hlenb], fun i hi hi' => ?_⟩
    rw [List.get_eq_getElem, List.get_eq_getElem, List.getElem_mapIdx]
    have hi : i < spec.args.length := by omega
    have hnone : Dict.get? (d1 ++ d2) spec.args[i] = if spec.args[i] ∈ names then f spec.args[i] else none := by
      rw [Dict.get?_append, hd1, hd2A _ (List.getElem_mem hi), Option.or_none]
    cases i with
    | zero =>
      have h0 := hval 0 hi
      unfold ArgSpec.argValue at h0 ⊢
      dsimp only [List.getElem?_cons_zero] at h0 ⊢
      have hn : spec.args[0] ∉ names := by
        rw [hmem 0 hi, hgiven 0 hi (by omega)]
        simp
      rw [if_neg (by rw [hgiven 0 hi (by omega)]; decide)] at h0
      refine ⟨self, ?_, .inl (Option.some.inj h0).symm⟩
      rw [if_neg]
      unfold Dict.has
      rw [hnone, if_neg hn]
      exact Bool.false_ne_true
    | succ j =>
      unfold ArgSpec.argValue
      rw [List.getElem?_cons_succ, List.getElem?_nil]
      dsimp only
      rw [hnone]
      by_cases hn : spec.args[j + 1] ∈ names
      · rw [if_pos hn]
        show ∃ w, ((Dict.get? (spec.args.zip b.args) spec.args[j + 1]).bind _).or _ = some w ∧ _
        rw [get?_zip hA hi (by omega)]
        show ∃ w, (if isDef spec.args[j + 1] b.args[j + 1] then none else some b.args[j + 1]).or _ = some w ∧ _
        by_cases hdef : isDef spec.args[j + 1] b.args[j + 1] = true
        · rw [if_pos hdef]
          show ∃ w, spec.defaultAt (j + 1) = some w ∧ _
          rw [← default_at hv hi]
          have hdef' : (match spec.default spec.args[j + 1] with | some d => compareOrFalse eq b.args[j + 1] d | none => false) = true := hdef
          rcases hd : spec.default spec.args[j + 1] with _ | d
          · rw [hd] at hdef'; cases hdef'
          · rw [hd] at hdef'
            refine ⟨d, rfl, .inr ?_⟩
            have hdef' : (eq b.args[j + 1] d).getD false = true := hdef'
            rcases he : eq b.args[j + 1] d with _ | _ | _
            · rw [he] at hdef'; cases hdef'
            · rw [he] at hdef'; cases hdef'
            · rfl
        · rw [if_neg hdef]
          exact ⟨_, rfl, .inl rfl⟩
      · rw [if_neg hn]
        show ∃ w, spec.defaultAt (j + 1) = some w ∧ _
        rw [hmem _ hi, not_or] at hn
        have h0 := hval _ hi
        unfold ArgSpec.argValue at h0
        rw [List.getElem?_cons_succ, List.getElem?_eq_none (by omega)] at h0
        dsimp only at h0
        have hk : kw.get? spec.args[j + 1] = none := by
          have := hn.2
          unfold Dict.has at this
          rcases hg : kw.get? spec.args[j + 1] with _ | _
          · rfl
          · rw [hg] at this; exact absurd rfl this
        rw [hk] at h0
        exact ⟨_, h0, .inl rfl⟩)
  have hkwonly : (spec.kwonly.map fun p => (Dict.get? (d1 ++ d2) p.1).or p.2) = b.kwonly.map some := by
    rw [← h4]
    refine List.map_congr_left fun q hq => ?_
    have hn : q.1 ∉ spec.args := fun h => (List.nodup_append.1 hv.nodup).2.2 _ h _ (List.mem_map_of_mem hq) rfl
    rw [Dict.get?_append, hd1n _ hn, hd2n _ hn]
    rfl
  refine ⟨_, d1 ++ d2, _, hitems, asCall_keywords _ hkeys, bind_of ?_ (.inl (by rw [List.length_singleton]; omega)) hc hkwonly, hcc, rfl, ?_, hrestKw.symm⟩
  · rw [hrestKw, h6]
    exact h1
  · rw [h5, List.drop_eq_nil_of_le (by rw [List.length_cons]; omega), List.drop_eq_nil_of_le (by rw [List.length_singleton]; omega)]

/-- The positional arguments shown. -/
def positional (items : List (Option String × V)) : List V := items.filterMap fun p => match p.1 with | none => some p.2 | some _ => none

theorem asCall_positional : ∀ {items : List (Option String × V)} {c : List V × Dict String V}, asCall items = some c → c.1 = positional items := by
  intro items
  induction items with
  | nil => intro c h; cases h; rfl
  | cons p items ih =>
    intro c h
    obtain ⟨n, v⟩ := p
    cases n with
    | none =>
      obtain ⟨c', h', rfl⟩ := Option.map_eq_some_iff.1 h
      exact congrArg (v :: ·) (ih h')
    | some n =>
      obtain ⟨c', h', h''⟩ := Option.bind_eq_some_iff.1 h
      split at h''
      · rename_i hc
        cases h''
        rw [Bool.and_eq_true, List.isEmpty_iff] at hc
        exact hc.1.symm.trans (ih h')
      · cases h''

theorem asCall_keyword_first {n : String} {v : V} {items : List (Option String × V)} {c : List V × Dict String V} (h : asCall ((some n, v) :: items) = some c) : positional items = [] := by
  obtain ⟨c', h', h''⟩ := Option.bind_eq_some_iff.1 h
  split at h''
  · rename_i hc
    rw [Bool.and_eq_true, List.isEmpty_iff] at hc
    rw [← asCall_positional h', hc.1]
  · cases h''

theorem positional_append (a b : List (Option String × V)) : positional (a ++ b) = positional a ++ positional b := List.filterMap_append

theorem positional_pos (l : List V) : positional (l.map fun a => ((none : Option String), a)) = l := by
  unfold positional
  rw [List.filterMap_map]
  exact List.filterMap_some

theorem positional_kw (l : Dict String V) : positional (l.map fun p => (some p.1, p.2)) = [] := by
  unfold positional
  rw [List.filterMap_map]
  exact List.filterMap_eq_nil_iff.2 fun _ _ => rfl

theorem positional_named {l : List (Option String × V)} (h : ∀ p ∈ l, p.1 ≠ none) : positional l = [] := by
  refine List.filterMap_eq_nil_iff.2 fun p hp => ?_
  have := h p hp
  rcases p with ⟨_ | _, _⟩
  · exact absurd rfl this
  · rfl

/-- C174 the text of a module whose constructor has further parameters and was given arguments for `*args` never shows an equivalent call: it is no call at all, or one that gives `*args` fewer arguments. -/
theorem varargs_never {eq : V → V → Option Bool} {self : V} {spec : ArgSpec V} {args : List V} {kw : Dict String V} (h2 : 2 ≤ spec.args.length) (hlen : spec.args.length ≤ args.length) {b : Bound V} (hb : spec.bind (self :: args) kw = some b)
    {items : List (Option String × V)} (hi : namesAndValues eq self spec args kw = some items) {pos : List V} {kw' : Dict String V} (hc : asCall items = some (pos, kw')) {b' : Bound V} (hb' : spec.bind (self :: pos) kw' = some b') :
    b'.rest ≠ b.rest := by
  obtain ⟨-, -, -, -, h5, -⟩ := bind_some hb
  obtain ⟨-, -, -, -, h5', -⟩ := bind_some hb'
  unfold namesAndValues at hi
  dsimp only at hi
  rw [hb] at hi
  have hi := Option.some.inj hi
  dsimp only at hi
  generalize hX : (List.filterMap _ _ : List (Option String × V)) = X at hi
  have hXn : ∀ p ∈ X, p.1 ≠ none := by
    intro p hp
    rw [← hX] at hp
    obtain ⟨n, -, h⟩ := List.mem_filterMap.1 hp
    obtain ⟨v, -, h⟩ := Option.bind_eq_some_iff.1 h
    rw [Option.ite_none_left_eq_some] at h
    cases h.2
    exact Option.some_ne_none _
  have e : sliceFrom args ((spec.args.length : Int) - 1) = args.drop (spec.args.length - 1) := by
    unfold sliceFrom
    rw [if_neg (by omega)]
    congr 1
    omega
  rw [e] at hi
  have hp : pos = args.drop (spec.args.length - 1) := by
    have := asCall_positional hc
    rw [← hi, positional_append, positional_append, positional_named hXn, positional_pos, positional_kw, List.nil_append, List.append_nil] at this
    exact this
  intro he
  rw [h5, h5'] at he
  have hl := congrArg List.length he
  rw [List.length_drop, List.length_drop, List.length_cons, List.length_cons, hp, List.length_drop] at hl
  omega

/-- C174 a constructor `__init__(*args)` without `self`: only the last argument is shown. -/
theorem no_self_never {eq : V → V → Option Bool} {self : V} {spec : ArgSpec V} {args : List V} {kw : Dict String V} (h0 : spec.args = []) (hlen : 2 ≤ args.length) {b : Bound V} (hb : spec.bind (self :: args) kw = some b)
    {items : List (Option String × V)} (hi : namesAndValues eq self spec args kw = some items) {pos : List V} {kw' : Dict String V} (hc : asCall items = some (pos, kw')) {b' : Bound V} (hb' : spec.bind (self :: pos) kw' = some b') :
    pos = args.drop (args.length - 1) ∧ b'.rest ≠ b.rest := by
  obtain ⟨-, -, -, -, h5, -⟩ := bind_some hb
  obtain ⟨-, -, -, -, h5', -⟩ := bind_some hb'
  unfold namesAndValues at hi
  dsimp only at hi
  rw [hb] at hi
  have hi := Option.some.inj hi
  dsimp only at hi
  rw [h0] at hi h5 h5'
  have e : sliceFrom args (((([] : List String).length : Nat) : Int) - 1) = args.drop (args.length - 1) := rfl
  rw [e] at hi
  have hp : pos = args.drop (args.length - 1) := by
    have := asCall_positional hc
    rw [← hi, positional_append, positional_append, positional_pos, positional_kw, List.append_nil] at this
    simpa [positional] using this
  refine ⟨hp, fun he => ?_⟩
  rw [h5, h5'] at he
  have hl := congrArg List.length he
  rw [List.length_nil, List.drop_zero, List.drop_zero, List.length_cons, List.length_cons, hp, List.length_drop] at hl
  omega

/-! ### Lines -/

/-- A line: no character at which lines end. -/
def Line (l : List Char) : Prop := ∀ c ∈ l, isBreak c = false

theorem split_lines (line s : List Char) (h : Line line) : ∀ l ∈ splitLinesFrom line s, Line l := by
  fun_induction splitLinesFrom line s with
  | case1 line he => intro l hl; cases hl
  | case2 line he => intro l hl; rw [List.mem_singleton] at hl; exact hl ▸ h
  | case3 line s ih =>
    intro l hl
    rcases List.mem_cons.1 hl with rfl | hl
    · exact h
    · exact ih (fun _ h => by cases h) l hl
  | case4 line c s hn hc ih =>
    intro l hl
    rcases List.mem_cons.1 hl with rfl | hl
    · exact h
    · exact ih (fun _ h => by cases h) l hl
  | case5 line c s hn hc ih =>
    refine ih fun x hx => ?_
    rcases List.mem_append.1 hx with hx | hx
    · exact h x hx
    · rw [List.mem_singleton] at hx
      subst hx
      simpa using hc

theorem split_line {l : List Char} (h : Line l) : ∀ line s, (s = [] ∨ ∃ s', s = '\n' :: s') → splitLinesFrom line (l ++ s) = splitLinesFrom (line ++ l) s := by
  induction l with
  | nil => intro line s _; rw [List.nil_append, List.append_nil]
  | cons c l ih =>
    intro line s hs
    have hc := h c List.mem_cons_self
    rw [List.cons_append, splitLinesFrom, if_neg (by rw [hc]; decide), ih (fun x hx => h x (List.mem_cons_of_mem _ hx)) _ _ hs, List.append_assoc]
    · rfl
    · rintro s' rfl _
      exact absurd hc (by decide)

/-- C174 joining lines and splitting again gives the lines, unless the last is empty. -/
theorem split_join : ∀ {ls : List (List Char)}, (∀ l ∈ ls, Line l) → ls.getLast? ≠ some [] → splitLines (join ['\n'] ls) = ls := by
  intro ls
  induction ls with
  | nil => intro _ _; rfl
  | cons l ls ih =>
    intro h hlast
    unfold splitLines
    cases ls with
    | nil =>
      show splitLinesFrom [] l = [l]
      have := split_line (h l List.mem_cons_self) [] [] (.inl rfl)
      rw [List.append_nil, List.nil_append] at this
      rw [this, splitLinesFrom, if_neg]
      rw [List.isEmpty_iff]
      rintro rfl
      exact hlast rfl
    | cons l' ls =>
      show splitLinesFrom [] (l ++ ['\n'] ++ join ['\n'] (l' :: ls)) = _
      rw [List.append_assoc, List.singleton_append, split_line (h l List.mem_cons_self) _ _ (.inr ⟨_, rfl⟩), List.nil_append, splitLinesFrom, if_pos (by decide)]
      · exact congrArg (l :: ·) (ih (fun x hx => h x (List.mem_cons_of_mem _ hx)) (by rwa [List.getLast?_cons_cons] at hlast))
      · intro s' e _
        cases e

theorem spaces_line (n : Nat) : Line (List.replicate n ' ') := by
  intro c hc
  rw [List.eq_of_mem_replicate hc]
  decide

/-- C174 indenting by a positive amount puts that many spaces before each line and changes no line. -/
theorem indent_lines {n : Nat} (hn : 0 < n) (s : List Char) : splitLines (indent n s) = (splitLines s).map (List.replicate n ' ' ++ ·) := by
  refine split_join (fun l hl => ?_) fun h => ?_
  · obtain ⟨l0, hl0, rfl⟩ := List.mem_map.1 hl
    intro c hc
    rcases List.mem_append.1 hc with hc | hc
    · exact spaces_line n c hc
    · exact split_lines [] s (fun _ h => by cases h) l0 hl0 c hc
  · obtain ⟨l, -, h⟩ := List.mem_map.1 (List.mem_of_getLast? h)
    have := congrArg List.length h
    rw [List.length_append, List.length_replicate, List.length_nil] at this
    omega

/-- C174 indenting twice indents by the sum. -/
theorem indent_indent {m : Nat} (hm : 0 < m) (n : Nat) (s : List Char) : indent n (indent m s) = indent (n + m) s := by
  unfold indent
  have := indent_lines hm s
  unfold indent at this
  rw [this, List.map_map]
  congr 1
  refine List.map_congr_left fun l _ => ?_
  show _ ++ (_ ++ _) = _
  rw [← List.append_assoc, List.replicate_append_replicate]

/-- C174 not so for an amount of 0, which drops an empty last line. -/
theorem indent_zero : indent 2 (indent 0 ['\n']) = [] ∧ indent (2 + 0) ['\n'] = [' ', ' '] := by decide

/-! ### Examples -/

/-- `__init__(self, size, rate=7, *, name=None, **kwargs)`. -/
def demo : ArgSpec Nat := ⟨["self", "size", "rate"], false, true, [7], [("name", some 0)]⟩

/-- Equality of numbers, which raises for 99. -/
def demoEq (a b : Nat) : Option Bool := if a = 99 then none else some (a == b)

theorem demo_valid : ValidSpec demo := ⟨by decide, by decide⟩

/-- `Demo(3, rate=7, name=5, extra=6)` is shown as `Demo(size=3, name=5, extra=6)`. -/
example : namesAndValues demoEq 0 demo [3] [("rate", 7), ("name", 5), ("extra", 6)] = some [(some "size", 3), (some "name", 5), (some "extra", 6)] := by decide

example : ∃ items shown b', namesAndValues demoEq 0 demo [3] [("rate", 7), ("name", 5), ("extra", 6)] = some items ∧ asCall items = some ([], shown) ∧ demo.bind [0] shown = some b' ∧ Alike demoEq ⟨[0, 3, 7], [5], [], [("extra", 6)]⟩ b' :=
  repr_equivalent_partial demo_valid (by decide) (by decide) (by rfl)

example : demo.default "rate" = demo.defaultAt 2 := default_at demo_valid (i := 2) (by decide)

/-- `__init__(self, x=1, *args)`. -/
def star : ArgSpec Nat := ⟨["self", "x"], true, false, [1], []⟩

/-- `Star(1, 2)` is shown as `Star(2)`, which has another `x`; `Star(5, 2)` as `Star(x=5, 2)`, which is no call. -/
example : namesAndValues demoEq 0 star [1, 2] [] = some [(none, 2)] ∧ (star.bind [0, 2] []).map Bound.args = some [0, 2] ∧ namesAndValues demoEq 0 star [5, 2] [] = some [(some "x", 5), (none, 2)] ∧
    asCall [(some "x", 5), ((none : Option String), 2)] = none := by decide

example : ([] : List Nat) ≠ [2] :=
  varargs_never (eq := demoEq) (self := 0) (spec := star) (args := [1, 2]) (kw := []) (by decide) (by decide) (b := ⟨[0, 1], [], [2], []⟩) rfl (items := [(none, 2)]) (by decide) (pos := [2]) (kw' := []) rfl (b' := ⟨[0, 2], [], [], []⟩) rfl

/-- `__init__(*args)`. -/
example : [6] = [4, 5, 6].drop 2 ∧ [0, 6] ≠ [0, 4, 5, 6] :=
  no_self_never (eq := demoEq) (self := 0) (spec := ⟨[], true, false, [], []⟩) (args := [4, 5, 6]) (kw := []) rfl (by decide) (b := ⟨[], [], [0, 4, 5, 6], []⟩) rfl (items := [(none, 6)]) (by decide) (pos := [6]) (kw' := []) rfl
    (b' := ⟨[], [], [0, 6], []⟩) rfl

example : splitLines (indent 3 "a\r\nb\n\nc".toList) = (splitLines "a\r\nb\n\nc".toList).map (List.replicate 3 ' ' ++ ·) := indent_lines (by decide) _

example : indent 3 "a\r\nb".toList = "   a\n   b".toList := by decide

example : splitLines (join ['\n'] ["ab".toList, [], "c".toList]) = ["ab".toList, [], "c".toList] := split_join (by unfold Line; decide) (by decide)

example (s : List Char) : indent 4 (indent 2 s) = indent 6 s := indent_indent (by decide) 4 s

end Verif.Props.AutoRepr
