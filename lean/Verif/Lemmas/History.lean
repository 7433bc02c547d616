import Verif.Lemmas.Track
import Verif.Lemmas.Top

/-!
# The record of accesses is a legal history

Every run extends the record of accesses by a history that is legal for an abstract map from (module, name) to values, and the
dictionaries afterwards are what the history says.
-/

set_option linter.unusedVariables false

namespace Verif
open Names Frame LW

/-! ### Relations that hold however a program ends -/

/-- Everything is allowed; bodies of `try` must already be known to be followed. -/
def Allow.all (R : Bool → Loc → Loc → Prop) : Allow :=
  ⟨fun p => Trk (fun _ => True) R R (p.run localMach), fun _ => True, True, True, fun _ => True⟩

theorem Stable.okAll {R : Bool → Loc → Loc → Prop} (S : Stable (Allow.all R) (fun _ _ => True) R R) (p : Prog) : p.ok (Allow.all R) := by
  induction p with
  | ret v => trivial
  | raise e => trivial
  | bind p k h1 h2 => exact ⟨h1, h2⟩
  | tryCatch p h h1 h2 => exact ⟨S.run p h1, h1, h2⟩
  | op o => trivial
  | withRng r p h => exact ⟨trivial, h⟩
  | withHook k p h => exact h
  | newModule a c h => exact h
  | callMethod a b c d h => exact h
  | nameScope n p h => exact h
  | jit p h => exact h
  | cond b t f h1 h2 => exact ⟨h1, h2⟩
  | switch i n b h => exact h
  | scan f a b c d h => exact h
  | fori a b c d h => exact h
  | whileLoop n c b i h1 h2 => exact ⟨fun v => ⟨trivial, h1 v⟩, h2⟩
  | vmap f x xs h => exact h
  | evalShape p h => exact ⟨trivial, h⟩
  | initT r p h => trivial
  | applyT a b c p h => trivial

theorem Stable.all {R : Bool → Loc → Loc → Prop} (S : Stable (Allow.all R) (fun _ _ => True) R R) (p : Prog) : Trk (fun _ => True) R R (p.run localMach) :=
  S.run p (S.okAll p)

/-! ### Histories -/

/-- A map from module and name. -/
abbrev Map (β : Type) := Str → Str → Option β

/-- `m` with one entry changed. -/
def Map.put {β : Type} (m : Map β) (b n : Str) (v : β) : Map β := fun b' n' => if b' = b ∧ n' = n then some v else m b' n'

/-- What is known of the parameters after a history. -/
def playP : List Event → Map Arr → Map Arr
  | [], P => P
  | .paramNew b n v :: l, P => playP l (P.put b n v)
  | .paramRead b n v :: l, P => playP l (P.put b n v)
  | _ :: l, P => playP l P

/-- The state after a history. -/
def playS : List Event → Map StatePair → Map StatePair
  | [], S => S
  | .stateNew b n v :: l, S => playS l (S.put b n ⟨v, v⟩)
  | .stateSet b n v :: l, S => playS l (S.put b n ⟨((S b n).map StatePair.initial).getD v, v⟩)
  | _ :: l, S => playS l S

/-- A parameter is only created when absent, and read with the known value. -/
def LegalP : List Event → Map Arr → Prop
  | [], _ => True
  | .paramNew b n v :: l, P => P b n = none ∧ LegalP l (P.put b n v)
  | .paramRead b n v :: l, P => (P b n = none ∨ P b n = some v) ∧ LegalP l (P.put b n v)
  | _ :: l, P => LegalP l P

/-- A state entry is only created when absent, and read with its current value. -/
def LegalS : List Event → Map StatePair → Prop
  | [], _ => True
  | .stateNew b n v :: l, S => S b n = none ∧ LegalS l (S.put b n ⟨v, v⟩)
  | .stateRead b n v :: l, S => (S b n).map StatePair.current = some v ∧ LegalS l S
  | .stateSet b n v :: l, S => LegalS l (S.put b n ⟨((S b n).map StatePair.initial).getD v, v⟩)
  | _ :: l, S => LegalS l S

theorem playP_append : ∀ (l k : List Event) (P : Map Arr), playP (l ++ k) P = playP k (playP l P) := by
  intro l
  induction l with
  | nil => intro k P; rfl
  | cons e l ih => intro k P; cases e <;> exact ih _ _

theorem playS_append : ∀ (l k : List Event) (S : Map StatePair), playS (l ++ k) S = playS k (playS l S) := by
  intro l
  induction l with
  | nil => intro k P; rfl
  | cons e l ih => intro k P; cases e <;> exact ih _ _

theorem LegalP_append : ∀ (l k : List Event) (P : Map Arr), LegalP (l ++ k) P ↔ LegalP l P ∧ LegalP k (playP l P) := by
  intro l
  induction l with
  | nil => intro k P; simp [LegalP, playP]
  | cons e l ih => intro k P; cases e <;> simp [LegalP, playP, ih, and_assoc]

theorem LegalS_append : ∀ (l k : List Event) (S : Map StatePair), LegalS (l ++ k) S ↔ LegalS l S ∧ LegalS k (playS l S) := by
  intro l
  induction l with
  | nil => intro k P; simp [LegalS, playS]
  | cons e l ih => intro k P; cases e <;> simp [LegalS, playS, ih, and_assoc]

/-- `m` knows no more than `m'`. -/
def Map.le {β : Type} (m m' : Map β) : Prop := ∀ b n v, m b n = some v → m' b n = some v

theorem Map.le_put {β : Type} {m : Map β} {b n : Str} {v : β} (h : m b n = none ∨ m b n = some v) : m.le (m.put b n v) := by
  intro b' n' v' h'
  unfold Map.put
  split
  · next e => obtain ⟨rfl, rfl⟩ := e; rcases h with h | h <;> rw [h] at h' <;> cases h'; rfl
  · exact h'

theorem Map.put_le_put {β : Type} {m m' : Map β} (h : m.le m') (b n : Str) (v : β) : (m.put b n v).le (m'.put b n v) := by
  intro b' n' v' h'
  unfold Map.put at h' ⊢
  split
  · next e => rw [if_pos e] at h'; exact h'
  · next e => rw [if_neg e] at h'; exact h _ _ _ h'

theorem playP_le : ∀ {l : List Event} {P : Map Arr}, LegalP l P → P.le (playP l P) := by
  intro l
  induction l with
  | nil => intro P _ b n v h; exact h
  | cons e l ih =>
    intro P h
    cases e with
    | paramNew b n v => exact fun b' n' v' h' => ih h.2 _ _ _ (Map.le_put (.inl h.1) _ _ _ h')
    | paramRead b n v => exact fun b' n' v' h' => ih h.2 _ _ _ (Map.le_put h.1 _ _ _ h')
    | _ => exact ih h

theorem playP_mono : ∀ (l : List Event) {P P' : Map Arr}, P.le P' → (playP l P).le (playP l P') := by
  intro l
  induction l with
  | nil => intro P P' h; exact h
  | cons e l ih => intro P P' h; cases e <;> first | exact ih h | exact ih (Map.put_le_put h _ _ _)

/-- Knowing less keeps a history legal. -/
theorem LegalP_anti : ∀ {l : List Event} {P P' : Map Arr}, P.le P' → LegalP l P' → LegalP l P := by
  intro l
  induction l with
  | nil => intro P P' _ _; trivial
  | cons e l ih =>
    intro P P' h hl
    cases e with
    | paramNew b n v =>
      refine ⟨?_, ih (Map.put_le_put h _ _ _) hl.2⟩
      cases hp : P b n with
      | none => rfl
      | some x => have := hl.1; rw [h _ _ _ hp] at this; cases this
    | paramRead b n v =>
      refine ⟨?_, ih (Map.put_le_put h _ _ _) hl.2⟩
      cases hp : P b n with
      | none => exact .inl rfl
      | some x =>
        have := h _ _ _ hp
        rcases hl.1 with h1 | h1
        · rw [this] at h1; cases h1
        · rw [this] at h1; exact .inr h1
    | _ => exact ih h hl

theorem playS_of_noStores : ∀ {l : List Event} (S : Map StatePair), storesIn l = 0 → playS l S = S := by
  intro l
  induction l with
  | nil => intro S _; rfl
  | cons e l ih =>
    intro S h
    cases e with
    | stateNew b n v => simp [storesIn] at h
    | stateSet b n v => simp [storesIn] at h
    | paramNew b n v => simp [storesIn] at h
    | paramRead b n v => exact ih S (by simpa [storesIn] using h)
    | stateRead b n v => exact ih S (by simpa [storesIn] using h)

theorem storesIn_append (l k : List Event) : storesIn (l ++ k) = storesIn l + storesIn k := by
  simp [storesIn]

/-! ### The relation -/

/-- The record grew by a legal history; the parameters know at least what the history says and the state is what it says. -/
def Hist (s s' : Loc) : Prop := ∃ l, s'.trace = s.trace ++ l ∧ LegalP l (lookup2 s.params) ∧ LegalS l (lookup2 s.state) ∧
  Map.le (playP l (lookup2 s.params)) (lookup2 s'.params) ∧ lookup2 s'.state = playS l (lookup2 s.state)

theorem Hist.preord : Preord Hist where
  refl s := ⟨[], by simp, trivial, trivial, fun _ _ _ h => h, rfl⟩
  trans := by
    rintro a b c ⟨l, h1, h2, h3, h4, h5⟩ ⟨k, k1, k2, k3, k4, k5⟩
    refine ⟨l ++ k, by rw [k1, h1, List.append_assoc], ?_, ?_, ?_, ?_⟩
    · rw [LegalP_append]; exact ⟨h2, LegalP_anti h4 k2⟩
    · rw [LegalS_append]; exact ⟨h3, by rw [← h5]; exact k3⟩
    · rw [playP_append]; exact fun b n v h => k4 _ _ _ (playP_mono k h4 _ _ _ h)
    · rw [playS_append, ← h5]; exact k5

/-- Parameters known before are known after. -/
theorem Hist.params {s s' : Loc} (h : Hist s s') : Map.le (lookup2 s.params) (lookup2 s'.params) := by
  obtain ⟨l, h1, h2, h3, h4, h5⟩ := h
  exact fun b n v h => h4 _ _ _ (playP_le h2 _ _ _ h)

/-- Nothing recorded, state unchanged, parameters only added. -/
theorem Hist.silent {s s' : Loc} (ht : s'.trace = s.trace) (hp : Map.le (lookup2 s.params) (lookup2 s'.params))
    (hs : lookup2 s'.state = lookup2 s.state) : Hist s s' := ⟨[], by simp [ht], trivial, trivial, hp, hs⟩

theorem lookup2_put {β : Type} (d : Dict Str (Dict Str β)) (b n : Str) (v : β) : lookup2 (store2 d b n v) = Map.put (lookup2 d) b n v := by
  funext b' n'
  rw [lookup2_store2]
  unfold Map.put
  by_cases h : b = b' ∧ n = n'
  · rw [if_pos h, if_pos ⟨h.1.symm, h.2.symm⟩]
  · rw [if_neg h, if_neg fun k => h ⟨k.1.symm, k.2.symm⟩]

theorem lookup2_setDefault' {β : Type} (d : Dict Str (Dict Str β)) (b : Str) : lookup2 (d.setDefault b []) = lookup2 d := by
  funext b' n'; exact lookup2_setDefault d b b' n'

theorem packIntoDict_le (pfx : Str) : ∀ (src dst : PDict), Map.le (lookup2 dst) (lookup2 (packIntoDict pfx src dst).2) := by
  intro src
  induction src with
  | nil => intro dst b n v h; exact h
  | cons p src ih =>
    intro dst
    obtain ⟨k, i⟩ := p
    unfold packIntoDict
    dsimp only
    split
    · exact fun _ _ _ h => h
    · next hn =>
      intro b n v h
      refine ih _ _ _ _ ?_
      unfold lookup2 at h ⊢
      rw [Dict.get?_set]
      split
      · next e =>
        subst e
        exfalso
        cases hg : dst.get? (fqName pfx k) with
        | none => rw [hg] at h; simp at h
        | some i' =>
          refine hn ?_
          rw [Dict.has_iff, Dict.mem_keys_iff, hg]; rfl
      · exact h

theorem Hist.tol (E : Env) : Tol E Hist where
  draw s q h := by
    unfold drawKey
    split <;> exact .silent rfl (fun _ _ _ h => h) rfl
  take s q n h := .silent rfl (fun _ _ _ h => h) rfl
  reserve s q n h := .silent rfl (fun _ _ _ h => h) rfl
  full s q h := .silent rfl (fun _ _ _ h => h) rfl
  pbundle _ s b := .silent rfl (by dsimp only; rw [lookup2_setDefault']; exact fun _ _ _ h => h) rfl
  pnew _ s b n a h _ := ⟨[.paramNew b n a], rfl, ⟨h, trivial⟩, trivial, by dsimp only; rw [lookup2_put]; exact fun _ _ _ h => h, rfl⟩
  pread s b n a h := ⟨[.paramRead b n a], rfl, ⟨.inr h, trivial⟩, trivial, by
    intro b' n' v' h'
    simp only [playP, Map.put] at h'
    split at h'
    · next e => obtain ⟨rfl, rfl⟩ := e; cases h'; exact h
    · exact h', rfl⟩
  sbundle s b := .silent rfl (fun _ _ _ h => h) (lookup2_setDefault' _ _)
  snew s b n a h _ := ⟨[.stateNew b n a], rfl, trivial, ⟨h, trivial⟩, fun _ _ _ h => h, lookup2_put _ _ _ _⟩
  sread s b n p h := ⟨[.stateRead b n p.current], rfl, trivial, ⟨by rw [h]; rfl, trivial⟩, fun _ _ _ h => h, rfl⟩
  sset s b n v _ := ⟨[.stateSet b n v], rfl, trivial, trivial, fun _ _ _ h => h, lookup2_put _ _ _ _⟩
  alloc s := .silent rfl (fun _ _ _ h => h) rfl
  heapSubs s m f := .silent rfl (fun _ _ _ h => h) rfl
  scope s own sc rest caller nm sc' _ _ := .silent rfl (fun _ _ _ h => h) rfl
  named s m n := .silent rfl (fun _ _ _ h => h) rfl
  lift _ s n p := .silent rfl (packIntoDict_le _ _ _) rfl

theorem paramNames_of_lookup {d : PDict} {b n : Str} {v : Arr} (h : lookup2 d b n = some v) : (b, n) ∈ paramNames d := by
  unfold lookup2 at h
  cases hb : d.get? b with
  | none => rw [hb] at h; simp at h
  | some i =>
    rw [hb] at h
    simp only [Option.bind_some] at h
    exact List.mem_flatMap.2 ⟨(b, i), Dict.mem_of_get? hb, List.mem_map.2 ⟨(n, v), Dict.mem_of_get? h, rfl⟩⟩

theorem lookup_of_paramNames {d : PDict} (hw : WF2 d) {b n : Str} (h : (b, n) ∈ paramNames d) : ∃ v, lookup2 d b n = some v := by
  obtain ⟨⟨b', i⟩, hp, hq⟩ := List.mem_flatMap.1 h
  obtain ⟨⟨n', v⟩, hq', e⟩ := List.mem_map.1 hq
  simp only [Prod.mk.injEq] at e
  obtain ⟨rfl, rfl⟩ := e
  have hg := Dict.get?_of_mem hw.1 hp
  refine ⟨v, ?_⟩
  unfold lookup2
  rw [hg]
  exact Dict.get?_of_mem (hw.2 _ _ hg) hq'

/-- Without new parameter names, nothing about the parameters is new. -/
theorem Hist.sameParams {s s' : Loc} (hw : s.WF) (h : Hist s s') (hn : hasNewParams s.params s'.params = false) :
    Map.le (lookup2 s'.params) (lookup2 s.params) := by
  intro b n v hv
  have h1 := paramNames_of_lookup hv
  have h2 : (b, n) ∈ paramNames s.params := by
    unfold hasNewParams at hn
    rw [List.any_eq_false] at hn
    simpa using hn _ h1
  obtain ⟨v', hv'⟩ := lookup_of_paramNames hw.1 h2
  have := h.params _ _ _ hv'
  rw [hv] at this
  rw [hv', this]

theorem lookup2_updateFull {β : Type} (d : Dict Str (Dict Str β)) {d' : Dict Str (Dict Str β)} (hw : WF2 d') (b n : Str) :
    lookup2 (updateRecursive d (d'.mapVals fun _ b => b.mapVals fun _ v => some v)) b n = (lookup2 d' b n).or (lookup2 d b n) := by
  rw [updateRecursive_eq]
  have hk : (d'.mapVals fun _ b => b.mapVals fun _ v => some v : Dict Str (Dict Str (Option β))).keys = d'.keys := Dict.keys_mapVals _ _
  unfold lookup2
  rw [get?_foldl_upd _ (by rw [hk]; exact hw.1), Dict.get?_mapVals]
  cases hb : d'.get? b with
  | none => simp
  | some i =>
    simp only [Option.map_some, Option.bind_some]
    have hi : (i.mapVals fun _ v => some v : Dict Str (Option β)).keys = i.keys := Dict.keys_mapVals _ _
    rw [get?_updInner _ (by rw [hi]; exact hw.2 _ _ hb), Dict.get?_mapVals]
    cases hv : i.get? n with
    | none => simp; cases d.get? b <;> simp
    | some v => simp

theorem Hist.stable : Stable (Allow.all fun _ => Hist) (fun _ _ => True) (fun _ => Hist) (fun _ => Hist) where
  preord _ := Hist.preord
  sub h := h
  trans h k := Hist.preord.trans h k
  tol E := Hist.tol E
  sim _ _ _ _ h := h
  simQ _ _ _ _ h := h
  abort _ := .silent rfl (fun _ _ _ h => h) rfl
  newParams hw hg h hn := by
    have hp := h.sameParams hw hn
    obtain ⟨l, h1, h2, h3, h4, h5⟩ := h
    exact ⟨l, h1, h2, h3, fun b n v hv => hp _ _ _ (h4 _ _ _ hv), h5⟩
  caught p h := h
  cond _ _ _ := trivial
  whileEnd := by
    intro s s1 s2 hw _ hc hg1 hg2 h1 h2
    obtain ⟨l, a1, a2, a3, a4, a5⟩ := h1
    obtain ⟨k, b1, b2, b3, b4, b5⟩ := h2
    have hfr : s2.params = s.params := hg2.frozen rfl
    refine ⟨k, b1, b2, b3, by rw [hfr] at b4; exact b4, ?_⟩
    have hst : storesIn l = 0 := by
      unfold stateChanged at hc
      simp only [ne_eq, decide_not, Bool.or_eq_false_iff, Bool.not_eq_false', decide_eq_true_eq] at hc
      rw [a1, storesIn_append] at hc
      omega
    rw [playS_of_noStores _ hst] at a5
    funext b n
    dsimp only
    rw [lookup2_updateFull _ (hg2.wf hw).2, a5]
    rw [show playS k (lookup2 s.state) = lookup2 s2.state from b5.symm]
    cases h2 : lookup2 s2.state b n with
    | some v => rfl
    | none =>
      cases h3 : lookup2 s.state b n with
      | none => rfl
      | some v =>
        exfalso
        have hx := hg2.state
        unfold lookup2 at h2 h3
        cases hb : s.state.get? b with
        | none => rw [hb] at h3; simp at h3
        | some i =>
          rw [hb] at h3
          obtain ⟨i', c1, c2⟩ := hx.2 b i hb
          rw [c1] at h2
          simp only [Option.bind_some] at h2 h3
          rw [Dict.get?_eq_none_iff] at h2
          refine h2 (c2.subset ?_)
          rw [Dict.mem_keys_iff, h3]; rfl
  whileQ _ h1 _ := h1
  inRng _ _ _ _ _ h := h
  inRngQ _ _ _ _ _ h := h
  discard _ _ _ _ _ := .silent rfl (fun _ _ _ h => h) rfl

/-! ### With frozen parameters -/

/-- An access that a frozen frame with parameters `d` allows. -/
def Given (d : PDict) : Event → Prop
  | .paramNew _ _ _ => False
  | .paramRead b n v => lookup2 d b n = some v
  | _ => True

/-- In a frozen frame, the parameters are the same and all recorded accesses are allowed. -/
def FrozenHist (f : Bool) (s s' : Loc) : Prop :=
  f = true → s'.params = s.params ∧ ∃ l, s'.trace = s.trace ++ l ∧ ∀ e ∈ l, Given s.params e

theorem FrozenHist.silent {f : Bool} {s s' : Loc} (hp : f = true → s'.params = s.params) (ht : s'.trace = s.trace) : FrozenHist f s s' :=
  fun h => ⟨hp h, [], by simp [ht], by simp⟩

theorem FrozenHist.preord (f : Bool) : Preord (FrozenHist f) where
  refl s := .silent (fun _ => rfl) rfl
  trans := by
    intro a b c h k hf
    obtain ⟨h1, l, h2, h3⟩ := h hf
    obtain ⟨k1, m, k2, k3⟩ := k hf
    refine ⟨k1.trans h1, l ++ m, by rw [k2, h2, List.append_assoc], fun e he => ?_⟩
    rcases List.mem_append.1 he with he | he
    · exact h3 e he
    · rw [← h1]; exact k3 e he

theorem FrozenHist.one {f : Bool} {s s' : Loc} (e : Event) (hp : s'.params = s.params) (ht : s'.trace = s.trace ++ [e]) (he : Given s.params e) :
    FrozenHist f s s' := fun _ => ⟨hp, [e], ht, by simpa using he⟩

theorem FrozenHist.tol (E : Env) : Tol E (FrozenHist E.frozen) where
  draw s q h := by unfold drawKey; split <;> exact .silent (fun _ => rfl) rfl
  take s q n h := .silent (fun _ => rfl) rfl
  reserve s q n h := .silent (fun _ => rfl) rfl
  full s q h := .silent (fun _ => rfl) rfl
  pbundle hf s b := fun h => by rw [hf] at h; cases h
  pnew hf s b n a _ _ := fun h => by rw [hf] at h; cases h
  pread s b n a h := .one _ rfl rfl h
  sbundle s b := .silent (fun _ => rfl) rfl
  snew s b n a h _ := .one _ rfl rfl trivial
  sread s b n p h := .one _ rfl rfl trivial
  sset s b n v _ := .one _ rfl rfl trivial
  alloc s := .silent (fun _ => rfl) rfl
  heapSubs s m f := .silent (fun _ => rfl) rfl
  scope s own sc rest caller nm sc' _ _ := .silent (fun _ => rfl) rfl
  named s m n := .silent (fun _ => rfl) rfl
  lift hf s n p := fun h => by rw [hf] at h; cases h

theorem FrozenHist.stable : Stable (Allow.all FrozenHist) (fun _ _ => True) FrozenHist FrozenHist where
  preord := FrozenHist.preord
  sub h := h
  trans h k := (FrozenHist.preord _).trans h k
  tol E := FrozenHist.tol E
  sim _ _ _ _ h := h
  simQ _ _ _ _ h := h
  abort _ := .silent (fun _ => rfl) rfl
  newParams _ _ h _ := fun hf => ⟨rfl, (h hf).2⟩
  caught p h := h
  cond _ _ _ := trivial
  whileEnd _ _ _ _ _ _ h := fun hf => ⟨rfl, (h hf).2⟩
  whileQ _ h1 _ := h1
  inRng _ _ _ _ _ h := h
  inRngQ _ _ _ _ _ h := h
  discard _ _ _ _ _ := .silent (fun _ => rfl) rfl

end Verif
