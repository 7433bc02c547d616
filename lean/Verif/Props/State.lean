import Verif.Props.Params

/-!
# State (C05, C06)
-/

set_option linter.unusedVariables false

namespace Verif.Props.State
open Verif Names Frame
open Verif.Props.Context Verif.Props.Control Verif.Props.Params

/-! ### Specification vocabulary -/

/-- The state entry `name` of module `m` of the current frame. -/
def entry (w : World) (m name : Str) : Option StatePair := lookup2 ((w.frames.head?.map FrameS.state).getD []) m name

/-- The values written to the state `name` of module `m`, in order: by creating it and by `set_state`. -/
def writes (l : List Event) (m name : Str) : List Arr := l.filterMap fun
  | .stateNew b n v => if b = m ∧ n = name then some v else none
  | .stateSet b n v => if b = m ∧ n = name then some v else none
  | _ => none

/-- The function of a transform starts in this world. -/
def entered (c : Ctx) (w : World) : World := { w with frames := World.frameOf c :: w.frames, log := [] }

/-! ### Lemmas -/

/-- What a list of writes makes of an entry: the initial value is the old one or the first written, the current value the last written. -/
def afterWrites (old : Option StatePair) : List Arr → Option StatePair
  | [] => old
  | v :: vs => some ⟨(old.map StatePair.initial).getD v, (v :: vs).getLast (by simp)⟩

theorem afterWrites_cons (old : Option StatePair) (v : Arr) (vs : List Arr) :
    afterWrites old (v :: vs) = afterWrites (some ⟨(old.map StatePair.initial).getD v, v⟩) vs := by
  cases vs with
  | nil => rfl
  | cons u us => simp [afterWrites]

theorem playS_writes : ∀ {l : List Event} {S : Map StatePair}, LegalS l S → ∀ m name, playS l S m name = afterWrites (S m name) (writes l m name) := by
  intro l
  induction l with
  | nil => intro S _ m name; rfl
  | cons e l ih =>
    intro S h m name
    cases e with
    | stateNew b n v =>
      obtain ⟨h1, h2⟩ := h
      show playS l (S.put b n ⟨v, v⟩) m name = _
      rw [ih h2]
      by_cases hb : b = m ∧ n = name
      · have e1 : writes (.stateNew b n v :: l) m name = v :: writes l m name := by simp [writes, hb]
        obtain ⟨rfl, rfl⟩ := hb
        rw [e1, afterWrites_cons, h1]
        simp [Map.put]
      · have e1 : writes (.stateNew b n v :: l) m name = writes l m name := by simp [writes, hb]
        rw [e1]
        simp only [Map.put]
        rw [if_neg fun k => hb ⟨k.1.symm, k.2.symm⟩]
    | stateSet b n v =>
      show playS l (S.put b n ⟨((S b n).map StatePair.initial).getD v, v⟩) m name = _
      rw [ih h]
      by_cases hb : b = m ∧ n = name
      · have e1 : writes (.stateSet b n v :: l) m name = v :: writes l m name := by simp [writes, hb]
        obtain ⟨rfl, rfl⟩ := hb
        rw [e1, afterWrites_cons]
        simp [Map.put]
      · have e1 : writes (.stateSet b n v :: l) m name = writes l m name := by simp [writes, hb]
        rw [e1]
        simp only [Map.put]
        rw [if_neg fun k => hb ⟨k.1.symm, k.2.symm⟩]
    | stateRead b n v => exact ih h.2 m name
    | paramNew b n v => exact ih h m name
    | paramRead b n v => exact ih h m name

theorem afterWrites_eq (old : Option StatePair) (vs : List Arr) :
    (afterWrites old vs).map StatePair.current = vs.getLast?.or (old.map StatePair.current) ∧
    (afterWrites old vs).map StatePair.initial = (old.map StatePair.initial).or vs.head? := by
  cases vs with
  | nil => simp [afterWrites]
  | cons v vs =>
    refine ⟨by rw [List.getLast?_eq_some_getLast (by simp)]; rfl, ?_⟩
    cases old <;> rfl

/-! ### C05, C06 -/

/-- C05 in every run, however it ends: the initial value of every entry is the one it had before, or for a new entry the first value
written to it; the current value is the last one written. -/
theorem initial_and_current {w : World} (hw : InTransform w) (ht : Tidy w) (p : Prog) :
    ∃ l, accesses (p.run stackMach w).2 = accesses w ++ l ∧ ∀ m name,
      (entry (p.run stackMach w).2 m name).map StatePair.initial = ((entry w m name).map StatePair.initial).or (writes l m name).head? ∧
      (entry (p.run stackMach w).2 m name).map StatePair.current = (writes l m name).getLast?.or ((entry w m name).map StatePair.current) := by
  obtain ⟨F, rest, r, tl, hF, hr⟩ := hw
  have hc := toWorld_curr hF hr
  generalize curr F r w = s at hc
  subst hc
  rw [tidy_toWorld] at ht
  rw [(ref_run _).1]
  obtain ⟨l, h1, h2, h3, h4, h5⟩ := hist_run p s ht
  refine ⟨l, h1, fun m name => ?_⟩
  have e : entry (toWorld (p.run localMach s).2 tl rest) m name = afterWrites (lookup2 s.loc.state m name) (writes l m name) := by
    show lookup2 (p.run localMach s).2.loc.state m name = _
    rw [h5, playS_writes h3]
  have k := afterWrites_eq (lookup2 s.loc.state m name) (writes l m name)
  dsimp only
  rw [e]
  exact ⟨k.2, k.1⟩

/-- C05 the initial value of an existing entry never changes. -/
theorem initial_fixed {w : World} (hw : InTransform w) (ht : Tidy w) (p : Prog) (m name : Str) (v c : Arr)
    (h : entry w m name = some ⟨v, c⟩) : ∃ c', entry (p.run stackMach w).2 m name = some ⟨v, c'⟩ := by
  obtain ⟨l, _, h2⟩ := initial_and_current hw ht p
  have := (h2 m name).1
  rw [h] at this
  simp only [Option.map_some, Option.some_or] at this
  cases he : entry (p.run stackMach w).2 m name with
  | none => rw [he] at this; cases this
  | some q => rw [he] at this; obtain ⟨a, b⟩ := q; cases this; exact ⟨b, rfl⟩

/-- C06 in every run, whatever the program reads from the state `name` of module `m` is the last value written to it before in the run,
or else the value it had before the run; writes elsewhere have no influence. -/
theorem read_last_write {w : World} (hw : InTransform w) (ht : Tidy w) (p : Prog) :
    ∃ l, accesses (p.run stackMach w).2 = accesses w ++ l ∧ ∀ before after m name v, l = before ++ .stateRead m name v :: after →
      some v = (writes before m name).getLast?.or ((entry w m name).map StatePair.current) := by
  obtain ⟨F, rest, r, tl, hF, hr⟩ := hw
  have hc := toWorld_curr hF hr
  generalize curr F r w = s at hc
  subst hc
  rw [tidy_toWorld] at ht
  rw [(ref_run _).1]
  obtain ⟨l, h1, h2, h3, h4, h5⟩ := hist_run p s ht
  refine ⟨l, h1, ?_⟩
  rintro before after m name v rfl
  rw [LegalS_append] at h3
  obtain ⟨h6, h7, h8⟩ := h3
  rw [playS_writes h6] at h7
  rw [← h7]
  exact (afterWrites_eq _ _).1

/-- C06 a state entry is created by `get_state` only when it did not exist. -/
theorem state_created_when_absent {w : World} (hw : InTransform w) (ht : Tidy w) (p : Prog) :
    ∃ l, accesses (p.run stackMach w).2 = accesses w ++ l ∧ ∀ before after m name v, l = before ++ .stateNew m name v :: after →
      entry w m name = none ∧ writes before m name = [] := by
  obtain ⟨F, rest, r, tl, hF, hr⟩ := hw
  have hc := toWorld_curr hF hr
  generalize curr F r w = s at hc
  subst hc
  rw [tidy_toWorld] at ht
  rw [(ref_run _).1]
  obtain ⟨l, h1, h2, h3, h4, h5⟩ := hist_run p s ht
  refine ⟨l, h1, ?_⟩
  rintro before after m name v rfl
  rw [LegalS_append] at h3
  obtain ⟨h6, h7, h8⟩ := h3
  rw [playS_writes h6] at h7
  cases hwr : writes before m name with
  | nil => rw [hwr] at h7; exact ⟨h7, rfl⟩
  | cons x xs => rw [hwr] at h7; cases h7

/-! ### What init and apply return -/

theorem run_entered (c : Ctx) (w : World) (p : Prog) :
    p.run stackMach (entered c w) = ((p.run localMach (ctxStart c w)).1, toWorld (p.run localMach (ctxStart c w)).2 [] w.frames) := by
  have h : toWorld (ctxStart c w) [] w.frames = entered c w := rfl
  rw [← h]
  exact (ref_run p).1 _ _ _

theorem lookup2_extract (b : Bool) (st : SDict) (m name : Str) :
    lookup2 (extractState b st) m name = (lookup2 st m name).map fun p => if b then p.initial else p.current := by
  unfold lookup2 extractState
  rw [Dict.get?_mapVals]
  cases st.get? m with
  | none => rfl
  | some i => simp [Dict.get?_mapVals]

theorem lookup2_mapPair (d : PDict) (m name : Str) :
    lookup2 (d.mapVals fun _ b => b.mapVals fun _ v => (⟨v, v⟩ : StatePair)) m name = (lookup2 d m name).map fun v => ⟨v, v⟩ := by
  unfold lookup2
  rw [Dict.get?_mapVals]
  cases d.get? m with
  | none => rfl
  | some i => simp [Dict.get?_mapVals]

/-- C05, C03 `init` runs the function in a fresh frame; it returns the recorded parameters and for every state entry the first value written
to it. -/
theorem init_returns (rng : RngArg) (q : Option PRNGSeq) (p : Prog) (w w1 : World) (ps st : PDict) (hq : rng.toSeq = .ok q)
    (h : (Prog.initT rng p).run stackMach w = (.ok (.pair (.bundle ps) (.bundle st)), w1)) :
    ps = topParams (p.run stackMach (entered (Ctx.new none none q) w)).2 ∧
    ∀ m name, lookup2 st m name = (writes (accesses (p.run stackMach (entered (Ctx.new none none q) w)).2) m name).head? := by
  rw [initT_run, hq] at h
  have ht : Tidy (entered (Ctx.new none none q) w) := fun F hF => by cases hF; exact tidy_start none none q w _ rfl
  obtain ⟨l, h1, h2⟩ := initial_and_current (w := entered (Ctx.new none none q) w) ⟨_, _, _, _, rfl, rfl⟩ ht p
  have e : accesses (entered (Ctx.new none none q) w) = [] := rfl
  rw [e, List.nil_append] at h1
  rw [h1]
  rw [run_entered] at h2 ⊢
  dsimp only at h
  rcases hm : p.run localMach (ctxStart (Ctx.new none none q) w) with ⟨x | v, s⟩
  · rw [hm] at h; cases h
  · rw [hm] at h h2
    dsimp only at h
    cases h
    refine ⟨rfl, fun m name => ?_⟩
    have := (h2 m name).1
    rw [lookup2_extract]
    exact this

/-- C05 `apply` returns for every state entry the last value written to it, or else the value that was passed in. -/
theorem apply_returns (params state : Option PDict) (rng : RngArg) (q : Option PRNGSeq) (p : Prog) (w w1 : World) (v : Val) (st : PDict)
    (hq : rng.toSeq = .ok q)
    (h : (Prog.applyT params state rng p).run stackMach w = (.ok (.pair v (.bundle st)), w1)) :
    ∀ m name, lookup2 st m name =
      (writes (accesses (p.run stackMach (entered (Ctx.new (some (params.getD [])) (some (state.getD [])) q) w)).2) m name).getLast?.or
        (lookup2 (dict2 (state.getD [])) m name) := by
  rw [applyT_run, hq] at h
  generalize hc : Ctx.new (some (params.getD [])) (some (state.getD [])) q = c
  have ht : Tidy (entered c w) := fun F hF => by cases hF; subst hc; exact tidy_start _ _ q w _ rfl
  obtain ⟨l, h1, h2⟩ := initial_and_current (w := entered c w) ⟨_, _, _, _, rfl, rfl⟩ ht p
  have e : accesses (entered c w) = [] := rfl
  rw [e, List.nil_append] at h1
  rw [h1]
  rw [run_entered] at h2
  have hst : ∀ m name, (entry (entered c w) m name).map StatePair.current = lookup2 (dict2 (state.getD [])) m name := by
    intro m name
    subst hc
    show (lookup2 ((dict2 (state.getD [])).mapVals fun _ b => b.mapVals fun _ v => (⟨v, v⟩ : StatePair)) m name).map _ = _
    rw [lookup2_mapPair]
    cases lookup2 (dict2 (state.getD [])) m name <;> rfl
  dsimp only at h
  rw [hc] at h
  rcases hm : p.run localMach (ctxStart c w) with ⟨x | u, s⟩
  · rw [hm] at h; cases h
  · rw [hm] at h h2
    dsimp only at h
    cases h
    intro m name
    have := (h2 m name).2
    rw [hst] at this
    rw [lookup2_extract]
    exact this

/-! ### The operations -/

/-- What the getters active in `w` make of a stored state value. -/
def viaGetters (w : World) (m name : Str) (shape : Option (List Nat)) (dtype : Option DType) (a : Arr) : Except Exc Arr :=
  runGetters ⟨m ++ '/' :: name, w.frames.head?.bind fun F => F.moduleStack.head?.map Prod.fst, dtype, shape⟩ w.hooks.stateGetters a

theorem getState_eq (name : Str) (shape : Option (List Nat)) (dtype : Option DType) (i : Option Initializer) (s : LW) :
    (Prog.op (.getState name shape dtype i)).run localMach s =
      localMach.top (fun E => getState name shape dtype i E >>- fun a => M.pure (.arr a)) s := rfl

theorem setState_eq (name : Str) (v : Arr) (s : LW) :
    (Prog.op (.setState name v)).run localMach s = localMach.top (fun E => setState name v E >>- fun _ => M.pure .unit) s := rfl

/-- C06 `set_state` succeeds, and changes exactly the one entry: its current value is the written one, its initial value stays or,
for a new entry, is the written one. -/
theorem set_state_writes {w : World} (hw : InTransform w) (m name : Str) (v : Arr) (hm : moduleNow w = some m) :
    let w' := ((Prog.op (.setState name v)).run stackMach w).2
    ((Prog.op (.setState name v)).run stackMach w).1 = .ok .unit ∧
    entry w' m name = some ⟨((entry w m name).map StatePair.initial).getD v, v⟩ ∧
    (∀ m' name', ¬ (m' = m ∧ name' = name) → entry w' m' name' = entry w m' name') ∧
    topParams w' = topParams w ∧ w'.log = w.log ∧ rngStackOf w' = rngStackOf w ∧
    accesses w' = accesses w ++ [.stateSet m name v] := by
  obtain ⟨F, rest, r, tl, hF, hr⟩ := hw
  have hc := toWorld_curr hF hr
  generalize curr F r w = s at hc
  subst hc
  have key : setState name v s.env s.loc = (.ok (), { s.loc with
      state := store2 (s.loc.state.setDefault m []) m name ⟨((lookup2 s.loc.state m name).map StatePair.initial).getD v, v⟩
      trace := s.loc.trace ++ [.stateSet m name v] }) := by
    unfold setState
    rw [M.bind, bundle_toWorld hm]
    dsimp only [M.bind, M.modify, M.get, record]
    rw [lookup2_setDefault]
    cases lookup2 s.loc.state m name <;> rfl
  rw [(ref_run _).1, setState_eq, top_eq, M.bind, key]
  dsimp only [M.pure]
  have e : ∀ m' name', entry (toWorld ⟨s.env, { s.loc with
      state := store2 (s.loc.state.setDefault m []) m name ⟨((lookup2 s.loc.state m name).map StatePair.initial).getD v, v⟩
      trace := s.loc.trace ++ [.stateSet m name v] }⟩ tl rest) m' name' =
      Map.put (lookup2 s.loc.state) m name ⟨((lookup2 s.loc.state m name).map StatePair.initial).getD v, v⟩ m' name' := by
    intro m' name'
    show lookup2 (store2 _ _ _ _) m' name' = _
    rw [lookup2_put, lookup2_setDefault']
  refine ⟨rfl, ?_, ?_, rfl, rfl, rfl, rfl⟩
  · rw [e]; simp only [Map.put, and_self, if_true]; rfl
  · intro m' name' hn
    rw [e]
    simp only [Map.put]
    rw [if_neg hn]
    rfl

/-- C06 `get_state` of an existing entry gives its current value through the getters active at that moment and changes nothing but the
record of accesses. -/
theorem get_state_existing {w : World} (hw : InTransform w) (m name : Str) (shape : Option (List Nat)) (dtype : Option DType)
    (i : Option Initializer) (v c : Arr) (hm : moduleNow w = some m) (hp : entry w m name = some ⟨v, c⟩) :
    (Prog.op (.getState name shape dtype i)).run stackMach w =
      ((viaGetters w m name shape dtype c).map .arr, accessed (.stateRead m name c) w) := by
  obtain ⟨F, rest, r, tl, hF, hr⟩ := hw
  have hc := toWorld_curr hF hr
  generalize curr F r w = s at hc
  subst hc
  have hp : lookup2 s.loc.state m name = some ⟨v, c⟩ := hp
  have hb : ∃ i, s.loc.state.get? m = some i := by
    unfold lookup2 at hp
    cases h : s.loc.state.get? m with
    | none => rw [h] at hp; cases hp
    | some i => exact ⟨i, rfl⟩
  obtain ⟨bi, hb⟩ := hb
  have key : getState name shape dtype i s.env s.loc =
      (runGetters ⟨fqName m name, currentModule s.env, dtype, shape⟩ s.env.hooks.stateGetters c,
       { s.loc with trace := s.loc.trace ++ [.stateRead m name c] }) := by
    unfold getState
    rw [M.bind, bundle_toWorld hm]
    dsimp only
    rw [M.bind]
    dsimp only [M.modify]
    rw [M.bind]
    dsimp only [M.get]
    rw [Dict.setDefault_of_some hb, hp]
    rfl
  rw [(ref_run _).1, getState_eq, top_eq, M.bind, key]
  have e1 : viaGetters (toWorld s tl rest) m name shape dtype c =
    runGetters ⟨fqName m name, currentModule s.env, dtype, shape⟩ s.env.hooks.stateGetters c := rfl
  rw [e1]
  cases runGetters ⟨fqName m name, currentModule s.env, dtype, shape⟩ s.env.hooks.stateGetters c <;> rfl

/-- C06 `get_state` of a missing entry, when it returns: a value was made by the creators around one run of the initializer; both the
initial and the current value of the new entry are this value, every other entry stays; it is returned through the getters. -/
theorem get_state_missing {w w1 : World} {u : Val} (hw : InTransform w) (m name : Str) (shape : Option (List Nat)) (dtype : Option DType)
    (i : Option Initializer) (hm : moduleNow w = some m) (hp : entry w m name = none)
    (h : (Prog.op (.getState name shape dtype i)).run stackMach w = (.ok u, w1)) :
    ∃ init sh dt keys a, i = some init ∧ shape = some sh ∧ dtype = some dt ∧
      Creates ⟨m ++ '/' :: name, w.frames.head?.bind fun F => F.moduleStack.head?.map Prod.fst, some dt, some sh⟩
        w.hooks.stateCreators sh dt init keys a ∧
      w1.log = w.log ++ keys ∧ entry w1 m name = some ⟨a, a⟩ ∧
      (∀ m' name', ¬ (m' = m ∧ name' = name) → entry w1 m' name' = entry w m' name') ∧
      topParams w1 = topParams w ∧ accesses w1 = accesses w ++ [.stateNew m name a] ∧
      (viaGetters w m name shape dtype a).map .arr = .ok u := by
  obtain ⟨F, rest, r, tl, hF, hr⟩ := hw
  have hc := toWorld_curr hF hr
  generalize curr F r w = s at hc
  subst hc
  have hp : lookup2 s.loc.state m name = none := hp
  rw [(ref_run _).1, getState_eq, top_eq] at h
  unfold getState at h
  rw [M.bind, M.bind, bundle_toWorld hm] at h
  dsimp only at h
  rw [M.bind] at h
  dsimp only [M.modify] at h
  rw [M.bind] at h
  dsimp only [M.get] at h
  rw [lookup2_setDefault, hp] at h
  cases i with
  | none => cases h
  | some init =>
  cases shape with
  | none => cases h
  | some sh =>
  cases dtype with
  | none => cases h
  | some dt =>
  dsimp only at h
  have hk := keep_noRng_runCreators ⟨fqName m name, currentModule s.env, some dt, some sh⟩ s.env.hooks.stateCreators sh dt init
    { s.loc with state := s.loc.state.setDefault m [] }
  rcases hcr : runCreators ⟨fqName m name, currentModule s.env, some dt, some sh⟩ s.env.hooks.stateCreators sh dt init
    { s.loc with state := s.loc.state.setDefault m [] } with ⟨e | a, s1⟩
  · rw [M.bind, M.bind, hcr] at h
    cases h
  · obtain ⟨keys, h1, h2⟩ := creates_of_run _ _ _ _ _ _ _ _ hcr
    rw [hcr] at hk
    simp only [Keep, Loc.noRng, Prod.mk.injEq] at hk
    rw [M.bind, M.bind, hcr] at h
    dsimp only [record, M.modify, M.bind, M.pure, Frame.liftExcept] at h
    have e1 : viaGetters (toWorld s tl rest) m name (some sh) (some dt) a =
      runGetters ⟨fqName m name, currentModule s.env, some dt, some sh⟩ s.env.hooks.stateGetters a := rfl
    refine ⟨init, sh, dt, keys, a, rfl, rfl, rfl, h1, ?_⟩
    rw [e1]
    rcases hg : runGetters ⟨fqName m name, currentModule s.env, some dt, some sh⟩ s.env.hooks.stateGetters a with e | r
    · rw [hg] at h; cases h
    · rw [hg] at h
      obtain ⟨h3, h4⟩ := Prod.mk.inj h
      cases h3
      subst h4
      have e : ∀ m' name', lookup2 (store2 s1.state m name ⟨a, a⟩) m' name' = Map.put (lookup2 s.loc.state) m name ⟨a, a⟩ m' name' := by
        intro m' name'
        rw [lookup2_put, hk.2.1, lookup2_setDefault']
      refine ⟨h2, (e m name).trans (by simp [Map.put]), ?_, hk.1, ?_, rfl⟩
      · intro m' name' hn
        refine (e m' name').trans ?_
        simp only [Map.put]
        rw [if_neg hn]
        rfl
      · show s1.trace ++ _ = _
        rw [hk.2.2.2.2]; rfl

/-! ### Examples -/

/-- Counts in the state, with the reads in between. -/
def counter : Prog :=
  .bind (.op (.getState "n".toList (some []) (some .f32) (some fun sh d => .ret ⟨sh, d, [0]⟩))) fun _ =>
  .bind (.op (.setState "n".toList ⟨[], .f32, [1]⟩)) fun _ =>
  .bind (.jit (.op (.setState "other".toList ⟨[], .f32, [9]⟩))) fun _ =>
  .op (.getState "n".toList none none none)

example : InTransform starting ∧ Tidy starting ∧ moduleNow starting = some "~".toList ∧ entry starting "~".toList "n".toList = none ∧
    entry (counter.run stackMach starting).2 "~".toList "n".toList = some ⟨⟨[], .f32, [0]⟩, ⟨[], .f32, [1]⟩⟩ ∧
    accesses (counter.run stackMach starting).2 = [.stateNew "~".toList "n".toList ⟨[], .f32, [0]⟩,
      .stateSet "~".toList "n".toList ⟨[], .f32, [1]⟩, .stateSet "~".toList "other".toList ⟨[], .f32, [9]⟩] ++
      .stateRead "~".toList "n".toList ⟨[], .f32, [1]⟩ :: [] :=
  ⟨starting_in, starting_tidy, by decide +kernel⟩

example : ((Prog.initT .none counter).run stackMach World.initial).1 =
    .ok (.pair (.bundle []) (.bundle [("~".toList, [("n".toList, ⟨[], .f32, [0]⟩), ("other".toList, ⟨[], .f32, [9]⟩)])])) ∧
    ((Prog.applyT none (some [("~".toList, [("n".toList, ⟨[], .f32, [4]⟩), ("k".toList, ⟨[], .f32, [6]⟩)])]) .none counter).run stackMach
      World.initial).1 =
    .ok (.pair (.arr ⟨[], .f32, [1]⟩) (.bundle [("~".toList, [("n".toList, ⟨[], .f32, [1]⟩), ("k".toList, ⟨[], .f32, [6]⟩),
      ("other".toList, ⟨[], .f32, [9]⟩)])])) := by decide +kernel

end Verif.Props.State
