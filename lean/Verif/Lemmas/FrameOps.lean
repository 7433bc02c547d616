import Verif.Lemmas.Pres

/-!
# Which parts of the frame each operation changes
-/

set_option linter.unusedSectionVars false
set_option linter.unusedVariables false

namespace Verif
open Names Frame

variable {α β γ : Type}

/-- The part `f` of the data is the same before and after. -/
def Keep (f : Loc → γ) : Loc → Loc → Prop := fun s s' => f s' = f s

theorem Keep.preord (f : Loc → γ) : Preord (Keep f) := ⟨fun _ => rfl, fun h k => k.trans h⟩

theorem Pres.modify {R : Loc → Loc → Prop} {g : Loc → Loc} (h : ∀ s, R s (g s)) : Pres R (M.modify g) := h

theorem Pres.readOnly {σ : Type} {R : σ → σ → Prop} (O : Preord R) {m : M σ α} (h : ReadOnly m) : Pres R m := fun s => by
  rw [h s]; exact O.refl s

theorem readOnly_bundleName (E : Env) : ReadOnly (bundleName E) := by
  intro s; unfold bundleName; split <;> rfl

theorem readOnly_liftExcept (r : Except Exc α) : ReadOnly (liftExcept r) := fun _ => rfl

theorem readOnly_callerOf (E : Env) : ReadOnly (callerOf E) := by
  intro s; unfold callerOf; split <;> rfl

theorem readOnly_modDict (m : ModId) (b : Bool) : ReadOnly (modDict m b) := by
  intro s; unfold modDict; split <;> rfl

theorem readOnly_liftUnpack (m : ModId) (E : Env) : ReadOnly (liftUnpack m E) := by
  intro s; unfold liftUnpack; split
  · rfl
  · split <;> rfl

/-- `updateInternalState` field by field. -/
theorem updateInternalState_eq (d : Diff) (E : Env) (s : Loc) : updateInternalState d E s =
    (if d.rng.isSome && s.rng.isNone then .error .noRng else .ok (),
      { s with
        params := if E.frozen then s.params else (d.params.map (updateRecursive s.params)).getD s.params
        state := updateRecursive s.state d.state
        rng := match d.rng, s.rng with
          | some r, some q => some (q.replaceInternalState r)
          | _, x => x
        trace := d.trace }) := by
  obtain ⟨dp, ds, dr, dt⟩ := d
  obtain ⟨p, st, r, sc, h, lg, tr⟩ := s
  unfold updateInternalState
  cases dp <;> cases dr <;> cases r <;> cases E.frozen <;> rfl

/-! ### What a preorder on frame data must tolerate -/

/-- `R` tolerates every primitive change the frame operations make in the surroundings `E`. -/
structure Tol (E : Env) (R : Loc → Loc → Prop) : Prop where
  draw : ∀ s q, s.rng = some q → R s (drawKey q s).2
  take : ∀ s q n, s.rng = some q → R s { s with rng := some (q.take n).2, log := s.log ++ (q.take n).1 }
  reserve : ∀ s q n, s.rng = some q → R s { s with rng := some (q.reserve n) }
  full : ∀ s q, s.rng = some q → R s { s with rng := some q.reserveUpToFull }
  pbundle : E.frozen = false → ∀ s b, R s { s with params := s.params.setDefault b [] }
  pnew : E.frozen = false → ∀ s b n a, lookup2 s.params b n = none → s.params.has b = true →
    R s { s with params := store2 s.params b n a, trace := s.trace ++ [.paramNew b n a] }
  pread : ∀ s b n a, lookup2 s.params b n = some a → R s { s with trace := s.trace ++ [.paramRead b n a] }
  sbundle : ∀ s b, R s { s with state := s.state.setDefault b [] }
  snew : ∀ s b n a, lookup2 s.state b n = none → s.state.has b = true →
    R s { s with state := store2 s.state b n ⟨a, a⟩, trace := s.trace ++ [.stateNew b n a] }
  sread : ∀ s b n p, lookup2 s.state b n = some p → R s { s with trace := s.trace ++ [.stateRead b n p.current] }
  sset : ∀ s b n v, s.state.has b = true → R s { s with
    state := store2 s.state b n ⟨((lookup2 s.state b n).map StatePair.initial).getD v, v⟩, trace := s.trace ++ [.stateSet b n v] }
  alloc : ∀ s, R s { s with heap := s.heap ++ [⟨none, none⟩] }
  heapSubs : ∀ s (m : ModId) (f : Option (List Str) → Option (List Str)), R s { s with heap := s.heap.modify m fun o => { o with subs := f o.subs } }
  scope : ∀ s own sc rest caller nm sc', s.scopes = own :: sc :: rest → (request caller sc nm).2 = sc' →
    R s { s with scopes := own :: sc' :: rest }
  named : ∀ s m n, R s { s with heap := s.heap.modify m fun o => { o with name := some n } }
  lift : E.frozen = false → ∀ s n p, R s { s with params := (packIntoDict n (dict2 p) s.params).2 }

theorem has_setDefault {κ ν : Type} [DecidableEq κ] (d : Dict κ ν) (k : κ) (v : ν) : (d.setDefault k v).has k = true := by
  rw [Dict.has_iff, Dict.mem_keys_iff, Dict.get?_setDefault]
  simp

theorem lookup2_setDefault {β : Type} (d : Dict Str (Dict Str β)) (b b' n : Str) :
    lookup2 (d.setDefault b []) b' n = lookup2 d b' n := by
  unfold lookup2
  rw [Dict.get?_setDefault]
  by_cases h : b = b'
  · subst h
    cases d.get? b <;> simp [Dict.get?]
  · simp [h]

section
variable {E : Env} {R : Loc → Loc → Prop} (O : Preord R) (T : Tol E R)
include O T

omit O T in
theorem rngSeqOrFail_eq {β : Type} (f : PRNGSeq → M Loc β) (s : Loc) : (rngSeqOrFail >>- f) s = match s.rng with
    | none => (.error .noRng, s)
    | some q => f q s := by
  unfold rngSeqOrFail M.bind
  dsimp only
  rcases s.rng with _ | q <;> rfl

theorem pres_nextRngKey : Pres R nextRngKey := by
  intro s
  unfold nextRngKey
  rw [rngSeqOrFail_eq]
  rcases h : s.rng with _ | q
  · exact O.refl s
  · exact T.draw s q h

theorem pres_nextRngKeys (n : Int) : Pres R (nextRngKeys n) := by
  intro s
  unfold nextRngKeys
  rw [rngSeqOrFail_eq]
  rcases h : s.rng with _ | q
  · exact O.refl s
  · exact T.take s q n h

theorem pres_maybeNextRngKey : Pres R maybeNextRngKey := by
  intro s
  unfold maybeNextRngKey
  rcases h : s.rng with _ | q
  · exact O.refl s
  · have h1 := T.draw s q h
    dsimp only
    unfold M.bind
    rcases h2 : drawKey q s with ⟨e | k, s'⟩ <;> rw [h2] at h1 <;> exact h1

theorem pres_reserveRngKeys (n : Int) : Pres R (reserveRngKeys n) := by
  intro s
  unfold reserveRngKeys
  rw [rngSeqOrFail_eq]
  rcases h : s.rng with _ | q
  · exact O.refl s
  · exact T.reserve s q n h

theorem pres_reserveFull : Pres R reserveFull := by
  intro s
  unfold reserveFull
  rcases h : s.rng with _ | q
  · have : ({ s with rng := Option.map PRNGSeq.reserveUpToFull none } : Loc) = s := by
      cases s; simp at h; subst h; rfl
    show R s { s with rng := Option.map PRNGSeq.reserveUpToFull none }
    rw [this]; exact O.refl s
  · exact T.full s q h

theorem pres_runInit : ∀ p : KeyProg, Pres R (runInit p)
  | .ret a => Pres.pure O a
  | .raise e => Pres.throw O e
  | .draw k => Pres.bind O (pres_nextRngKey O T) fun key => pres_runInit (k key)

theorem pres_runCreators (ctx : GetterContext) : ∀ (cs : List Creator) sh dt init, Pres R (runCreators ctx cs sh dt init) := by
  intro cs
  induction cs with
  | nil => intro sh dt init; exact pres_runInit O T _
  | cons c cs ih =>
    intro sh dt init
    unfold runCreators
    cases c ctx sh dt init with
    | done a => exact Pres.pure O a
    | raise e => exact Pres.throw O e
    | next a b c post => exact Pres.bind O (ih _ _ _) fun _ => Pres.pure O _

end

/-- Sequencing where the rest may use what holds after the first part. -/
theorem Pres.bind' {σ : Type} {R : σ → σ → Prop} (O : Preord R) {m : M σ α} {f : α → M σ β} {s : σ} (hm : R s (m s).2)
    (hf : ∀ a s', m s = (.ok a, s') → R s' (f a s').2) : R s ((m >>- f) s).2 := by
  unfold M.bind
  rcases hms : m s with ⟨_ | a, s'⟩
  · rw [hms] at hm; exact hm
  · rw [hms] at hm; exact O.trans hm (hf a s' hms)

/-- The dictionaries, scopes, objects and accesses: everything but the rng. -/
def Loc.noRng (s : Loc) : PDict × SDict × List Scope × List ModObj × List Event := (s.params, s.state, s.scopes, s.heap, s.trace)

theorem keep_noRng_draw (q : PRNGSeq) (s : Loc) : Keep Loc.noRng s (drawKey q s).2 := by
  unfold drawKey
  rcases q.next with ⟨_ | k, q'⟩ <;> rfl

theorem keep_noRng_runInit : ∀ p : KeyProg, Pres (Keep Loc.noRng) (runInit p)
  | .ret a => Pres.pure (Keep.preord _) a
  | .raise e => Pres.throw (Keep.preord _) e
  | .draw k => by
    refine Pres.bind (Keep.preord _) ?_ fun key => keep_noRng_runInit (k key)
    intro s
    unfold nextRngKey
    rw [rngSeqOrFail_eq]
    rcases s.rng with _ | q
    · rfl
    · exact keep_noRng_draw q s

theorem keep_noRng_runCreators (ctx : GetterContext) :
    ∀ (cs : List Creator) sh dt init, Pres (Keep Loc.noRng) (runCreators ctx cs sh dt init) := by
  intro cs
  induction cs with
  | nil => intro sh dt init; exact keep_noRng_runInit _
  | cons c cs ih =>
    intro sh dt init
    unfold runCreators
    cases c ctx sh dt init with
    | done a => exact Pres.pure (Keep.preord _) a
    | raise e => exact Pres.throw (Keep.preord _) e
    | next a b c post => exact Pres.bind (Keep.preord _) (ih _ _ _) fun _ => Pres.pure (Keep.preord _) _

section
variable {E : Env} {R : Loc → Loc → Prop} (O : Preord R) (T : Tol E R)
include O T

theorem pres_getParameter (name : Str) (sh : List Nat) (dt : DType) (init : Option Initializer) :
    Pres R (getParameter name sh dt init E) := by
  unfold getParameter
  cases init with
  | none => exact Pres.throw O _
  | some init =>
    refine Pres.bind O (Pres.readOnly O (readOnly_bundleName E)) fun b => ?_
    intro s
    show R s ((if E.frozen && !s.params.has b then M.throw .paramMissing else _) s).2
    split
    · exact O.refl s
    · refine Pres.bind' O (s := s) ?_ ?_
      · split
        · exact O.refl s
        · rename_i hf; exact T.pbundle (by simpa using hf) s b
      · intro _ s' hs'
        have hs'p : lookup2 s'.params b name = lookup2 s.params b name := by
          split at hs'
          · simp only [M.pure, Prod.mk.injEq] at hs'; rw [← hs'.2]
          · simp only [M.modify, Prod.mk.injEq] at hs'; rw [← hs'.2]; exact lookup2_setDefault _ _ _ _
        have hs'b : E.frozen = false → s'.params.has b = true := by
          intro hf
          simp only [hf] at hs'
          simp only [Bool.false_eq_true, if_false, M.modify, Prod.mk.injEq] at hs'
          rw [← hs'.2]; exact has_setDefault _ _ _
        refine Pres.bind' O ?_ ?_
        · rw [← hs'p]
          rcases hl : lookup2 s'.params b name with _ | a
          · dsimp only
            split
            · exact O.refl s'
            · rename_i hf
              have hf : E.frozen = false := by simpa using hf
              refine Pres.bind' O (pres_runCreators O T _ _ _ _ _ s') ?_
              intro a s'' hs''
              have hk := keep_noRng_runCreators ⟨fqName b name, currentModule E, some dt, some sh⟩ E.hooks.paramCreators sh dt init s'
              rw [hs''] at hk
              simp only [Keep, Loc.noRng, Prod.mk.injEq] at hk
              exact T.pnew hf s'' b name a (by rw [hk.1]; exact hl) (by rw [hk.1]; exact hs'b hf)
          · exact T.pread s' b name a hl
        · intro a s'' _
          refine Pres.bind O (Pres.readOnly O (readOnly_liftExcept _)) (fun r => ?_) s''
          split
          · exact Pres.pure O _
          · exact Pres.throw O _

theorem pres_getState (name : Str) (sh : Option (List Nat)) (dt : Option DType) (init : Option Initializer) :
    Pres R (getState name sh dt init E) := by
  unfold getState
  refine Pres.bind O (Pres.readOnly O (readOnly_bundleName E)) fun b => ?_
  intro s
  refine Pres.bind' O (T.sbundle s b) ?_
  intro _ s' hs'
  simp only [M.modify, Prod.mk.injEq] at hs'
  have hb : s'.state.has b = true := by rw [← hs'.2]; exact has_setDefault _ _ _
  clear hs'
  show R s' (M.bind _ _ s').2
  refine Pres.bind' O (O.refl s') ?_
  intro a s'' h
  simp only [M.get, Prod.mk.injEq, Except.ok.injEq] at h
  obtain ⟨rfl, rfl⟩ := h
  refine Pres.bind' O ?_ fun a s'' _ => Pres.readOnly O (readOnly_liftExcept _) s''
  rcases hl : lookup2 s'.state b name with _ | p
  · dsimp only
    cases init with
    | none => exact O.refl s'
    | some init =>
      cases sh with
      | none => exact O.refl s'
      | some sh =>
        cases dt with
        | none => exact O.refl s'
        | some dt =>
          refine Pres.bind' O (pres_runCreators O T _ _ _ _ _ s') ?_
          intro a s'' hs''
          have hk := keep_noRng_runCreators ⟨fqName b name, currentModule E, some dt, some sh⟩ E.hooks.stateCreators sh dt init s'
          rw [hs''] at hk
          simp only [Keep, Loc.noRng, Prod.mk.injEq] at hk
          exact T.snew s'' b name a (by rw [hk.2.1]; exact hl) (by rw [hk.2.1]; exact hb)
  · exact T.sread s' b name p hl

theorem pres_setState (name : Str) (v : Arr) : Pres R (setState name v E) := by
  unfold setState
  refine Pres.bind O (Pres.readOnly O (readOnly_bundleName E)) fun b => ?_
  intro s
  refine Pres.bind' O (T.sbundle s b) ?_
  intro _ s' hs'
  simp only [M.modify, Prod.mk.injEq] at hs'
  have hb : s'.state.has b = true := by rw [← hs'.2]; exact has_setDefault _ _ _
  have := T.sset s' b name v hb
  show R s' { s' with state := _, trace := _ }
  rcases hl : lookup2 s'.state b name with _ | p <;> rw [hl] at this <;> exact this

theorem pres_superInit (self : ModId) (name : Option Str) (cls : Str) : Pres R (superInit self name cls E) := by
  unfold superInit
  dsimp only
  split
  · refine Pres.bind O (fun s => T.heapSubs s self fun _ => some []) fun _ => Pres.bind O (Pres.readOnly O (readOnly_callerOf E)) fun caller => ?_
    intro s
    dsimp only
    rcases hs : s.scopes with _ | ⟨own, _ | ⟨sc, rest⟩⟩
    · exact O.refl s
    · exact O.refl s
    · dsimp only
      rcases hr : request caller sc (name.getD (camelToSnake cls)) with ⟨e | q, sc'⟩
      · exact T.scope s own sc rest caller _ sc' hs (by rw [hr])
      · exact O.trans (T.scope s own sc rest caller _ sc' hs (by rw [hr])) (T.named _ self q)
  · exact Pres.throw O _

theorem pres_notifyLoop (self : ModId) (name : Str) : ∀ ms : List (ModId × Str), Pres R (notifyLoop self name ms) := by
  intro ms
  induction ms with
  | nil => exact Pres.pure O _
  | cons p ms ih =>
    obtain ⟨m, w⟩ := p
    unfold notifyLoop
    split
    · exact ih
    · intro s
      dsimp only
      split
      · rename_i subs _
        have h := T.heapSubs s m (fun _ => some (name :: subs))
        exact O.trans h (ih _)
      · exact O.refl s

theorem pres_notify (self : ModId) (nm : Option Str) : Pres R (notify self nm E) := by
  unfold notify
  refine Pres.bind O ?_ fun n => ?_
  · cases nm
    · exact Pres.readOnly O (readOnly_getModuleName self)
    · exact Pres.pure O _
  · cases n
    · exact Pres.pure O _
    · exact pres_notifyLoop O T _ _ _

theorem pres_liftPack (self : ModId) (p : PDict) : Pres R (liftPack self p E) := by
  intro s
  unfold liftPack
  split
  · exact O.refl s
  · split
    · exact O.refl s
    · rename_i hf; exact T.lift (by simpa using hf) s _ p

theorem pres_op (o : Op) : Pres R (o.run E) := by
  cases o with
  | getParam n sh dt i => exact Pres.bind O (pres_getParameter O T n sh dt i) fun _ => Pres.pure O _
  | getState n sh dt i => exact Pres.bind O (pres_getState O T n sh dt i) fun _ => Pres.pure O _
  | setState n v => exact Pres.bind O (pres_setState O T n v) fun _ => Pres.pure O _
  | nextKey => exact Pres.bind O (pres_nextRngKey O T) fun _ => Pres.pure O _
  | nextKeys n => exact Pres.bind O (pres_nextRngKeys O T n) fun _ => Pres.pure O _
  | maybeNextKey => exact Pres.bind O (pres_maybeNextRngKey O T) fun _ => Pres.pure O _
  | reserve n => exact Pres.bind O (pres_reserveRngKeys O T n) fun _ => Pres.pure O _
  | runningInit => exact Pres.pure O _
  | superInit m n cls => exact Pres.bind O (pres_superInit O T m n cls) fun _ => Pres.pure O _
  | modDict m b => exact Pres.readOnly O (readOnly_modDict m b)
  | liftUnpack m => exact Pres.bind O (Pres.readOnly O (readOnly_liftUnpack m E)) fun _ => Pres.pure O _
  | liftPack m p => exact Pres.bind O (pres_liftPack O T m p) fun _ => Pres.pure O _

theorem pres_alloc : Pres R allocModule := fun s => T.alloc s

end
end Verif
