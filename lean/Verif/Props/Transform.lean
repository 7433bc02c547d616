import Verif.Model.Transform
import Verif.Props.State

/-!
# `without_state` and `without_apply_rng` (C41)
-/

set_option linter.unusedVariables false

namespace Verif.Props.Transform
open Verif Names Frame
open Verif.Props.Context Verif.Props.Control Verif.Props.Params Verif.Props.State Verif.Transform

/-! ### Specification vocabulary -/

/-- The access is to state. -/
def StateAccess : Event → Prop
  | .stateNew .. => True
  | .stateRead .. => True
  | .stateSet .. => True
  | _ => False

/-- The function is about to run in `apply(params, {}, rng)`, called in `w`. -/
def inApply (params : PDict) (rng : Option PRNGSeq) (w : World) : World := entered (Ctx.new (some params) (some []) rng) w

/-- The function is about to run in `init(rng)`, called in `w`. -/
def inInit (rng : Option PRNGSeq) (w : World) : World := entered (Ctx.new none none rng) w

/-- What a call of `init` or `apply` leaves: the module objects made meanwhile. -/
def leaving (w' w : World) : World := { w with heap := w'.heap }

/-- The modules that have state, or had a state lookup, in the current frame. -/
def stateModules (w : World) : List Str := ((w.frames.head?.map FrameS.state).getD []).map Prod.fst

/-! ### Running the function -/

theorem entered_run (c : Ctx) (w : World) (p : Prog) : p.run stackMach (entered c w) =
    ((p.run localMach (ctxStart c w)).1, toWorld (p.run localMach (ctxStart c w)).2 [] w.frames) := by
  rw [run_curr (w := entered c w) (F := World.frameOf c) (rest := w.frames) (r := c.rng) (tl := []) rfl rfl]
  rfl

theorem extract_isEmpty (b : Bool) (d : SDict) : (extractState b d).isEmpty = d.isEmpty := by
  cases d <;> rfl

/-- C41 `hk.transform(f).apply(params, rng, *args)` runs the function as `transform_with_state(f).apply(params, {}, rng, *args)` does, gives
the same output or exception, and raises after a run that leaves state. -/
theorem transform_apply (f : List Val → Prog) (pv rv : Val) (args : List Val) (params : PDict) (r : Option PRNGSeq)
    (hp : checkMapping pv = some params) (hr : (rngArg rv).toSeq = .ok r) (w : World) :
    let q := (f args).run stackMach (inApply params r w)
    ((transformWithState f).apply (pv :: .bundle [] :: rv :: args)).run stackMach w =
        (match q.1 with
          | .ok v => (.ok (.pair v (.bundle (topState q.2))), leaving q.2 w)
          | .error e => (.error e, leaving q.2 w)) ∧
      ((transform f).apply (pv :: rv :: args)).run stackMach w =
        (match q.1 with
          | .ok v => (if stateModules q.2 = [] then .ok v else .error .usesState, leaving q.2 w)
          | .error e => (.error e, leaving q.2 w)) := by
  have h1 : (transformWithState f).apply (pv :: .bundle [] :: rv :: args) = .applyT (some params) (some []) (rngArg rv) (f args) := by
    show (match checkMapping pv, checkMapping (.bundle []) with
      | some params, some state => Prog.applyT (some params) (some state) (rngArg rv) (f args)
      | _, _ => .raise .badMapping) = _
    rw [hp]; rfl
  have h2 : (transform f).apply (pv :: rv :: args) = .bind (.applyT (some params) (some []) (rngArg rv) (f args)) dropState := by
    show Prog.bind ((transformWithState f).apply (pv :: .bundle [] :: rv :: args)) dropState = _
    rw [h1]
  intro q
  have hq : q = (f args).run stackMach (inApply params r w) := rfl
  unfold inApply at hq
  rw [entered_run] at hq
  rw [h1, h2]
  have ha := applyT_run (some params) (some []) (rngArg rv) (f args) w
  rw [hr] at ha
  dsimp only [Option.getD_some] at ha
  have hb : (Prog.bind (.applyT (some params) (some []) (rngArg rv) (f args)) dropState).run stackMach w =
      ((Prog.applyT (some params) (some []) (rngArg rv) (f args)).run stackMach >>- fun v => (dropState v).run stackMach) w := rfl
  rw [hb, M.bind, ha, hq]
  rcases (f args).run localMach (ctxStart (Ctx.new (some params) (some []) r) w) with ⟨e | v, s⟩
  · exact ⟨rfl, rfl⟩
  · refine ⟨rfl, ?_⟩
    dsimp only
    have hm : stateModules (toWorld s [] w.frames) = s.loc.state.map Prod.fst := rfl
    rw [hm]
    show (dropState (.pair v (.bundle (extractState false s.loc.state)))).run stackMach _ = _
    unfold dropState
    dsimp only
    rw [extract_isEmpty]
    cases s.loc.state with
    | nil => rfl
    | cons a l => rfl

/-- C41 `hk.transform(f).init` likewise. -/
theorem transform_init (f : List Val → Prog) (rv : Val) (args : List Val) (r : Option PRNGSeq) (hr : (rngArg rv).toSeq = .ok r) (w : World) :
    let q := (f args).run stackMach (inInit r w)
    ((transform f).init (rv :: args)).run stackMach w =
        (match q.1 with
          | .ok v => (if stateModules q.2 = [] then .ok (.bundle (topParams q.2)) else .error .usesState, leaving q.2 w)
          | .error e => (.error e, leaving q.2 w)) := by
  intro q
  have hq : q = (f args).run stackMach (inInit r w) := rfl
  unfold inInit at hq
  rw [entered_run] at hq
  have ha := initT_run (rngArg rv) (f args) w
  rw [hr] at ha
  dsimp only at ha
  have hb : ((transform f).init (rv :: args)).run stackMach w =
      ((Prog.initT (rngArg rv) (f args)).run stackMach >>- fun v => (dropState v).run stackMach) w := rfl
  rw [hb, M.bind, ha, hq]
  rcases (f args).run localMach (ctxStart (Ctx.new none none r) w) with ⟨e | v, s⟩
  · rfl
  · dsimp only
    have hm : stateModules (toWorld s [] w.frames) = s.loc.state.map Prod.fst := rfl
    rw [hm]
    show (dropState (.pair (.bundle s.loc.params) (.bundle (extractState true s.loc.state)))).run stackMach _ = _
    unfold dropState
    dsimp only
    rw [extract_isEmpty]
    cases s.loc.state with
    | nil => rfl
    | cons a l => rfl

/-! ### Using state -/

theorem playS_access : ∀ {l : List Event} {S : Map StatePair}, LegalS l S → (∃ e ∈ l, StateAccess e) → ∃ b n p, playS l S b n = some p := by
  have keep : ∀ {l : List Event} {S : Map StatePair}, (∃ b n p, S b n = some p) → ∃ b n p, playS l S b n = some p := by
    intro l
    induction l with
    | nil => intro S h; exact h
    | cons e l ih =>
      rintro S ⟨b, n, p, h⟩
      have put : ∀ b' n' q, ∃ b n p, (S.put b' n' q) b n = some p := fun b' n' q => ⟨b', n', q, by simp [Map.put]⟩
      cases e with
      | stateNew b' n' v => exact ih (put _ _ _)
      | stateSet b' n' v => exact ih (put _ _ _)
      | stateRead b' n' v => exact ih ⟨b, n, p, h⟩
      | paramNew b' n' v => exact ih ⟨b, n, p, h⟩
      | paramRead b' n' v => exact ih ⟨b, n, p, h⟩
  intro l
  induction l with
  | nil => rintro S _ ⟨e, he, _⟩; cases he
  | cons e l ih =>
    rintro S h ⟨e', he, ha⟩
    have put : ∀ b' n' q, ∃ b n p, (S.put b' n' q) b n = some p := fun b' n' q => ⟨b', n', q, by simp [Map.put]⟩
    cases e with
    | stateNew b n v => exact keep (l := l) (S := S.put b n ⟨v, v⟩) (put _ _ _)
    | stateSet b n v => exact keep (l := l) (S := S.put b n ⟨((S b n).map StatePair.initial).getD v, v⟩) (put _ _ _)
    | stateRead b n v =>
      have h1 := h.1
      cases hs : S b n with
      | none => rw [hs] at h1; cases h1
      | some p => exact keep ⟨b, n, p, hs⟩
    | paramNew b n v =>
      rcases List.mem_cons.1 he with rfl | he
      · cases ha
      · exact ih h ⟨e', he, ha⟩
    | paramRead b n v =>
      rcases List.mem_cons.1 he with rfl | he
      · cases ha
      · exact ih h ⟨e', he, ha⟩

theorem playS_noAccess : ∀ {l : List Event} {S : Map StatePair}, (∀ e ∈ l, ¬ StateAccess e) → playS l S = S := by
  intro l
  induction l with
  | nil => intros; rfl
  | cons e l ih =>
    intro S h
    have h1 := h e (by simp)
    have h2 : ∀ e ∈ l, ¬ StateAccess e := fun x hx => h x (by simp [hx])
    cases e with
    | stateNew b n v => exact absurd trivial h1
    | stateSet b n v => exact absurd trivial h1
    | stateRead b n v => exact absurd trivial h1
    | paramNew b n v => exact ih h2
    | paramRead b n v => exact ih h2

theorem trace_start (c : Ctx) (w : World) : (ctxStart c w).loc.trace = [] := rfl

/-- C41 when the function, run by `hk.transform(f).apply`, reads or writes any state and returns, apply raises. -/
theorem state_access_rejected (f : List Val → Prog) (pv rv : Val) (args : List Val) (params : PDict) (r : Option PRNGSeq)
    (hp : checkMapping pv = some params) (hr : (rngArg rv).toSeq = .ok r) (w w' : World) (v : Val)
    (hf : (f args).run stackMach (inApply params r w) = (.ok v, w')) (ha : ∃ e ∈ accesses w', StateAccess e) :
    (((transform f).apply (pv :: rv :: args)).run stackMach w).1 = .error .usesState := by
  have h := (transform_apply f pv rv args params r hp hr w).2
  rw [h, hf]
  dsimp only
  rw [if_neg]
  intro hn
  unfold inApply at hf
  rw [entered_run] at hf
  obtain ⟨l, h1, h2, h3, h4, h5⟩ := hist_run (f args) (ctxStart (Ctx.new (some params) (some []) r) w) (WF2.ctxNew _ _ _ _)
  rcases hq : (f args).run localMach (ctxStart (Ctx.new (some params) (some []) r) w) with ⟨e | u, s⟩
  · rw [hq] at hf; cases hf
  rw [hq] at hf h1 h5
  obtain ⟨-, rfl⟩ := Prod.mk.inj hf
  have hs : s.loc.state = [] := List.map_eq_nil_iff.1 hn
  have ha : ∃ e ∈ s.loc.trace, StateAccess e := ha
  rw [h1, trace_start, List.nil_append] at ha
  obtain ⟨b, n, p, hb⟩ := playS_access h3 ha
  rw [← h5] at hb
  have hb : lookup2 s.loc.state b n = some p := hb
  rw [hs] at hb
  cases hb

/-- C41 conversely, when the function returns but `hk.transform(f).apply` raises, the function read or wrote state, or looked up state that was
not there and handled the exception (leaving an empty dictionary for the module). -/
theorem rejected_uses_state (f : List Val → Prog) (pv rv : Val) (args : List Val) (params : PDict) (r : Option PRNGSeq)
    (hp : checkMapping pv = some params) (hr : (rngArg rv).toSeq = .ok r) (w w' : World) (v : Val) (e : Exc)
    (hf : (f args).run stackMach (inApply params r w) = (.ok v, w'))
    (h : (((transform f).apply (pv :: rv :: args)).run stackMach w).1 = .error e) :
    e = .usesState ∧ ((∃ e ∈ accesses w', StateAccess e) ∨ stateModules w' ≠ [] ∧ ∀ m name, entry w' m name = none) := by
  rw [(transform_apply f pv rv args params r hp hr w).2, hf] at h
  dsimp only at h
  by_cases hn : stateModules w' = []
  · rw [if_pos hn] at h; cases h
  · rw [if_neg hn] at h
    injection h with h
    refine ⟨h.symm, ?_⟩
    by_cases ha : ∃ e ∈ accesses w', StateAccess e
    · exact .inl ha
    · refine .inr ⟨hn, fun m name => ?_⟩
      unfold inApply at hf
      rw [entered_run] at hf
      obtain ⟨l, h1, h2, h3, h4, h5⟩ := hist_run (f args) (ctxStart (Ctx.new (some params) (some []) r) w) (WF2.ctxNew _ _ _ _)
      rcases hq : (f args).run localMach (ctxStart (Ctx.new (some params) (some []) r) w) with ⟨e | u, s⟩
      · rw [hq] at hf; cases hf
      rw [hq] at hf h1 h5
      obtain ⟨-, rfl⟩ := Prod.mk.inj hf
      have ha : ¬ ∃ e ∈ s.loc.trace, StateAccess e := ha
      rw [h1, trace_start, List.nil_append] at ha
      rw [playS_noAccess fun e he hs => ha ⟨e, he, hs⟩] at h5
      show lookup2 s.loc.state m name = none
      have h5 : lookup2 s.loc.state = lookup2 (ctxStart (Ctx.new (some params) (some []) r) w).loc.state := h5
      rw [h5]
      rfl

/-- Looks up state that is not there and goes on. -/
def peeking : List Val → Prog := fun _ => .tryCatch (.op (.getState "s".toList none none none)) fun _ => .ret (.int 1)

/-- C41 the second case happens: a function that neither reads nor writes state but looked for it is rejected. -/
theorem failed_lookup_rejected : ((peeking []).run stackMach (inApply [] none World.initial)).1 = .ok (.int 1) ∧
    accesses ((peeking []).run stackMach (inApply [] none World.initial)).2 = [] ∧
    (((transform peeking).apply [.none, .none]).run stackMach World.initial).1 = .error .usesState := by decide +kernel

/-! ### Without rng -/

/-- C41 `without_apply_rng(f).apply` is `f.apply` with `None` as rng, for both kinds, and `init` is the same. -/
theorem without_apply_rng_none (f : List Val → Prog) (params state : Val) (args : List Val) :
    (withoutApplyRng (transform f)).apply (params :: args) = (transform f).apply (params :: .none :: args) ∧
    (withoutApplyRng (transformWithState f)).apply (params :: state :: args) = (transformWithState f).apply (params :: state :: .none :: args) ∧
    (withoutApplyRng (transform f)).init = (transform f).init ∧ (withoutApplyRng (transformWithState f)).init = (transformWithState f).init :=
  ⟨rfl, rfl, rfl, rfl⟩

/-- C41 the kind stays the same for `transform_with_state`.  Missing: `Transformed`, where it does not (`without_apply_rng_kind_wrong`). -/
theorem without_apply_rng_kind_partial (f : Transformed) (h : f.kind = .transformedWithState) : (withoutApplyRng f).kind = f.kind := by
  unfold withoutApplyRng
  rw [h]

/-- C41 is violated for `hk.transform`: the result is a `TransformedWithState`, although its `apply` takes and returns no state; so
`without_apply_rng` once more, or `without_state`, passes the arguments of the function in the wrong places. -/
theorem without_apply_rng_kind_wrong (f : List Val → Prog) (params : Val) (x : Val) :
    (withoutApplyRng (transform f)).kind ≠ (transform f).kind ∧
    (withoutApplyRng (withoutApplyRng (transform f))).apply [params, x] = (transform f).apply [params, .none, x, .none] ∧
    (withoutState (withoutApplyRng (transform f))).apply [params, x] =
      .bind ((transform f).apply [params, .none, .bundle [], x]) dropState := by
  refine ⟨?_, rfl, rfl⟩
  show Kind.transformedWithState ≠ Kind.transformed
  decide

/-! ### Examples -/

/-- Counts its arguments. -/
def counting : List Val → Prog := fun args => .ret (.int args.length)

example : (((withoutApplyRng (transform counting)).apply [.none, .unit]).run stackMach World.initial).1 = .ok (.int 1) ∧
    (((withoutApplyRng (withoutApplyRng (transform counting))).apply [.none, .unit]).run stackMach World.initial).1 = .ok (.int 2) := by decide +kernel

/-- Writes state and returns. -/
def stateful : List Val → Prog := fun _ => .bind (.op (.setState "s".toList ⟨[], .f32, [1]⟩)) fun _ => .ret (.int 1)

example : checkMapping .none = some [] ∧ (rngArg (.int 3)).toSeq = .ok (some (.ofSeed 3)) ∧
    ((stateful []).run stackMach (inApply [] (some (.ofSeed 3)) World.initial)).1 = .ok (.int 1) ∧
    accesses ((stateful []).run stackMach (inApply [] (some (.ofSeed 3)) World.initial)).2 = [.stateSet "~".toList "s".toList ⟨[], .f32, [1]⟩] ∧
    (((transform stateful).apply [.none, .int 3]).run stackMach World.initial).1 = .error .usesState := by decide +kernel

end Verif.Props.Transform
