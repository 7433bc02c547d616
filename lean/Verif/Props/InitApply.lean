import Verif.Lemmas.Retrace
import Verif.Props.Transform
import Verif.Model.Lift

/-!
# `apply` on the output of `init` retraces `init` (C04)
-/

set_option linter.unusedVariables false

namespace Verif.Props.InitApply
open Verif Names Frame
open Verif.Props.Context Verif.Props.Control Verif.Props.Params Verif.Props.State Verif.Props.Transform Verif.Transform

/-! ### Specification vocabulary -/

/-- Calls that neither involve the RNG (initializers apart) nor ask whether init is running. -/
def QuietOp : Op → Prop
  | .getParam .. => True
  | .getState .. => True
  | .setState .. => True
  | .superInit .. => True
  | .nextKey => False
  | .nextKeys _ => False
  | .maybeNextKey => False
  | .reserve _ => False
  | .runningInit => False
  | .modDict .. => False
  | .liftUnpack .. => False
  | .liftPack .. => False

/-- A frame in which init is running. -/
def DuringInit (w : World) : Prop := InTransform w ∧ Tidy w ∧ ∀ F ∈ w.frames.head?, F.frozen = false

/-- The parameter called `n` of module `b` in the current frame. -/
def paramAt (w : World) (b n : Str) : Option Arr := w.frames.head?.bind fun F => lookup2 F.params b n

/-- The state entry called `n` of module `b` in the current frame. -/
def entryAt (w : World) (b n : Str) : Option StatePair := w.frames.head?.bind fun F => lookup2 F.state b n

/-- The names used so far in the current frame. -/
def scopesNow (w : World) : List Scope := (w.frames.head?.map FrameS.scopeStack).getD []

/-- Whenever the function returns during init: the result is `good`; no module was constructed directly in it (only inside methods it calls);
state entries keep the shapes and dtypes they had, and those it creates end with the shape and dtype they were created with. -/
def KeepsShapes (good : Val → Prop) (p : Prog) : Prop := ∀ w v w1, DuringInit w → p.run stackMach w = (.ok v, w1) →
  good v ∧ scopesNow w1 = scopesNow w ∧ ∀ b n q, entryAt w1 b n = some q →
    match entryAt w b n with
    | some p => pairSig q = pairSig p
    | none => arrSig q.current = arrSig q.initial

/-- During init the function makes no parameters and no state. -/
def MakesNothing (p : Prog) : Prop := ∀ w v w1, DuringInit w → p.run stackMach w = (.ok v, w1) →
  (∀ b n, paramAt w b n = none → paramAt w1 b n = none) ∧ ∀ b n, entryAt w b n = none → entryAt w1 b n = none

/-- Functions built from such calls, without `try`, with modules, name scopes, hooks, `with_rng`, `hk.jit` and its relatives, `hk.vmap`
and nested transforms; `hk.eval_shape` of functions that make no parameters or state.
If `c`, also `hk.cond` and `hk.switch` on branches that cannot look at values (`Traced p p`: on values of the same structure the function does
the same), `hk.fori_loop` over a range that is not empty, and `hk.scan` forwards over at least one element; the first step of a loop keeps the
structure of the carry and of state, which JAX insists on for all later steps.  Custom getters and interceptors then only look at structure,
and functions under `hk.vmap` are built without these. -/
inductive Quiet : Bool → Prog → Prop where
  | ret c v : Quiet c (.ret v)
  | raise c e : Quiet c (.raise e)
  | bind {c p k} : Quiet c p → (∀ v, Quiet c (k v)) → Quiet c (.bind p k)
  | op {c o} : QuietOp o → Quiet c (.op o)
  | withRng r {c p} : Quiet c p → Quiet c (.withRng r p)
  | withHook {c h p} : (c = true → CalmHook h) → Quiet c p → Quiet c (.withHook h p)
  | newModule args {c ctor} : (∀ i v, Quiet c (ctor i v)) → Quiet c (.newModule args ctor)
  | callMethod self method args {c body} : (∀ v, Quiet c (body v)) → Quiet c (.callMethod self method args body)
  | nameScope name {c p} : Quiet c p → Quiet c (.nameScope name p)
  | jit {c p} : Quiet c p → Quiet c (.jit p)
  | vmap x xs {c f} : (∀ v, Quiet false (f v)) → Quiet c (.vmap f x xs)
  | whileLoop c n cond body init : Quiet c (.whileLoop n cond body init)
  | initT c rng p : Quiet c (.initT rng p)
  | applyT c params state rng p : Quiet c (.applyT params state rng p)
  | evalShape {c p} : Quiet c p → MakesNothing p → Quiet c (.evalShape p)
  | cond b {p q} : Quiet true p → Traced p p → Quiet true q → Traced q q → Quiet true (.cond b p q)
  | switch i n {br} : (∀ j, Quiet true (br j)) → (∀ j, Traced (br j) (br j)) → Quiet true (.switch i n br)
  | scan zero x xs {f init} : (∀ c x, Quiet true (f c x)) → KeepsShapes (fun v => ∀ c y, v = .pair c y → c.sameStruct init = true) (f init x) →
      Quiet true (.scan f init zero (x :: xs) false)
  | fori {lo up body init} : (∀ i v, Quiet true (body i v)) → lo < up → KeepsShapes (fun v => v.sameStruct init = true) (body lo init) →
      Quiet true (.fori lo up body init)

theorem during_toWorld {s : LW} (hf : s.env.frozen = false) (hw : s.loc.WF) : DuringInit (toWorld s [] []) :=
  ⟨toWorld_in _ _ _, tidy_toWorld.2 hw, fun F hF => by cases hF; exact hf⟩

theorem KeepsShapes.steady {good : Val → Prop} {p : Prog} (h : KeepsShapes good p) : FirstOk good (p.run localMach) := by
  intro s v s' hf hw hr
  have := h (toWorld s [] []) v (toWorld s' [] []) (during_toWorld hf hw) (by rw [(ref_run p).1, hr])
  exact this

theorem MakesNothing.idle {p : Prog} (h : MakesNothing p) : Sim.Idle (p.run localMach) := by
  intro s v s' hf hw hr
  have := h (toWorld s [] []) v (toWorld s' [] []) (during_toWorld hf hw) (by rw [(ref_run p).1, hr])
  exact this

theorem Quiet.plain {c : Bool} {p : Prog} (h : Quiet c p) : p.plain c := by
  induction h with
  | ret c v => trivial
  | raise c e => trivial
  | bind _ _ ih1 ih2 => exact ⟨ih1, ih2⟩
  | op h => rename_i o; cases o <;> trivial
  | withRng _ _ ih => exact ih
  | withHook h _ ih => exact ⟨h, ih⟩
  | newModule _ _ ih => exact ih
  | callMethod _ _ _ _ ih => exact ih
  | nameScope _ _ ih => exact ih
  | jit _ ih => exact ih
  | vmap _ _ _ ih => exact ih
  | whileLoop => trivial
  | initT => trivial
  | applyT => trivial
  | evalShape _ h ih => exact ⟨ih, h.idle⟩
  | cond b _ h1 _ h2 ih1 ih2 => exact ⟨rfl, ⟨ih1, h1⟩, ih2, h2⟩
  | switch i n _ h ih => exact ⟨rfl, fun j => ⟨ih j, h j⟩⟩
  | scan zero x xs _ h ih => exact ⟨rfl, ih, rfl, x, xs, rfl, h.steady⟩
  | fori _ hl h ih => exact ⟨rfl, ih, hl, h.steady⟩

/-! ### The theorem -/

/-- The init run and the run of `apply` on what init returned. -/
theorem retrace {c : Bool} {p : Prog} (hp : p.plain c) (w : World) (hw : c = true → Calm w.hooks) (r r' : Option PRNGSeq) {v : Val} {s : LW}
    (h : p.run localMach (ctxStart (Ctx.new none none r) w) = (.ok v, s)) :
    ∃ t, p.run localMach (ctxStart (Ctx.new (some s.loc.params) (some (extractState true s.loc.state)) r') w) = (.ok v, t) ∧
      t.loc.state = s.loc.state ∧ t.loc.params = s.loc.params ∧ t.loc.heap = s.loc.heap := by
  have hs0 : (ctxStart (Ctx.new none none r) w).loc.WF := WF2.ctxNew _ _ _ _
  have ht0 : (ctxStart (Ctx.new (some s.loc.params) (some (extractState true s.loc.state)) r') w).loc.WF := WF2.ctxNew _ _ _ _
  have hs := (p.sim hp).wf hs0 h
  have hx : WF2 (extractState true s.loc.state) := WF2.mapVals hs.2 _
  have e1 : (Ctx.new (some s.loc.params) (some (extractState true s.loc.state)) r').params = s.loc.params := dict2_of_wf hs.1
  have e2 : (Ctx.new (some s.loc.params) (some (extractState true s.loc.state)) r').state =
      (extractState true s.loc.state).mapVals fun _ b => b.mapVals fun _ v => (⟨v, v⟩ : StatePair) := by
    show (dict2 (extractState true s.loc.state)).mapVals (fun _ b => b.mapVals fun _ v => (⟨v, v⟩ : StatePair)) = _
    rw [dict2_of_wf hx]
  have hpair : Pair c s.loc.params (extractState true s.loc.state) (ctxStart (Ctx.new none none r) w)
      (ctxStart (Ctx.new (some s.loc.params) (some (extractState true s.loc.state)) r') w) := by
    refine ⟨rfl, rfl, hw, e1, fun b n => ?_, ?_, rfl, rfl⟩
    · show lookup2 (Ctx.new (some s.loc.params) (some (extractState true s.loc.state)) r').state b n = _
      rw [e2, lookup2_mapPair]
      rfl
    · show SameKeys (Ctx.new (some s.loc.params) (some (extractState true s.loc.state)) r').state _
      rw [e2]
      exact SameKeys.mapVals _ fun _ _ v => (⟨v, v⟩ : StatePair)
  have hbelow : Below s.loc.params (extractState true s.loc.state) s :=
    ⟨fun _ _ _ h => h, fun b n q hq => by rw [lookup2_extract, hq]; rfl⟩
  obtain ⟨t, k1, k2, k3⟩ := (p.sim hp).sim hpair hs0 ht0 h hbelow
  refine ⟨t, k1, ?_, k2.params, k2.heap⟩
  have hk : SameKeys t.loc.state s.loc.state := by
    have : SameKeys (extractState true s.loc.state) s.loc.state := SameKeys.mapVals _ fun _ _ (p : StatePair) => if true then p.initial else p.current
    exact ⟨k2.keys.1.trans this.1, fun b => (k2.keys.2 b).trans (this.2 b)⟩
  refine hk.ext ((p.sim hp).wf ht0 k1).2 fun b n => ?_
  rw [k2.state, lookup2_extract]
  cases lookup2 s.loc.state b n <;> rfl

/-- C04 If the function returns `v` during `init`, then `init` returns what it recorded, and `apply` on that, whatever rng it gets, returns
`v` again together with the same state as the function ended with in init.
Both calls are made from the same world `w`, so that the module objects they create have the same identities.
Missing: `hk.lift` (with it the claim fails, `lift_breaks`), control flow under `hk.vmap`, and branches that look at values.  Without the conditions on loops and on `hk.eval_shape` the claim
fails (`eval_shape_breaks`, `fori_loop_breaks`, `fori_names_break`, `scan_breaks`, `reverse_scan_breaks`); that branches cannot look at values is how
JAX traces them. -/
theorem apply_retraces_init_partial (c : Bool) (f : List Val → Prog) (args : List Val) (hf : Quiet c (f args)) (w w1 : World) (hw : c = true → Calm w.hooks) (rng rng' : Val) (r r' : Option PRNGSeq)
    (hr : (rngArg rng).toSeq = .ok r) (hr' : (rngArg rng').toSeq = .ok r') (v : Val)
    (h : (f args).run stackMach (inInit r w) = (.ok v, w1)) :
    ∃ params state, ((transformWithState f).init (rng :: args)).run stackMach w = (.ok (.pair (.bundle params) (.bundle state)), leaving w1 w) ∧
      ((transformWithState f).apply (.bundle params :: .bundle state :: rng' :: args)).run stackMach w =
        (.ok (.pair v (.bundle (topState w1))), leaving w1 w) := by
  unfold inInit at h
  rw [entered_run] at h
  rcases hs : (f args).run localMach (ctxStart (Ctx.new none none r) w) with ⟨x, s⟩
  rw [hs] at h
  obtain ⟨rfl, rfl⟩ := Prod.mk.inj h
  refine ⟨s.loc.params, extractState true s.loc.state, ?_, ?_⟩
  · have ha := initT_run (rngArg rng) (f args) w
    rw [hr] at ha
    dsimp only at ha
    rw [hs] at ha
    exact ha
  · have ha := applyT_run (some s.loc.params) (some (extractState true s.loc.state)) (rngArg rng') (f args) w
    rw [hr'] at ha
    obtain ⟨t, k1, k2, k3, k4⟩ := retrace hf.plain w hw r r' hs
    dsimp only [Option.getD_some] at ha
    rw [k1] at ha
    dsimp only at ha
    rw [k2, k4] at ha
    exact ha

/-- A counter and a module with a parameter that is drawn from the RNG. -/
def net : List Val → Prog := fun _ =>
  .bind (.newModule .unit fun i _ => .op (.superInit i none "Linear".toList)) fun m =>
  .bind (.callMethod (match m with | .mod i => i | _ => 0) "__call__".toList .unit fun _ =>
    .bind (.op (.getParam "w".toList [] .f32 (some fun _ _ => .draw fun k => .ret ⟨[], .f32, [match k with | .root n => n | .child _ n i => n + 10 * i]⟩))) fun w =>
    .bind (.op (.getState "n".toList (some []) (some .f32) (some fun _ _ => .ret ⟨[], .f32, [0]⟩))) fun _ =>
    .bind (.op (.setState "n".toList ⟨[], .f32, [1]⟩)) fun _ => .ret w) fun w =>
  .ret w

theorem net_quiet : Quiet false (net []) :=
  .bind (.newModule _ fun _ _ => .op trivial) fun _ => .bind (.callMethod _ _ _ fun _ => .bind (.op trivial) fun _ => .bind (.op trivial) fun _ =>
    .bind (.op trivial) fun _ => .ret _ _) fun _ => .ret _ _

/-- It returns in init, and apply without rng then counts once more. -/
example : Quiet false (net []) ∧ (rngArg (.int 3)).toSeq = .ok (some (.ofSeed 3)) ∧ (rngArg .none).toSeq = .ok none ∧
    ((net []).run stackMach (inInit (some (.ofSeed 3)) World.initial)).1 = .ok (.arr ⟨[], .f32, [12]⟩) ∧
    topState ((net []).run stackMach (inInit (some (.ofSeed 3)) World.initial)).2 = [("linear".toList, [("n".toList, ⟨[], .f32, [1]⟩)])] ∧
    (((transformWithState net).apply [.bundle [("linear".toList, [("w".toList, ⟨[], .f32, [12]⟩)])],
        .bundle [("linear".toList, [("n".toList, ⟨[], .f32, [0]⟩)])], .none]).run stackMach World.initial).1 =
      .ok (.pair (.arr ⟨[], .f32, [12]⟩) (.bundle [("linear".toList, [("n".toList, ⟨[], .f32, [1]⟩)])])) :=
  ⟨net_quiet, by decide +kernel⟩

/-! #### Branches and loops -/

/-- Functions that only use parameters: they construct no modules and leave state alone. -/
inductive OnlyParams : Prog → Prop where
  | ret v : OnlyParams (.ret v)
  | bind {p k} : OnlyParams p → (∀ v, OnlyParams (k v)) → OnlyParams (.bind p k)
  | getParam name shape dtype init : OnlyParams (.op (.getParam name shape dtype init))

theorem OnlyParams.leaves {p : Prog} (h : OnlyParams p) : ∀ {s v s'}, s.env.frozen = false → p.run localMach s = (.ok v, s') →
    s'.env = s.env ∧ s'.loc.scopes = s.loc.scopes ∧ s'.loc.state = s.loc.state := by
  induction h with
  | ret v => intro s w s' _ h; cases h; exact ⟨rfl, rfl, rfl⟩
  | bind _ _ ih1 ih2 =>
    intro s w s' hf h
    obtain ⟨a, s1, h1, h2⟩ := bind_ok h
    obtain ⟨e1, e2, e3⟩ := ih1 hf h1
    obtain ⟨k1, k2, k3⟩ := ih2 a (by rw [e1]; exact hf) h2
    exact ⟨k1.trans e1, k2.trans e2, k3.trans e3⟩
  | getParam name shape dtype init =>
    intro s w s' hf h
    have h : localMach.top (Op.getParam name shape dtype init).run s = (.ok w, s') := h
    rw [top_eq] at h
    obtain ⟨h1, rfl⟩ := Prod.mk.inj h
    rcases hr : (Op.getParam name shape dtype init).run s.env s.loc with ⟨x, l⟩
    rw [hr] at h1
    dsimp only at h1
    subst h1
    obtain ⟨a, l1, h2, h3⟩ := bind_ok hr
    cases h3
    obtain ⟨_, _, _, -, -, -, -, -, k1, -, k2⟩ := Sim.getParameter_ok hf h2
    exact ⟨rfl, k2, k1⟩

/-- For them it is enough to know what they return. -/
theorem OnlyParams.keeps {p : Prog} (h : OnlyParams p) {good : Val → Prop} (hg : ∀ s v s', p.run localMach s = (.ok v, s') → good v) : KeepsShapes good p := by
  rintro w v w1 ⟨hi, ht, hf⟩ hr
  obtain ⟨F, rest, q, tl, hF, hq⟩ := hi
  obtain ⟨s, rfl⟩ : ∃ s, w = toWorld s tl rest := ⟨_, (toWorld_curr hF hq).symm⟩
  rw [(ref_run p).1] at hr
  obtain ⟨h1, rfl⟩ := Prod.mk.inj hr
  have hr : p.run localMach s = (.ok v, (p.run localMach s).2) := Prod.ext h1 rfl
  obtain ⟨-, k1, k2⟩ := h.leaves (hf _ rfl) hr
  refine ⟨hg _ _ _ hr, k1, fun b n q hq => ?_⟩
  have hq : lookup2 (p.run localMach s).2.loc.state b n = some q := hq
  rw [k2] at hq
  rw [show entryAt (toWorld s tl rest) b n = some q from hq]

/-- One half of a parameter: both branches create it and set a counter. -/
def half (n : Nat) : Prog :=
  .bind (.op (.getParam "u".toList [] .f32 (some fun _ _ => .ret ⟨[], .f32, [(n : Int)]⟩))) fun u =>
  .bind (.op (.setState "n".toList ⟨[], .f32, [(n : Int)]⟩)) fun _ => .ret u

/-- Adds up numbers, or pairs. -/
def plus : Val → Val → Val
  | .arr a, .arr b => .arr { a with data := List.zipWith (· + ·) a.data b.data }
  | v, _ => v

theorem plus_like (v w : Val) : (plus v w).sameStruct v = true := by
  unfold plus
  split
  · simp [Val.sameStruct]
  · exact Like.refl _

/-- A branch, then a loop that adds a parameter three times, then a scan over two elements with the running sums as outputs. -/
def flow : List Val → Prog := fun _ =>
  .bind (.cond false (half 3) (half 4)) fun u =>
  .bind (.fori 0 3 (fun _ v => .bind (.op (.getParam "w".toList [] .f32 (some fun _ _ => .ret ⟨[], .f32, [10]⟩))) fun w => .ret (plus v w)) u) fun v =>
  .scan (fun c x => .bind (.op (.getParam "w".toList [] .f32 (some fun _ _ => .ret ⟨[], .f32, [10]⟩))) fun w => .ret (.pair (plus (plus c x) w) c)) v .unit
    [.arr ⟨[], .f32, [100]⟩, .arr ⟨[], .f32, [200]⟩] false

theorem half_traced (n : Nat) : Traced (half n) (half n) :=
  .bind (.getParam _ _ _ _) fun _ _ h => .bind (.setState _ rfl) fun _ _ _ => .ret h

theorem half_quiet (n : Nat) : Quiet true (half n) := .bind (.op trivial) fun _ => .bind (.op trivial) fun _ => .ret _ _

theorem flow_quiet : Quiet true (flow []) := by
  refine .bind (.cond _ (half_quiet _) (half_traced _) (half_quiet _) (half_traced _)) fun u => .bind (.fori (fun _ _ => .bind (.op trivial) fun _ => .ret _ _) (by decide)
    (OnlyParams.keeps (.bind (.getParam _ _ _ _) fun _ => .ret _) fun s v s' h => ?_)) fun v => .scan _ _ _ (fun _ _ => .bind (.op trivial) fun _ => .ret _ _)
    (OnlyParams.keeps (.bind (.getParam _ _ _ _) fun _ => .ret _) fun s v s' h => ?_)
  · obtain ⟨a, s1, -, h2⟩ := bind_ok h
    cases h2
    exact plus_like _ _
  · obtain ⟨a, s1, -, h2⟩ := bind_ok h
    cases h2
    intro c y hc
    cases hc
    exact Like.trans (plus_like _ _) (plus_like _ _)

/-- It returns in init; apply goes through it again. -/
example : Quiet true (flow []) ∧ Calm World.initial.hooks ∧
    ((flow []).run stackMach (inInit none World.initial)).1 = .ok (.pair (.arr ⟨[], .f32, [354]⟩)
      (.pair (.arr ⟨[], .f32, [34]⟩) (.pair (.arr ⟨[], .f32, [144]⟩) .unit))) ∧
    topState ((flow []).run stackMach (inInit none World.initial)).2 = [("~".toList, [("n".toList, ⟨[], .f32, [4]⟩)])] ∧
    (((transformWithState flow).apply [.bundle [("~".toList, [("u".toList, ⟨[], .f32, [4]⟩), ("w".toList, ⟨[], .f32, [10]⟩)])],
        .bundle [("~".toList, [("n".toList, ⟨[], .f32, [4]⟩)])], .int 3]).run stackMach World.initial).1 =
      .ok (.pair (.pair (.arr ⟨[], .f32, [354]⟩) (.pair (.arr ⟨[], .f32, [34]⟩) (.pair (.arr ⟨[], .f32, [144]⟩) .unit)))
        (.bundle [("~".toList, [("n".toList, ⟨[], .f32, [4]⟩)])])) :=
  ⟨flow_quiet, ⟨fun _ h => (nomatch h), fun _ h => (nomatch h), fun _ h => (nomatch h)⟩, by decide +kernel⟩

theorem plus_traced {v w a b : Val} (h : Like v w) (k : Like a b) : Like (plus v a) (plus w b) :=
  Like.trans (Like.symm (show Like v (plus v a) from plus_like v a)) (Like.trans h (show Like w (plus w b) from plus_like w b))

/-- The same, and a parameter added to it three times. -/
def looped (n : Nat) : Prog := .bind (half n) fun u =>
  .fori 0 3 (fun _ v => .bind (.op (.getParam "w".toList [] .f32 (some fun _ _ => .ret ⟨[], .f32, [10]⟩))) fun w => .ret (plus v w)) u

/-- Loops inside branches: the first is taken. -/
def branchLoop : List Val → Prog := fun _ => .cond true (looped 3) (looped 4)

theorem looped_traced (n : Nat) : Traced (looped n) (looped n) :=
  .bind (half_traced n) fun _ _ h => .fori _ _ (fun _ _ _ h => .bind (.getParam _ _ _ _) fun _ _ k => .ret (plus_traced h k)) h

theorem looped_quiet (n : Nat) : Quiet true (looped n) := by
  refine .bind (half_quiet n) fun u => .fori (fun _ _ => .bind (.op trivial) fun _ => .ret _ _) (by decide)
    (OnlyParams.keeps (.bind (.getParam _ _ _ _) fun _ => .ret _) fun s v s' h => ?_)
  obtain ⟨a, s1, -, h2⟩ := bind_ok h
  cases h2
  exact plus_like _ _

/-- It returns in init; so does apply, whichever values the other branch works on. -/
example : Quiet true (branchLoop []) ∧
    ((branchLoop []).run stackMach (inInit none World.initial)).1 = .ok (.arr ⟨[], .f32, [33]⟩) ∧
    (((transformWithState branchLoop).apply [.bundle [("~".toList, [("u".toList, ⟨[], .f32, [3]⟩), ("w".toList, ⟨[], .f32, [10]⟩)])],
        .bundle [("~".toList, [("n".toList, ⟨[], .f32, [3]⟩)])], .int 3]).run stackMach World.initial).1 =
      .ok (.pair (.arr ⟨[], .f32, [33]⟩) (.bundle [("~".toList, [("n".toList, ⟨[], .f32, [3]⟩)])])) :=
  ⟨.cond _ (looped_quiet _) (looped_traced _) (looped_quiet _) (looped_traced _), by decide +kernel⟩

/-! ### Control flow that breaks the claim -/

/-- Uses a parameter inside `hk.eval_shape` only. -/
def shapes : List Val → Prog := fun _ => .bind (.evalShape (.op (.getParam "w".toList [] .f32 (some fun _ _ => .ret ⟨[], .f32, [7]⟩)))) fun _ => .ret (.int 1)

/-- C04 is violated with `hk.eval_shape`: parameters created inside it are dropped by init, and apply fails. -/
theorem eval_shape_breaks : (((transformWithState shapes).init [.int 3]).run stackMach World.initial).1 = .ok (.pair (.bundle []) (.bundle [])) ∧
    (((transformWithState shapes).apply [.bundle [], .bundle [], .int 3]).run stackMach World.initial).1 = .error .paramMissing := by decide +kernel

/-- Loops over an empty range, returning the last index. -/
def emptyLoop : List Val → Prog := fun _ => .fori 5 5 (fun i _ => .ret (.int i)) (.int 1)

/-- C04 is violated with `hk.fori_loop` over an empty range: init runs the body once and apply does not. -/
theorem fori_loop_breaks : ((emptyLoop []).run stackMach (inInit none World.initial)).1 = .ok (.int 5) ∧
    (((transformWithState emptyLoop).apply [.bundle [], .bundle [], .none]).run stackMach World.initial).1 = .ok (.pair (.int 1) (.bundle [])) := by decide +kernel

/-- A scan over one element whose step turns the carry from a number into a pair. -/
def oneStep : List Val → Prog := fun _ => .scan (fun c x => .ret (.pair (.pair c c) x)) (.int 1) (.int 0) [.int 2] false

/-- C04 is violated with `hk.scan` over one element: init runs the step without the checks of `jax.lax.scan`, which reject it in apply. -/
theorem scan_breaks : (((transformWithState oneStep).init [.none]).run stackMach World.initial).1 = .ok (.pair (.bundle []) (.bundle [])) ∧
    (((transformWithState oneStep).apply [.bundle [], .bundle [], .none]).run stackMach World.initial).1 = .error .structureMismatch := by decide +kernel

/-- A module with a parameter, called once. -/
def layer (x : Int) : Prog :=
  .bind (.newModule .unit fun i _ => .op (.superInit i none "Linear".toList)) fun m =>
  .callMethod (match m with | .mod i => i | _ => 0) "__call__".toList .unit fun _ =>
    .op (.getParam "w".toList [] .f32 (some fun _ _ => .ret ⟨[], .f32, [x]⟩))

/-- Constructs a module in a loop that runs once and another one after it. -/
def layers : List Val → Prog := fun _ => .bind (.fori 0 1 (fun _ _ => layer 1) (.arr ⟨[], .f32, [0]⟩)) fun _ => layer 2

/-- C04 is violated with `hk.fori_loop` around the construction of a module, even if it runs once: init counts the name and apply does not, so the
module after the loop gets the parameters of the one in the loop. -/
theorem fori_names_break : (((transformWithState layers).init [.none]).run stackMach World.initial).1 =
      .ok (.pair (.bundle [("linear".toList, [("w".toList, ⟨[], .f32, [1]⟩)]), ("linear_1".toList, [("w".toList, ⟨[], .f32, [2]⟩)])]) (.bundle [])) ∧
    ((layers []).run stackMach (inInit none World.initial)).1 = .ok (.arr ⟨[], .f32, [2]⟩) ∧
    (((transformWithState layers).apply [.bundle [("linear".toList, [("w".toList, ⟨[], .f32, [1]⟩)]), ("linear_1".toList, [("w".toList, ⟨[], .f32, [2]⟩)])],
        .bundle [], .none]).run stackMach World.initial).1 = .ok (.pair (.arr ⟨[], .f32, [1]⟩) (.bundle [])) := by decide +kernel

/-- A scan from the end over two elements that returns them. -/
def backwards : List Val → Prog := fun _ => .scan (fun c x => .ret (.pair c x)) .unit .unit [.int 1, .int 2] true

/-- C04 is violated with a reversed `hk.scan`: init returns the outputs in another order than apply. -/
theorem reverse_scan_breaks : ((backwards []).run stackMach (inInit none World.initial)).1 = .ok (.pair .unit (.pair (.int 2) (.pair (.int 1) .unit))) ∧
    (((transformWithState backwards).apply [.bundle [], .bundle [], .none]).run stackMach World.initial).1 =
      .ok (.pair (.pair .unit (.pair (.int 1) (.pair (.int 2) .unit))) (.bundle [])) := by decide +kernel

/-- Two inner transforms, lifted under the same name in two calls of `hk.jit`; returns what the first call gives. -/
def lifts : List Val → Prog := fun _ =>
  .bind (.jit (Lift.lift "lifted".toList (fun _ => .bind (.initT .none (.op (.getParam "w".toList [] .f32 (some fun _ _ => .ret ⟨[], .f32, [1]⟩)))) fun r => match r with
    | .pair p _ => .ret p
    | r => .ret r) .unit)) fun p =>
  .bind (.jit (Lift.lift "lifted".toList (fun _ => .bind (.initT .none (layer 2)) fun r => match r with
    | .pair p _ => .ret p
    | r => .ret r) .unit)) fun _ => .ret p

/-- C04 is violated with `hk.lift` inside `hk.jit`: the name of the first lifting module is forgotten, the second stores its parameters below the same name, and apply
gives both parameters to the first. -/
theorem lift_breaks : (((transformWithState lifts).init [.none]).run stackMach World.initial).1 =
      .ok (.pair (.bundle [("lifted/~".toList, [("w".toList, ⟨[], .f32, [1]⟩)]), ("lifted/linear".toList, [("w".toList, ⟨[], .f32, [2]⟩)])]) (.bundle [])) ∧
    ((lifts []).run stackMach (inInit none World.initial)).1 = .ok (.bundle [("~".toList, [("w".toList, ⟨[], .f32, [1]⟩)])]) ∧
    (((transformWithState lifts).apply [.bundle [("lifted/~".toList, [("w".toList, ⟨[], .f32, [1]⟩)]), ("lifted/linear".toList, [("w".toList, ⟨[], .f32, [2]⟩)])],
        .bundle [], .none]).run stackMach World.initial).1 =
      .ok (.pair (.bundle [("~".toList, [("w".toList, ⟨[], .f32, [1]⟩)]), ("linear".toList, [("w".toList, ⟨[], .f32, [2]⟩)])]) (.bundle [])) := by decide +kernel

end Verif.Props.InitApply
