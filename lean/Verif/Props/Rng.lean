import Verif.Lemmas.Keys
import Verif.Props.State

/-!
# Keys inside a transform (C08, C12)
-/

set_option linter.unusedVariables false

namespace Verif.Props.Rng
open Verif Names Frame
open Verif.Props.Context Verif.Props.Control Verif.Props.Params Verif.Props.State

/-! ### Specification vocabulary -/

/-- The program uses neither stateful control flow nor `with_rng` (programs of nested transforms may).  With named calls (`c`) a call of
`__call__` runs inside `jax.named_call`, which is stateful control flow. -/
def Direct (c : Bool) : Prog → Prop
  | .ret _ => True
  | .raise _ => True
  | .bind p k => Direct c p ∧ ∀ v, Direct c (k v)
  | .tryCatch p h => Direct c p ∧ ∀ e, Direct c (h e)
  | .op _ => True
  | .withHook _ p => Direct c p
  | .newModule _ ctor => ∀ id a, Direct c (ctor id a)
  | .callMethod _ method _ body => (c = true → method ≠ sCall) ∧ ∀ a, Direct c (body a)
  | .nameScope _ p => Direct c p
  | .initT _ _ => True
  | .applyT _ _ _ _ => True
  | _ => False

/-- Running the program hands out no key and leaves the RNG alone. -/
def DrawsNothing (p : Prog) : Prop := ∀ w, (p.run stackMach w).2.log = w.log ∧ rngStackOf (p.run stackMach w).2 = rngStackOf w

/-- Programs for which keys do not repeat: they do not use `with_rng` (whose keys the user chooses) or `eval_shape` (which gives the keys
back), exceptions are only caught around direct programs or programs that draw no keys, and conditions of `while_loop` draw no keys. -/
def Careful (c : Bool) : Prog → Prop
  | .ret _ => True
  | .raise _ => True
  | .bind p k => Careful c p ∧ ∀ v, Careful c (k v)
  | .tryCatch p h => (Direct c p ∨ DrawsNothing p) ∧ Careful c p ∧ ∀ e, Careful c (h e)
  | .op _ => True
  | .withRng _ _ => False
  | .withHook _ p => Careful c p
  | .newModule _ ctor => ∀ id a, Careful c (ctor id a)
  | .callMethod _ _ _ body => ∀ a, Careful c (body a)
  | .nameScope _ p => Careful c p
  | .jit p => Careful c p
  | .cond _ t f => Careful c t ∧ Careful c f
  | .switch _ _ br => ∀ j, Careful c (br j)
  | .scan f _ _ _ _ => ∀ v x, Careful c (f v x)
  | .fori _ _ body _ => ∀ i v, Careful c (body i v)
  | .whileLoop _ test body _ => (∀ v, DrawsNothing (test v) ∧ Careful c (test v)) ∧ ∀ v, Careful c (body v)
  | .vmap f _ _ => ∀ v, Careful c (f v)
  | .evalShape _ => False
  | .initT _ _ => True
  | .applyT _ _ _ _ => True

/-- The program does not use `with_rng` (programs of nested transforms may). -/
def NoWithRng : Prog → Prop
  | .ret _ => True
  | .raise _ => True
  | .bind p k => NoWithRng p ∧ ∀ v, NoWithRng (k v)
  | .tryCatch p h => NoWithRng p ∧ ∀ e, NoWithRng (h e)
  | .op _ => True
  | .withRng _ _ => False
  | .withHook _ p => NoWithRng p
  | .newModule _ ctor => ∀ id a, NoWithRng (ctor id a)
  | .callMethod _ _ _ body => ∀ a, NoWithRng (body a)
  | .nameScope _ p => NoWithRng p
  | .jit p => NoWithRng p
  | .cond _ t f => NoWithRng t ∧ NoWithRng f
  | .switch _ _ br => ∀ j, NoWithRng (br j)
  | .scan f _ _ _ _ => ∀ c x, NoWithRng (f c x)
  | .fori _ _ body _ => ∀ i v, NoWithRng (body i v)
  | .whileLoop _ c body _ => (∀ v, NoWithRng (c v)) ∧ ∀ v, NoWithRng (body v)
  | .vmap f _ _ => ∀ v, NoWithRng (f v)
  | .evalShape p => NoWithRng p
  | .initT _ _ => True
  | .applyT _ _ _ _ => True

/-! ### C08 -/

theorem direct_iff {c : Bool} (p : Prog) (h : Direct c p) : p.direct c := by
  induction p with
  | bind p k h1 h2 => exact ⟨h1 h.1, fun v => h2 v (h.2 v)⟩
  | tryCatch p k h1 h2 => exact ⟨h1 h.1, fun v => h2 v (h.2 v)⟩
  | withHook k p ih => exact ih h
  | newModule a c ih => exact fun i a => ih i a (h i a)
  | callMethod a b c d ih => exact ⟨h.1, fun a => ih a (h.2 a)⟩
  | nameScope n p ih => exact ih h
  | _ => trivial

theorem drawsNothing_local {p : Prog} (h : DrawsNothing p) (s : LW) :
    (p.run localMach s).2.loc.log = s.loc.log ∧ (p.run localMach s).2.loc.rng = s.loc.rng := by
  have := h (toWorld s [] [])
  rw [(ref_run p).1] at this
  obtain ⟨h1, h2⟩ := this
  refine ⟨h1, ?_⟩
  have h2 : some [(p.run localMach s).2.loc.rng] = some [s.loc.rng] := h2
  simpa using h2

theorem careful_ok {c : Bool} (p : Prog) (h : Careful c p) : p.ok (Allow.keys c) := by
  induction p with
  | bind p k h1 h2 => exact ⟨h1 h.1, fun v => h2 v (h.2 v)⟩
  | tryCatch p k h1 h2 => exact ⟨h.1.imp (direct_iff p) drawsNothing_local, h1 h.2.1, fun v => h2 v (h.2.2 v)⟩
  | withHook k p ih => exact ih h
  | newModule a c ih => exact fun i a => ih i a (h i a)
  | callMethod a b c d ih => exact fun a => ih a (h a)
  | nameScope n p ih => exact ih h
  | jit p ih => exact ih h
  | cond b t f h1 h2 => exact ⟨h1 h.1, h2 h.2⟩
  | switch i n b ih => exact fun j => ih j (h j)
  | scan f a b c d ih => exact fun c x => ih c x (h c x)
  | fori a b c d ih => exact fun i v => ih i v (h i v)
  | whileLoop n c b i h1 h2 => exact ⟨fun v => ⟨drawsNothing_local (h.1 v).1, h1 v (h.1 v).2⟩, fun v => h2 v (h.2 v)⟩
  | vmap f x xs ih => exact fun v => ih v (h v)
  | withRng r p ih => exact h.elim
  | evalShape p ih => exact h.elim
  | _ => trivial

/-- C08 the keys handed out by `next_rng_key`, `next_rng_keys`, `maybe_next_rng_key` and to initializers during one call of init or apply
are pairwise distinct, however the function ends, through any nesting of modules, methods, name scopes and stateful control flow, with named
calls on or off.  The property leaves out programs that catch exceptions raised inside stateful control flow after drawing keys (see
`caught_key_reused`, `named_call_key_reused`), that draw keys in the condition of a while loop (see `while_condition_key_reused`), or use
`eval_shape` (see `eval_shape_key_reused`) or `with_rng` (see `with_rng_key_reused`). -/
theorem keys_distinct (params state : Option PDict) (rng : RngArg) (q : Option PRNGSeq) (hq : rng.toSeq = .ok q) (w : World)
    (p : Prog) (hp : Careful w.namedCall p) :
    (p.run stackMach (entered (Ctx.new params state q) w)).2.log.Nodup := by
  rw [run_entered]
  have h := ((Fresh.stable w.namedCall).run p (careful_ok p hp)).2 (ctxStart (Ctx.new params state q) w) ⟨WF2.ctxNew params state q w.heap, rfl⟩
  have h' : FreshQ (ctxStart (Ctx.new params state q) w).loc (p.run localMach (ctxStart (Ctx.new params state q) w)).2.loc := by
    rcases hm : p.run localMach (ctxStart (Ctx.new params state q) w) with ⟨e | v, s⟩ <;> rw [hm] at h
    · exact h
    · exact Fresh.q h
  obtain ⟨ks, h1, h2⟩ := h'
  have e : (ctxStart (Ctx.new params state q) w).loc.log = [] := rfl
  have e2 : (ctxStart (Ctx.new params state q) w).loc.rng = q := rfl
  rw [e, List.nil_append] at h1
  rw [e2] at h2
  show (p.run localMach (ctxStart (Ctx.new params state q) w)).2.loc.log.Nodup
  rw [h1]
  cases q with
  | none => dsimp only at h2; rw [h2]; exact List.nodup_nil
  | some q =>
    have hi : PRNGSeq.Inv [] q := by
      cases rng with
      | none => cases hq
      | seed n => cases hq; exact PRNGSeq.Inv.init _
      | key k => cases hq; exact PRNGSeq.Inv.init _
      | invalid => cases hq
    simpa using h2 [] hi

/-- Draws keys in every way, inside and outside of control flow. -/
def drawing : Prog :=
  .bind (.op .nextKey) fun _ => .bind (.jit (.op (.nextKeys 2))) fun _ =>
  .bind (.fori 0 3 (fun _ v => .bind (.op .maybeNextKey) fun _ => .ret v) .unit) fun _ =>
  .tryCatch (.bind (.op .nextKey) fun _ => .raise .indexError) fun _ => .op .nextKey

example : Careful false drawing ∧ (drawing.run stackMach (entered (Ctx.new none none (some (.ofSeed 1))) World.initial)).2.log.length = 8 := by
  refine ⟨?_, by decide +kernel⟩
  simp [drawing, Careful, Direct]

/-- Draws keys in a module called with named calls on, around and inside of the call. -/
def drawingNamed : Prog :=
  .bind (.newModule .unit fun id _ => .op (.superInit id none "Net".toList)) fun
  | .mod m => .bind (.callMethod m sCall .unit fun _ => .bind (.op .nextKey) fun _ => .op (.nextKeys 2)) fun _ =>
      .tryCatch (.bind (.op .nextKey) fun _ => .raise .indexError) fun _ => .op .nextKey
  | _ => .ret .unit

example : Careful true drawingNamed ∧
    (drawingNamed.run stackMach (entered (Ctx.new none none (some (.ofSeed 1))) { World.initial with namedCall := true })).2.log.length = 5 := by
  refine ⟨⟨fun _ _ => trivial, fun v => ?_⟩, by decide +kernel⟩
  cases v <;> simp [Careful, Direct]

/-- Draws a key inside `hk.jit`, which raises; catches the exception and draws a key. -/
def retrying : Prog := .tryCatch (.jit (.bind (.op .nextKey) fun _ => .raise .indexError)) fun _ => .op .nextKey

/-- C08 does not hold for programs that catch an exception raised inside stateful control flow: the same key is handed out twice. -/
theorem caught_key_reused :
    ¬ (retrying.run stackMach (entered (Ctx.new none none (some (.ofSeed 1))) World.initial)).2.log.Nodup := by decide +kernel

/-- Draws a key in a `__call__` which raises; catches the exception and draws a key. -/
def retryingNamed : Prog :=
  .bind (.newModule .unit fun id _ => .op (.superInit id none "Net".toList)) fun
  | .mod m => .tryCatch (.callMethod m sCall .unit fun _ => .bind (.op .nextKey) fun _ => .raise .indexError) fun _ => .op .nextKey
  | _ => .ret .unit

/-- C08 with named calls on the same happens for an exception raised by a `__call__`; with named calls off it does not. -/
theorem named_call_key_reused :
    ¬ (retryingNamed.run stackMach (entered (Ctx.new none none (some (.ofSeed 1))) { World.initial with namedCall := true })).2.log.Nodup ∧
    (retryingNamed.run stackMach (entered (Ctx.new none none (some (.ofSeed 1))) { World.initial with namedCall := false })).2.log.Nodup := by
  decide +kernel

/-- C08 `eval_shape` gives the keys drawn inside back: the next key drawn is the same again. -/
theorem eval_shape_key_reused :
    ¬ ((Prog.bind (.evalShape (.op .nextKey)) fun _ => .op .nextKey).run stackMach
      (entered (Ctx.new none none (some (.ofSeed 1))) World.initial)).2.log.Nodup := by decide +kernel

/-- C08 under `with_rng` the user chooses the keys: the same seed twice gives the same key twice. -/
theorem with_rng_key_reused :
    ¬ ((Prog.bind (.withRng (.seed 7) (.op .nextKey)) fun _ => .withRng (.seed 7) (.op .nextKey)).run stackMach
      (entered (Ctx.new none none none) World.initial)).2.log.Nodup := by decide +kernel

/-! ### C12 -/

/-- No RNG is in force. -/
def WithoutRng (w : World) : Prop := ∃ F rest tl, w.frames = F :: rest ∧ F.rngStack = none :: tl

/-- C12 without RNG `next_rng_key`, `next_rng_keys` and `reserve_rng_keys` raise, for any number of keys, and `maybe_next_rng_key` returns None;
nothing changes. -/
theorem no_rng_no_key {w : World} (h : WithoutRng w) (n : Int) :
    (Prog.op .nextKey).run stackMach w = (.error .noRng, w) ∧ (Prog.op (.nextKeys n)).run stackMach w = (.error .noRng, w) ∧
    (Prog.op (.reserve n)).run stackMach w = (.error .noRng, w) ∧ (Prog.op .maybeNextKey).run stackMach w = (.ok .none, w) := by
  obtain ⟨F, rest, tl, hF, hr⟩ := h
  have hc := toWorld_curr hF hr
  have hs : (curr F none w).loc.rng = none := rfl
  generalize curr F none w = s at hc hs
  subst hc
  refine ⟨?_, ?_, ?_, ?_⟩ <;> rw [(ref_run _).1]
  all_goals
    obtain ⟨E, p, st, r, sc, hp, lg, tr⟩ := s
    cases hs
    rfl

theorem noWithRng_ok (p : Prog) (h : NoWithRng p) : p.ok Allow.noKeys := by
  induction p with
  | bind p k h1 h2 => exact ⟨h1 h.1, fun v => h2 v (h.2 v)⟩
  | tryCatch p k h1 h2 => exact ⟨NoKey.stable.run p (h1 h.1), h1 h.1, fun v => h2 v (h.2 v)⟩
  | withHook k p ih => exact ih h
  | newModule a c ih => exact fun i a => ih i a (h i a)
  | callMethod a b c d ih => exact fun a => ih a (h a)
  | nameScope n p ih => exact ih h
  | jit p ih => exact ih h
  | cond b t f h1 h2 => exact ⟨h1 h.1, h2 h.2⟩
  | switch i n b ih => exact fun j => ih j (h j)
  | scan f a b c d ih => exact fun c x => ih c x (h c x)
  | fori a b c d ih => exact fun i v => ih i v (h i v)
  | whileLoop n c b i h1 h2 => exact ⟨fun v => ⟨trivial, h1 v (h.1 v)⟩, fun v => h2 v (h.2 v)⟩
  | vmap f x xs ih => exact fun v => ih v (h v)
  | withRng r p ih => exact h.elim
  | evalShape p ih => exact ⟨trivial, ih h⟩
  | _ => trivial

/-- C12 a function called with `rng=None` that does not use `with_rng` is never handed a key, however it ends, whatever else it does; and
no RNG is in force afterwards. -/
theorem no_rng_no_key_program {w : World} (hw : WithoutRng w) (ht : Tidy w) (p : Prog) (hp : NoWithRng p) :
    (p.run stackMach w).2.log = w.log ∧ WithoutRng (p.run stackMach w).2 := by
  obtain ⟨F, rest, tl, hF, hr⟩ := hw
  have hc := toWorld_curr hF hr
  have hs : (curr F none w).loc.rng = none := rfl
  generalize curr F none w = s at hc hs
  subst hc
  rw [tidy_toWorld] at ht
  rw [(ref_run _).1]
  have h := (NoKey.stable.run p (noWithRng_ok p hp)).2 s ⟨ht, trivial⟩
  have h' : NoKey s.loc (p.run localMach s).2.loc := by
    rcases hm : p.run localMach s with ⟨e | v, s1⟩ <;> rw [hm] at h <;> exact h
  obtain ⟨h1, h2⟩ := h' hs
  refine ⟨h2, _, _, tl, rfl, ?_⟩
  show (p.run localMach s).2.loc.rng :: tl = none :: tl
  rw [h1]

/-- C12 for a call of init or apply with `rng=None`. -/
theorem none_rng_no_key (params state : Option PDict) (w : World) (p : Prog) (hp : NoWithRng p) :
    (p.run stackMach (entered (Ctx.new params state none) w)).2.log = [] :=
  (no_rng_no_key_program (w := entered (Ctx.new params state none) w) ⟨_, _, _, rfl, rfl⟩
    (fun F hF => by cases hF; exact tidy_start params state none w _ rfl) p hp).1

/-- Tries to draw, also inside control flow, and asks for an optional key. -/
def trying : Prog := .bind (.tryCatch (.jit (.op .nextKey)) fun _ => .ret .unit) fun _ =>
  .bind (.cond true (.op .maybeNextKey) (.ret .none)) fun _ => .op .maybeNextKey

example : NoWithRng trying ∧ WithoutRng (entered (Ctx.new none none none) World.initial) ∧ RngArg.toSeq .none = .ok none ∧
    (trying.run stackMach (entered (Ctx.new none none none) World.initial)).1 = .ok .none := by
  refine ⟨by simp [trying, NoWithRng], ⟨_, _, _, rfl, rfl⟩, rfl, by decide +kernel⟩

end Verif.Props.Rng
