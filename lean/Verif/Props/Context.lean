import Verif.Lemmas.Top
import Verif.Lemmas.Control

/-!
# Contexts, exceptions and nesting (C01, C18, C28, C42)
-/

namespace Verif.Props.Context
open Verif Names Frame

/-! ### Specification vocabulary -/

/-- The thread is inside a transform: there is a current frame, and it has an rng entry (`Frame.create` pushes one). -/
def InTransform (w : World) : Prop := ∃ F rest r tl, w.frames = F :: rest ∧ F.rngStack = r :: tl

/-- The same current module (and everything below it on the module stack), hooks, rng stack up to the state of the sequence in force,
naming depth, frozenness; and enclosing transforms untouched. -/
def SamePlace (w w' : World) : Prop :=
  w'.hooks = w.hooks ∧ w'.namedCall = w.namedCall ∧
  match w.frames, w'.frames with
  | F :: rest, F' :: rest' =>
    F'.moduleStack = F.moduleStack ∧ F'.frozen = F.frozen ∧ F'.scopeStack.length = F.scopeStack.length ∧
    F'.rngStack.length = F.rngStack.length ∧ F'.rngStack.tail = F.rngStack.tail ∧ rest' = rest
  | [], [] => True
  | _, _ => False

/-- The random keys in force, from the innermost `with_rng` outwards. -/
def rngStackOf (w : World) : Option (List (Option PRNGSeq)) := w.frames.head?.map FrameS.rngStack

/-! ### Example programs -/

/-- `hk.get_parameter(name, [], init=zeros)`. -/
def getP (name : String) : Prog := .op (.getParam name.toList [] .f32 (some fun sh dt => .ret ⟨sh, dt, [0]⟩))

/-- A class whose constructor makes a parameter and then raises. -/
def failing : Prog :=
  .newModule .unit fun id _ => .bind (.op (.superInit id none "Foo".toList)) fun _ => .bind (getP "w") fun _ => .raise .indexError

/-- A thread with one transform running and a creator active. -/
def busy : World :=
  { World.initial with
    frames := [World.frameOf (Ctx.new none none (some (.ofSeed 0)))]
    hooks := { Hooks.none with paramCreators := [fun _ _ _ _ => .done ⟨[], .f32, [7]⟩] } }

theorem busy_in : InTransform busy := ⟨_, _, _, _, rfl, rfl⟩

/-! ### C01 -/

/-- C01 init and apply leave the ambient context untouched: whether they return or raise, the stack of active transforms with
all its contents, the hook stacks and the global named-call switch are what they were before; only the store of module objects
may have grown. -/
theorem ambient_untouched (p : Prog) (rng : RngArg) (params state : Option PDict) (w : World) :
    (∃ h, ((Prog.initT rng p).run stackMach w).2 = { w with heap := h }) ∧
    (∃ h, ((Prog.applyT params state rng p).run stackMach w).2 = { w with heap := h }) := by
  constructor
  · rw [initT_run]
    cases rng.toSeq with
    | error e => exact ⟨w.heap, rfl⟩
    | ok r =>
      dsimp only
      rcases p.run localMach (ctxStart (Ctx.new none none r) w) with ⟨e | v, s⟩ <;> exact ⟨s.loc.heap, rfl⟩
  · rw [applyT_run]
    cases rng.toSeq with
    | error e => exact ⟨w.heap, rfl⟩
    | ok r =>
      dsimp only
      rcases p.run localMach (ctxStart (Ctx.new (some (params.getD [])) (some (state.getD [])) r) w) with ⟨e | v, s⟩ <;>
        exact ⟨s.loc.heap, rfl⟩

/-- A nested init that raises inside a constructor, below an active creator and a running transform. -/
example : ((Prog.initT (.seed 1) failing).run stackMach busy).1 = .error .indexError ∧
    ((Prog.initT (.seed 1) failing).run stackMach busy).2.heap.length = 1 := by decide +kernel

/-! ### C18 -/

theorem samePlace_toWorld {s s' : LW} (h : Frm s s') (tl : List (Option PRNGSeq)) (rest : List FrameS) :
    SamePlace (toWorld s tl rest) (toWorld s' tl rest) := by
  obtain ⟨E, l⟩ := s
  obtain ⟨E', l'⟩ := s'
  have he : E' = E := h.1
  subst he
  exact ⟨rfl, rfl, rfl, rfl, h.2, rfl, rfl, rfl⟩

/-- C18 every program, ended by `return` or by an exception, leaves the current module, the hooks, the depth of the rng stack and
everything below its top, and all enclosing transforms as they were. -/
theorem same_place (p : Prog) (w : World) (hw : InTransform w) : SamePlace w (p.run stackMach w).2 := by
  obtain ⟨F, rest, r, tl, hF, hr⟩ := hw
  rw [run_curr hF hr]
  have := samePlace_toWorld (frm_run p (curr F r w)) tl rest
  rwa [toWorld_curr hF hr] at this

/-- C18 a handler runs in the same place in which the `try` block started. -/
theorem handler_place (p : Prog) (h : Exc → Prog) (w : World) (hw : InTransform w) (e : Exc) (he : (p.run stackMach w).1 = .error e) :
    ∃ w', SamePlace w w' ∧ (Prog.tryCatch p h).run stackMach w = (h e).run stackMach w' := by
  refine ⟨(p.run stackMach w).2, same_place p w hw, ?_⟩
  show M.tryCatch _ _ w = _
  unfold M.tryCatch
  rcases hp : p.run stackMach w with ⟨e' | v, w'⟩ <;> rw [hp] at he
  · cases he; rfl
  · cases he

/-- C18 `with_rng`, ended by `return` or by an exception, restores the whole rng stack. -/
theorem with_rng_restores (r : RngArg) (p : Prog) (w : World) (hw : InTransform w) :
    rngStackOf ((Prog.withRng r p).run stackMach w).2 = rngStackOf w := by
  obtain ⟨F, rest, r0, tl, hF, hr⟩ := hw
  rw [run_curr hF hr]
  have hb : ((Prog.withRng r p).run localMach (curr F r0 w)).2.loc.rng = r0 := by
    unfold Prog.run
    rw [M.bind, top_eq]
    dsimp only [M.pure]
    cases r.seq with
    | error e => rfl
    | ok q => rfl
  unfold rngStackOf toWorld
  rw [hF, hb]
  exact congrArg some hr.symm

/-- Nothing in these theorems is about terminating normally. -/
example : InTransform busy ∧ (failing.run stackMach busy).1 = .error .indexError ∧
    ((Prog.withRng (.seed 3) (.bind (.op .nextKey) fun _ => failing)).run stackMach busy).1 = .error .indexError ∧
    ((Prog.withRng (.seed 3) (.bind (.op .nextKey) fun _ => failing)).run stackMach busy).2.log.length = 1 :=
  ⟨busy_in, by decide +kernel⟩

/-! ### C28 -/

/-- C28 `hk.eval_shape` leaves the frames (parameters, state, rng, names), hooks and enclosing transforms exactly as they were, whether it
returns or raises; only module objects and the record of keys handed out remember that it ran. -/
theorem eval_shape_no_effect (p : Prog) (w : World) (hw : InTransform w) :
    ∃ h l, ((Prog.evalShape p).run stackMach w).2 = { w with heap := h, log := l } := by
  obtain ⟨F, rest, r, tl, hF, hr⟩ := hw
  rw [run_curr hF hr]
  have : (Prog.evalShape p).run localMach (curr F r w) = evalShapeM localMach (p.run localMach) (curr F r w) := rfl
  rw [this, evalShapeM_eq]
  refine ⟨(p.run localMach (curr F r w)).2.loc.heap, (p.run localMach (curr F r w)).2.loc.log, ?_⟩
  obtain ⟨fs, hk, nc, h, lg⟩ := w
  obtain ⟨p', fr, st, rs, ms, sc, tr⟩ := F
  dsimp only at hF hr
  subst hF
  subst hr
  rfl

/-- C28 and its result is the result of the function with the contents erased. -/
theorem eval_shape_result (p : Prog) (w : World) (hw : InTransform w) :
    ((Prog.evalShape p).run stackMach w).1 = (p.run stackMach w).1.map Val.shapeOnly := by
  obtain ⟨F, rest, r, tl, hF, hr⟩ := hw
  rw [run_curr hF hr, run_curr hF hr]
  have : (Prog.evalShape p).run localMach (curr F r w) = evalShapeM localMach (p.run localMach) (curr F r w) := rfl
  rw [this, evalShapeM_eq]

example : InTransform busy ∧ ((Prog.evalShape (getP "w")).run stackMach busy).1 = .ok (.arr ⟨[], .f32, []⟩) ∧
    ((getP "w").run stackMach busy).2.frames.head?.map FrameS.params = some [("~".toList, [("w".toList, ⟨[], .f32, [7]⟩)])] :=
  ⟨busy_in, by decide +kernel⟩

/-! ### C42 -/

/-- The same thread outside any transform. -/
def outside (w : World) : World := { w with frames := [], log := [] }

/-- C42 calling init or apply inside a transform gives the result it gives outside any transform with the same hooks active, and
consumes nothing of the enclosing transform.  Missing for the full claim: the hooks (creators, getters, interceptors) that are
active in the enclosing function apply inside as well. -/
theorem nested_isolated_partial (p : Prog) (rng : RngArg) (params state : Option PDict) (w : World) :
    ((Prog.initT rng p).run stackMach w).1 = ((Prog.initT rng p).run stackMach (outside w)).1 ∧
    ((Prog.applyT params state rng p).run stackMach w).1 = ((Prog.applyT params state rng p).run stackMach (outside w)).1 ∧
    ((Prog.initT rng p).run stackMach w).2.frames = w.frames ∧
    ((Prog.applyT params state rng p).run stackMach w).2.frames = w.frames := by
  obtain ⟨⟨h1, e1⟩, ⟨h2, e2⟩⟩ := ambient_untouched p rng params state w
  refine ⟨?_, ?_, by rw [e1], by rw [e2]⟩
  · rw [initT_run, initT_run]
    have : ∀ c, ctxStart c (outside w) = ctxStart c w := fun _ => rfl
    cases rng.toSeq with
    | error e => rfl
    | ok r =>
      dsimp only
      rw [this]
      rcases p.run localMach (ctxStart (Ctx.new none none r) w) with ⟨e | v, s⟩ <;> rfl
  · rw [applyT_run, applyT_run]
    have : ∀ c, ctxStart c (outside w) = ctxStart c w := fun _ => rfl
    cases rng.toSeq with
    | error e => rfl
    | ok r =>
      dsimp only
      rw [this]
      rcases p.run localMach (ctxStart (Ctx.new (some (params.getD [])) (some (state.getD [])) r) w) with ⟨e | v, s⟩ <;> rfl

example : ((Prog.initT .none (getP "w")).run stackMach busy).1 =
    .ok (.pair (.bundle [("~".toList, [("w".toList, ⟨[], .f32, [7]⟩)])]) (.bundle [])) := by decide +kernel

/-- C42 the hooks of the enclosing function do leak: inside a creator that returns 7, the parameters of a nested init are 7, outside
they are 0. -/
theorem hooks_leak_into_nested : ∃ (p : Prog) (w w' : World), w' = { w with frames := [], hooks := Hooks.none } ∧
    ((Prog.initT .none p).run stackMach w).1 ≠ ((Prog.initT .none p).run stackMach w').1 :=
  ⟨getP "w", busy, _, rfl, by decide +kernel⟩

end Verif.Props.Context
