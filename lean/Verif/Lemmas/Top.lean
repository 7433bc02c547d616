import Verif.Lemmas.Refine

/-!
# `init`, `apply` and programs on the stack machine, in terms of the local machine
-/

namespace Verif
open Names Frame

/-- The local state in which the function of a transform starts: a fresh frame, the hooks of the thread. -/
def ctxStart (c : Ctx) (w : World) : LW := ⟨⟨c.frozen, [], w.hooks, w.namedCall⟩, LW.ctxLoc c w.heap⟩

theorem inCtx_run (c : Ctx) (p : Prog) (w : World) : stackMach.inCtx c (p.run stackMach) w =
    (let r := p.run localMach (ctxStart c w)
     (.ok (r.1, ⟨r.2.loc.params, c.frozen, r.2.loc.state, r.2.loc.rng, r.2.loc.scopes.head?.getD Scope.empty⟩),
      { w with heap := r.2.loc.heap })) := Ref.ctxAny c (ref_run p) w

theorem initT_run (rng : RngArg) (p : Prog) (w : World) : (Prog.initT rng p).run stackMach w =
    match rng.toSeq with
    | .error e => (.error e, w)
    | .ok r =>
      match p.run localMach (ctxStart (Ctx.new none none r) w) with
      | (.error e, s) => (.error e, { w with heap := s.loc.heap })
      | (.ok _, s) => (.ok (.pair (.bundle s.loc.params) (.bundle (extractState true s.loc.state))), { w with heap := s.loc.heap }) := by
  show initM stackMach rng (p.run stackMach) w = _
  unfold initM
  cases rng.toSeq with
  | error e => rfl
  | ok r =>
    dsimp only
    rw [M.bind, inCtx_run]
    rcases p.run localMach (ctxStart (Ctx.new none none r) w) with ⟨e | v, s⟩ <;> rfl

theorem applyT_run (params state : Option PDict) (rng : RngArg) (p : Prog) (w : World) : (Prog.applyT params state rng p).run stackMach w =
    match rng.toSeq with
    | .error e => (.error e, w)
    | .ok r =>
      match p.run localMach (ctxStart (Ctx.new (some (params.getD [])) (some (state.getD [])) r) w) with
      | (.error e, s) => (.error e, { w with heap := s.loc.heap })
      | (.ok v, s) => (.ok (.pair v (.bundle (extractState false s.loc.state))), { w with heap := s.loc.heap }) := by
  show applyM stackMach params state rng (p.run stackMach) w = _
  unfold applyM
  cases rng.toSeq with
  | error e => rfl
  | ok r =>
    dsimp only
    rw [M.bind, inCtx_run]
    rcases p.run localMach (ctxStart (Ctx.new (some (params.getD [])) (some (state.getD [])) r) w) with ⟨e | v, s⟩ <;> rfl

/-- The local state of the current frame. -/
def curr (F : FrameS) (r : Option PRNGSeq) (w : World) : LW :=
  ⟨⟨F.frozen, F.moduleStack, w.hooks, w.namedCall⟩, ⟨F.params, F.state, r, F.scopeStack, w.heap, w.log, F.trace⟩⟩

theorem toWorld_curr {w : World} {F : FrameS} {rest : List FrameS} {r : Option PRNGSeq} {tl : List (Option PRNGSeq)}
    (hF : w.frames = F :: rest) (hr : F.rngStack = r :: tl) : toWorld (curr F r w) tl rest = w := by
  obtain ⟨fs, hk, nc, h, lg⟩ := w
  obtain ⟨p, fr, st, rs, ms, sc, tr⟩ := F
  dsimp only at hF hr
  subst hF
  subst hr
  rfl

theorem run_curr {w : World} {F : FrameS} {rest : List FrameS} {r : Option PRNGSeq} {tl : List (Option PRNGSeq)}
    (hF : w.frames = F :: rest) (hr : F.rngStack = r :: tl) (p : Prog) :
    p.run stackMach w = ((p.run localMach (curr F r w)).1, toWorld (p.run localMach (curr F r w)).2 tl rest) := by
  conv_lhs => rw [← toWorld_curr hF hr]
  exact (ref_run p).1 _ _ _

end Verif
