import Verif.Model.Machine

/-!
# The local machine

A second machine for the same programs, without stacks: entering a `with` block saves the surrounding values and leaving it, normally
or by an exception, puts them back.  It is not a model of code but the specification of what the stacks are for; `Verif.Lemmas.Refine`
shows that the stack machine computes the same.
-/

namespace Verif
open Names Frame

/-- The state of the local machine: the surroundings and the data of the current frame (`/repo/haiku/_src/base.py` 53-65). -/
structure LW where
  env : Env
  loc : Loc

namespace LW

/-- Specification of acting on the current frame (`/repo/haiku/_src/base.py` 102). -/
def top {α : Type} (f : FOp α) : M LW α := fun s =>
  match f s.env s.loc with
  | (a, l) => (a, { s with loc := l })

/-- Specification of `temporary_internal_state` (`/repo/haiku/_src/stateful.py` 67-82): run on the given data, then put everything but the
module objects and the ghost record of keys back. -/
def temp {α : Type} (st : IState) (m : M LW α) : M LW α := fun s =>
  match m { s with loc := { s.loc with
      params := st.params.getD s.loc.params, state := st.state, rng := st.rng.map PRNGSeq.ofState, trace := st.trace } } with
  | (a, s') => (a, { s with loc := { s.loc with heap := s'.loc.heap, log := s'.loc.log } })

/-- Specification of `frame.module(ms)` (`/repo/haiku/_src/base.py` 94-99). -/
def inModule {α : Type} (ms : ModId × Str) (m : M LW α) : M LW α := fun s =>
  match m { env := { s.env with modules := ms :: s.env.modules }, loc := { s.loc with scopes := Scope.empty :: s.loc.scopes } } with
  | (a, s') => (a, { env := s.env, loc := { s'.loc with scopes := s'.loc.scopes.tail } })

/-- Specification of `frame.rng_stack(seq)` (`/repo/haiku/_src/base.py` 779). -/
def inRng {α : Type} (q : PRNGSeq) (m : M LW α) : M LW α := fun s =>
  match m { s with loc := { s.loc with rng := some q } } with
  | (a, s') => (a, { s' with loc := { s'.loc with rng := s.loc.rng } })

/-- Specification of `with stack(hook)` (`/repo/haiku/_src/base.py` 398-404, 466-472, `/repo/haiku/_src/module.py` 266-267). -/
def inHook {α : Type} (h : HookPush) (m : M LW α) : M LW α := fun s =>
  match m { s with env := { s.env with hooks := World.pushHook s.env.hooks h } } with
  | (a, s') => (a, { s' with env := s.env })

/-- The surroundings inside a context (`/repo/haiku/_src/base.py` 135-142): no module, the hooks of the thread. -/
def ctxEnv (c : Ctx) (E : Env) : Env := ⟨c.frozen, [], E.hooks, E.namedCall⟩

/-- The data at the start of a context (`/repo/haiku/_src/base.py` 135-142). -/
def ctxLoc (c : Ctx) (heap : List ModObj) : Loc := ⟨c.params, c.state, c.rng, [c.scope, Scope.empty], heap, [], []⟩

/-- Specification of `with ctx` (`/repo/haiku/_src/base.py` 135-147). -/
def inCtx {α : Type} (c : Ctx) (m : M LW α) : M LW (Except Exc α × Ctx) := fun s =>
  match m ⟨ctxEnv c s.env, ctxLoc c s.loc.heap⟩ with
  | (a, s') => (.ok (a, ⟨s'.loc.params, c.frozen, s'.loc.state, s'.loc.rng, s'.loc.scopes.head?.getD Scope.empty⟩),
      { s with loc := { s.loc with heap := s'.loc.heap } })

end LW

/-- The local machine (specification of `/repo/haiku/_src/base.py` 46-147). -/
def localMach : Mach LW where
  top := LW.top
  temp := LW.temp
  inModule := LW.inModule
  inRng := LW.inRng
  inHook := LW.inHook
  inCtx := LW.inCtx

end Verif
