import Verif.Model.Machine

/-!
# Chains of hooks

Models `run_creators` (`/repo/haiku/_src/base.py` 340-359), `run_getters` (410-427) and `run_interceptors`
(`/repo/haiku/_src/module.py` 270-295) for hooks that call `next` any number of times, with any arguments, and catch exceptions.  The three
functions have the same shape: a copy of the stack is made, and every call of `next` pops the oldest hook left in that one copy.
-/

namespace Verif.Hooks

/-- The body of a hook: it ends with a value or an exception, acts on the world, or calls `next`
(`/repo/haiku/_src/base.py` 353-357, 421-425, `/repo/haiku/_src/module.py` 285-293).  `σ` is whatever state Python code can change. -/
inductive Body (σ A B : Type) where
  | done (r : Except Exc B)
  | act (f : σ → σ) (k : σ → Body σ A B)
  | next (a : A) (k : Except Exc B → Body σ A B)

/-- A hook: a function of the arguments it is called with (`/repo/haiku/_src/base.py` 336-337, 407, `/repo/haiku/_src/module.py` 218).  The
context argument is the same for all calls in a chain and left implicit. -/
abbrev Hook (σ A B : Type) := A → Body σ A B

/-- Ghost: a call made during a chain, of the hook with this number in the stack or of the function at the end
(`/repo/haiku/_src/base.py` 355, 357, 423, 425, `/repo/haiku/_src/module.py` 290-293). -/
inductive Call (A : Type) where
  | hook (i : Nat) (a : A)
  | last (a : A)
  deriving DecidableEq

/-- Variables of a chain: the copy of the stack, each hook with its number (`stack_copy`, `/repo/haiku/_src/base.py` 351), the calls made so
far (ghost) and the rest of the world. -/
structure Chain (σ A B : Type) where
  queue : List (Nat × Hook σ A B)
  calls : List (Call A)
  world : σ

variable {σ A B : Type}

/-- Running the body of a hook; `call` is what `next` does (`/repo/haiku/_src/base.py` 355). -/
def runBody (call : A → Chain σ A B → Except Exc B × Chain σ A B) : Body σ A B → Chain σ A B → Except Exc B × Chain σ A B
  | .done r, c => (r, c)
  | .act f k, c => runBody call (k c.world) { c with world := f c.world }
  | .next a k, c => runBody call (k (call a c).1) (call a c).2

/-- `next_creator` / `next_getter` / `next_fun` (`/repo/haiku/_src/base.py` 353-357, 421-425, `/repo/haiku/_src/module.py` 285-293).  The number
bounds the depth of recursion, which is at most the length of the queue; the branch `0` with hooks left is not reached from `runChain`. -/
def callNext (last : A → M σ B) : Nat → A → Chain σ A B → Except Exc B × Chain σ A B
  | n, a, c =>
    match n, c.queue with
    | _, [] =>
      let r := last a c.world
      (r.1, { c with calls := c.calls ++ [.last a], world := r.2 })
    | 0, _ :: _ => (.error .indexError, c)
    | n + 1, (i, h) :: q => runBody (callNext last n) (h a) { c with queue := q, calls := c.calls ++ [.hook i a] }

/-- `run_creators`, `run_getters`, `run_interceptors` (`/repo/haiku/_src/base.py` 340-359, 410-427, `/repo/haiku/_src/module.py` 270-295): result, the
calls made, and the world afterwards. -/
def runChain (hooks : List (Hook σ A B)) (last : A → M σ B) (a : A) (w : σ) : Except Exc B × List (Call A) × σ :=
  if hooks.isEmpty then
    let r := last a w
    (r.1, [.last a], r.2)
  else
    let r := callNext last hooks.length a ⟨(List.range hooks.length).zip hooks, [], w⟩
    (r.1, r.2.calls, r.2.world)

/-- The arguments `next_creator` takes (`/repo/haiku/_src/base.py` 353). -/
structure CreateArgs where
  shape : List Nat
  dtype : DType
  init : Initializer

/-- A creator of the interpreter as a hook (`/repo/haiku/_src/base.py` 336-337). -/
def ofCreator (ctx : GetterContext) (c : Creator) : Hook Loc CreateArgs Arr := fun a =>
  match c ctx a.shape a.dtype a.init with
  | .done r => .done (.ok r)
  | .raise e => .done (.error e)
  | .next shape dtype init post => .next ⟨shape, dtype, init⟩ fun r => .done (r.map post)

/-- A getter of the interpreter as a hook (`/repo/haiku/_src/base.py` 407). -/
def ofGetter (ctx : GetterContext) (g : Getter) : Hook Unit Arr Arr := fun a =>
  match g ctx a with
  | .done r => .done (.ok r)
  | .raise e => .done (.error e)
  | .next a' post => .next a' fun r => .done (r.map post)

/-- An interceptor of the interpreter as a hook; `orig` is `context.orig_method` (`/repo/haiku/_src/module.py` 218, 279-281). -/
def ofInterceptor {σ : Type} (self : ModId) (method : Str) (body : Val → M σ Val) (i : Interceptor) : Hook σ Val Val := fun a =>
  match i self method a with
  | .done v => .done (.ok v)
  | .raise e => .done (.error e)
  | .next a' post => .next a' fun r => .done (r.map post)
  | .orig a' post => .act (fun w => (body a' w).2) fun w => .done ((body a' w).1.map post)

end Verif.Hooks
