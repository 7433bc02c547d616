/-!
# Method hooks

Models `hook_methods`, `_module_method_call` and their use in `wrap_method` (`/repo/haiku/_src/module.py` 397-437, 603-618) for any context managers as hooks, with `contextlib.ExitStack` and `contextlib.contextmanager` of Python.
Names, interceptors and the list of submodules are in the other model (`Verif/Model/Machine.lean`).
-/

namespace Verif.MethodHooks

/-- Exceptions: those of programs and hooks, `UnboundLocalError` for the variable `out` (`/repo/haiku/_src/module.py` 437) and the `RuntimeError` of a context manager that does not yield (`/repo/haiku/_src/module.py` 612). -/
inductive Exn (E : Type) where
  | user (e : E)
  | unbound
  | noYield
  deriving DecidableEq, Repr

/-- What `__exit__` of a hook does: it returns a false value, a true one, or raises (`/repo/haiku/_src/module.py` 617). -/
inductive Exit (E : Type) where
  | keep
  | suppress
  | raise (e : Exn E)

/-- A hook (`/repo/haiku/_src/module.py` 603): making the context manager and entering it may raise, leaving it sees the exception if there is one.  `σ` is whatever state Python code can change. -/
structure Hook (σ E : Type) where
  enter : String → σ → Option (Exn E) × σ
  exit : String → Option (Exn E) → σ → Exit E × σ

/-- Ghost: what happened, with the number of the hook and the methods running at this time (`/repo/haiku/_src/module.py` 406, 617). -/
inductive Event where
  | enter (i : Nat) (methods : List String)
  | failed (i : Nat) (methods : List String)
  | exit (i : Nat) (methods : List String)
  deriving DecidableEq, Repr

/-- The world: the state, the methods running (`frame.module_stack`, `/repo/haiku/_src/module.py` 406), and what happened (ghost). -/
structure World (σ : Type) where
  state : σ
  methods : List String
  trace : List Event

variable {σ E V : Type}

/-- Leaving an `ExitStack` (`/repo/haiku/_src/module.py` 615): the last entered first, each with the exception that is left over by those before. -/
def exitAll (method : String) : List (Nat × Hook σ E) → Option (Exn E) → World σ → Option (Exn E) × World σ
  | [], exc, w => (exc, w)
  | (i, h) :: hooks, exc, w =>
    let r := h.exit method exc w.state
    exitAll method hooks (match r.1 with | .keep => exc | .suppress => none | .raise e => some e) { w with state := r.2, trace := w.trace ++ [.exit i w.methods] }

/-- The loop over the hooks (`/repo/haiku/_src/module.py` 616-617): what it raised, the hooks that were entered, the last one first. -/
def enterAll (method : String) : List (Nat × Hook σ E) → List (Nat × Hook σ E) → World σ → Option (Exn E) × List (Nat × Hook σ E) × World σ
  | [], entered, w => (none, entered, w)
  | (i, h) :: hooks, entered, w =>
    match h.enter method w.state with
    | (some e, s) => (some e, entered, { w with state := s, trace := w.trace ++ [.failed i w.methods] })
    | (none, s) => enterAll method hooks ((i, h) :: entered) { w with state := s, trace := w.trace ++ [.enter i w.methods] }

/-- `with _module_method_call(self, method_name): out = …`, then `return out` (`/repo/haiku/_src/module.py` 406-437, 612-618).  If a hook suppresses the exception of the method, `out` was never assigned; if one suppresses the
exception of entering another, the generator ends without `yield`. -/
def withHooks (hooks : List (Nat × Hook σ E)) (method : String) (body : World σ → Except (Exn E) V × World σ) (w : World σ) : Except (Exn E) V × World σ :=
  match enterAll method hooks [] w with
  | (some e, entered, w) =>
    match exitAll method entered (some e) w with
    | (some e, w) => (.error e, w)
    | (none, w) => (.error .noYield, w)
  | (none, entered, w) =>
    match body w with
    | (.ok v, w) =>
      match exitAll method entered none w with
      | (some e, w) => (.error e, w)
      | (none, w) => (.ok v, w)
    | (.error e, w) =>
      match exitAll method entered (some e) w with
      | (some e, w) => (.error e, w)
      | (none, w) => (.error .unbound, w)

/-- `wrapped` (`/repo/haiku/_src/module.py` 398-437): the frame's stack of modules around the hooks. -/
def callMethod (hooks : List (Nat × Hook σ E)) (method : String) (body : World σ → Except (Exn E) V × World σ) (w : World σ) : Except (Exn E) V × World σ :=
  let r := withHooks hooks method body { w with methods := method :: w.methods }
  (r.1, { r.2 with methods := r.2.methods.drop 1 })

/-- Programs that call methods and register hooks (`hook_methods`, `/repo/haiku/_src/module.py` 607-609). -/
inductive Prog (σ E V : Type) where
  | ret (v : V)
  | raise (e : Exn E)
  | act (f : σ → Except (Exn E) V × σ)
  | bind (p : Prog σ E V) (k : V → Prog σ E V)
  | tryCatch (p : Prog σ E V) (h : Exn E → Prog σ E V)
  | call (method : String) (p : Prog σ E V)
  | hooked (i : Nat) (h : Hook σ E) (p : Prog σ E V)

/-- Running a program under a stack of hooks, which iteration gives from the last registered on (`/repo/haiku/_src/data_structures.py` 48-49, 72-78, `/repo/haiku/_src/module.py` 604, 616). -/
def Prog.run : List (Nat × Hook σ E) → Prog σ E V → World σ → Except (Exn E) V × World σ
  | _, .ret v, w => (.ok v, w)
  | _, .raise e, w => (.error e, w)
  | _, .act f, w => ((f w.state).1, { w with state := (f w.state).2 })
  | hooks, .bind p k, w =>
    match p.run hooks w with
    | (.ok v, w) => (k v).run hooks w
    | (.error e, w) => (.error e, w)
  | hooks, .tryCatch p h, w =>
    match p.run hooks w with
    | (.ok v, w) => (.ok v, w)
    | (.error e, w) => (h e).run hooks w
  | hooks, .call method p, w => callMethod hooks method (p.run hooks) w
  | hooks, .hooked i h p, w => p.run ((i, h) :: hooks) w

end Verif.MethodHooks
