import Verif.Lemmas.Top
import Verif.Props.Hooks
import Verif.Base.Dict

/-!
# Registered hooks run outermost first (C19)

`Props.Hooks` is about one chain.  Here the hooks are registered by nested `with` blocks of a program, and a parameter is requested or a method called inside.
-/

set_option linter.unusedVariables false

namespace Verif.Props.HookOrder
open Verif Verif.Hooks Verif.Frame Verif.Names Verif.Props.Hooks

/-! ## Specification -/

/-- `with h1: with h2: ... p`. -/
def nest (hs : List HookPush) (p : Prog) : Prog := hs.foldr Prog.withHook p

/-- The creators of parameters among the hooks, in the order of the `with` blocks. -/
def paramCreators (hs : List HookPush) : List Creator := hs.filterMap fun h => match h with | .creator c true _ => some c | _ => none
/-- The creators of state among the hooks. -/
def stateCreators (hs : List HookPush) : List Creator := hs.filterMap fun h => match h with | .creator c _ true => some c | _ => none
/-- The getters of parameters among the hooks. -/
def paramGetters (hs : List HookPush) : List Getter := hs.filterMap fun h => match h with | .getter g true _ => some g | _ => none
/-- The getters of state among the hooks. -/
def stateGetters (hs : List HookPush) : List Getter := hs.filterMap fun h => match h with | .getter g _ true => some g | _ => none
/-- The interceptors among the hooks. -/
def interceptors (hs : List HookPush) : List Interceptor := hs.filterMap fun h => match h with | .interceptor i => some i | _ => none

/-- The hooks active inside: those of the surroundings, then those of the blocks. -/
def inside (H : Hooks) (hs : List HookPush) : Hooks :=
  ⟨H.paramCreators ++ paramCreators hs, H.stateCreators ++ stateCreators hs, H.paramGetters ++ paramGetters hs, H.stateGetters ++ stateGetters hs, H.interceptors ++ interceptors hs⟩

/-! ## Lemmas -/

theorem inside_cons (H : Hooks) (h : HookPush) (hs : List HookPush) : inside H (h :: hs) = inside (World.pushHook H h) hs := by
  unfold inside paramCreators stateCreators paramGetters stateGetters interceptors
  cases h with
  | creator c p s => cases p <;> cases s <;> simp [World.pushHook]
  | getter c p s => cases p <;> cases s <;> simp [World.pushHook]
  | interceptor i => simp [World.pushHook]

theorem inside_nil (H : Hooks) : inside H [] = H := by
  unfold inside paramCreators stateCreators paramGetters stateGetters interceptors
  simp

theorem nest_local (p : Prog) : ∀ (hs : List HookPush) (s : LW), (nest hs p).run localMach s =
    ((p.run localMach { s with env := { s.env with hooks := inside s.env.hooks hs } }).1,
      { (p.run localMach { s with env := { s.env with hooks := inside s.env.hooks hs } }).2 with env := s.env })
  | [], s => by
    rw [inside_nil]
    have h : (p.run localMach s).2.env = s.env := (frm_run p s).1
    show p.run localMach s = ((p.run localMach s).1, { (p.run localMach s).2 with env := s.env })
    rw [← h]
  | h :: hs, s => by
    show ((nest hs p).run localMach { s with env := { s.env with hooks := World.pushHook s.env.hooks h } } |> fun r => (r.1, { r.2 with env := s.env })) = _
    rw [nest_local p hs, inside_cons]

theorem composed_interceptors {σ : Type} (self : ModId) (method : Str) (body : Val → M σ Val) (is : List Interceptor) (a : Val) (s : σ) :
    runInterceptors self method body is a s = composed body (is.map (ofInterceptor self method body)) a s := by
  rw [interceptors_chain]
  exact chain_is_composition _ _ (fun h hh b => by
    obtain ⟨i, _, rfl⟩ := List.mem_map.1 hh
    simp only [ofInterceptor]
    cases i self method b <;> first | trivial | exact fun r => trivial) a s

theorem composed_creators (ctx : GetterContext) (cs : List Creator) (shape : List Nat) (dtype : DType) (init : Initializer) (s : Loc) :
    Frame.runCreators ctx cs shape dtype init s = composed (fun a => Frame.runInit (a.init a.shape a.dtype)) (cs.map (ofCreator ctx)) ⟨shape, dtype, init⟩ s := by
  rw [creators_chain]
  exact chain_is_composition _ _ (fun h hh a => by
    obtain ⟨c, _, rfl⟩ := List.mem_map.1 hh
    simp only [ofCreator]
    cases c ctx a.shape a.dtype a.init <;> first | trivial | exact fun r => trivial) _ s

theorem composed_getters (ctx : GetterContext) (gs : List Getter) (a : Arr) :
    Frame.runGetters ctx gs a = (composed (fun a => M.pure a) (gs.map (ofGetter ctx)) a ()).1 := by
  rw [getters_chain]
  exact congrArg (fun p : Except Exc Arr × Unit => p.1) (chain_is_composition (gs.map (ofGetter ctx)) (fun a => M.pure a) (fun h hh b => by
    obtain ⟨g, _, rfl⟩ := List.mem_map.1 hh
    simp only [ofGetter]
    cases g ctx b <;> first | trivial | exact fun r => trivial) a ())

/-! ## C19 -/

/-- C19 A method called inside nested `with` blocks, in any thread state: the interceptors of the surroundings and of the blocks are composed around the method, the outermost outside.  If the call returns, it returns the value
of this composition, and if the composition raises, so does the call.  (Not with `named_call`, which only adds `hk.jit`.) -/
theorem method_intercepted (w : World) (F : FrameS) (rest : List FrameS) (r : Option PRNGSeq) (tl : List (Option PRNGSeq)) (hF : w.frames = F :: rest) (hr : F.rngStack = r :: tl) (hnc : w.namedCall = false)
    (hs : List HookPush) (self : ModId) (method : Str) (args : Val) (body : Val → Prog) (s' : LW)
    (h' : s' = ⟨⟨F.frozen, (self, method) :: F.moduleStack, inside w.hooks hs, false⟩, { (curr F r w).loc with scopes := Names.Scope.empty :: F.scopeStack }⟩)
    (result : Except Exc Val)
    (hc : result = (composed (fun a => (body a).run localMach) ((w.hooks.interceptors ++ interceptors hs).map (ofInterceptor self method fun a => (body a).run localMach)) args s').1) :
    (∀ v, ((nest hs (.callMethod self method args body)).run stackMach w).1 = .ok v → result = .ok v) ∧
    (∀ e, result = .error e → ((nest hs (.callMethod self method args body)).run stackMach w).1 = .error e) := by
  rw [run_curr hF hr, nest_local]
  dsimp only
  have key : ((Prog.callMethod self method args body).run localMach { curr F r w with env := { (curr F r w).env with hooks := inside (curr F r w).env.hooks hs } }).1 =
      ((runInterceptors self method (fun a => (body a).run localMach) (inside w.hooks hs).interceptors args >>- fun v =>
        localMach.top (notify self (s'.loc.heap[self]?.bind ModObj.name)) >>- fun _ => M.pure v) s').1 := by
    rw [h']
    obtain ⟨fs, hk, nc, hp, lg⟩ := w
    obtain ⟨p, fr, st, rs, ms, sc, tr⟩ := F
    dsimp only at hnc
    subst hnc
    rfl
  rw [key]
  simp only [M.bind]
  rw [composed_interceptors]
  have e : (inside w.hooks hs).interceptors = w.hooks.interceptors ++ interceptors hs := rfl
  rw [e]
  rcases hq : composed (fun a => (body a).run localMach) ((w.hooks.interceptors ++ interceptors hs).map (ofInterceptor self method fun a => (body a).run localMach)) args s' with ⟨x, s1⟩
  rw [hq] at hc
  dsimp only at hc
  subst hc
  cases result with
  | error e => exact ⟨(fun v h => by cases h), fun e' h => h⟩
  | ok v =>
    refine ⟨fun v' h => ?_, fun e h => by cases h⟩
    dsimp only at h
    rcases hn : localMach.top (notify self (s'.loc.heap[self]?.bind ModObj.name)) s1 with ⟨y, s2⟩
    rw [hn] at h
    cases y with
    | error e => cases h
    | ok _ => exact h

/-- C19 Nested `with` blocks, in any thread state: inside, the creators, getters and interceptors of the blocks follow those of the surroundings, the innermost last, each kind and each of parameters and state for itself; afterwards, also after an
exception, the hooks are those of before. -/
theorem blocks_register (w : World) (F : FrameS) (rest : List FrameS) (r : Option PRNGSeq) (tl : List (Option PRNGSeq)) (hF : w.frames = F :: rest) (hr : F.rngStack = r :: tl) (hs : List HookPush) (p : Prog) :
    (nest hs p).run stackMach w = ((p.run stackMach { w with hooks := inside w.hooks hs }).1, { (p.run stackMach { w with hooks := inside w.hooks hs }).2 with hooks := w.hooks }) := by
  rw [run_curr hF hr, nest_local, run_curr (w := { w with hooks := inside w.hooks hs }) hF hr]
  have e : curr F r { w with hooks := inside w.hooks hs } = { curr F r w with env := { (curr F r w).env with hooks := inside (curr F r w).env.hooks hs } } := rfl
  rw [e]
  have h := (frm_run p { curr F r w with env := { (curr F r w).env with hooks := inside (curr F r w).env.hooks hs } }).1
  generalize p.run localMach { curr F r w with env := { (curr F r w).env with hooks := inside (curr F r w).env.hooks hs } } = q at h ⊢
  obtain ⟨x, s1⟩ := q
  obtain ⟨E1, l1⟩ := s1
  dsimp only at h ⊢
  subst h
  rfl

/-! ### Examples -/

/-- Two interceptors: the first adds 1 to the argument and doubles the result, the second triples the argument. -/
def addOne : Interceptor := fun _ _ a => .next (match a with | .int n => .int (n + 1) | v => v) fun v => match v with | .int n => .int (2 * n) | v => v

def triple : Interceptor := fun _ _ a => .next (match a with | .int n => .int (3 * n) | v => v) id

/-- A frame inside no module, and one module object that is initialised. -/
def exWorld : World := ⟨[⟨[], false, [], [none], [], [Names.Scope.empty], []⟩], Verif.Hooks.none, false, [⟨some "m".toList, some []⟩], []⟩

def exCall : Prog := nest [.interceptor addOne, .interceptor triple] (.callMethod 0 "f".toList (.int 5) fun v => .ret v)

example : (exCall.run stackMach exWorld).1 = .ok (.int 36) := by decide +kernel

example : interceptors [.interceptor addOne, .getter (fun _ a => .next a id) true false, .interceptor triple] = [addOne, triple] := rfl

end Verif.Props.HookOrder
