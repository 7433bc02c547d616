import Verif.Model.Frame

/-!
# The interpreter

`Prog` is the syntax of user programs: every call they can make to the modelled part of Haiku, with arbitrary
(Lean) functions as continuations.  `Prog.run` interprets a program on a machine `Mach σ`, which supplies the primitive
operations that push and pop Haiku's stacks.  `stackMach` is the machine of the code: explicit stacks, pushed on entry and popped
on exit of the `with` blocks, with the popped element checked.
-/

namespace Verif
open Names Frame

/-- What a `with` block on a hook stack pushes (`/repo/haiku/_src/base.py` 398-404, 466-472, `/repo/haiku/_src/module.py` 266-267). -/
inductive HookPush where
  | creator (c : Creator) (params state : Bool)
  | getter (g : Getter) (params state : Bool)
  | interceptor (i : Interceptor)

/-- `HaikuContext` (`/repo/haiku/_src/base.py` 105-147): parameters (mutable or frozen), state, rng sequence, and the persistent
counter and used names. -/
structure Ctx where
  params : PDict
  frozen : Bool
  state : SDict
  rng : Option PRNGSeq
  scope : Scope
  deriving DecidableEq

/-- `new_context` (`/repo/haiku/_src/base.py` 150-194). -/
def Ctx.new (params : Option PDict) (state : Option PDict) (rng : Option PRNGSeq) : Ctx where
  params := dict2 (params.getD [])
  frozen := params.isSome
  state := match state with
    | some d => (dict2 d).mapVals fun _ b => b.mapVals fun _ v => ⟨v, v⟩
    | none => []
  rng := rng
  scope := Scope.empty

/-- `extract_state` (`/repo/haiku/_src/base.py` 650-654). -/
def extractState (initial : Bool) (st : SDict) : PDict :=
  st.mapVals fun _ b => b.mapVals fun _ p => if initial then p.initial else p.current

/-- The primitive operations of a Haiku machine with states `σ`: acting on the current frame, and the `with` blocks. -/
structure Mach (σ : Type) where
  /-- run an operation on `current_frame()` (`/repo/haiku/_src/base.py` 102) -/
  top : ∀ {α : Type}, FOp α → M σ α
  /-- `with temporary_internal_state(state)` (`/repo/haiku/_src/stateful.py` 67-82) -/
  temp : ∀ {α : Type}, IState → M σ α → M σ α
  /-- `with frame.module(module_state)` (`/repo/haiku/_src/base.py` 94-99) -/
  inModule : ∀ {α : Type}, ModId × Str → M σ α → M σ α
  /-- `with frame.rng_stack(seq)` (`/repo/haiku/_src/base.py` 779) -/
  inRng : ∀ {α : Type}, PRNGSeq → M σ α → M σ α
  /-- `with stack(hook)` (`/repo/haiku/_src/base.py` 398-404, 466-472, `/repo/haiku/_src/module.py` 267) -/
  inHook : ∀ {α : Type}, HookPush → M σ α → M σ α
  /-- `with ctx: ...` (`/repo/haiku/_src/base.py` 135-147), giving the result of the block and the context afterwards -/
  inCtx : ∀ {α : Type}, Ctx → M σ α → M σ (Except Exc α × Ctx)

/-- User programs.  `jit` stands for `hk.jit`, `hk.remat`, `hk.named_call` and the value part of `hk.value_and_grad`, which
thread state in the same way (`/repo/haiku/_src/stateful.py` 204-224, 335-368, 610-625).  `scan` gets the element `zero` that is used
when there is nothing to scan (468), `whileLoop` a bound on the number of iterations (beyond it: `outOfFuel`), `vmap` a
non-empty batch.  `initT`/`applyT` call `init`/`apply` of another transformed function (`/repo/haiku/_src/transform.py` 273-298). -/
inductive Prog where
  | ret (v : Val)
  | raise (e : Exc)
  | bind (p : Prog) (k : Val → Prog)
  | tryCatch (p : Prog) (h : Exc → Prog)
  | op (o : Op)
  | withRng (r : RngArg) (p : Prog)
  | withHook (h : HookPush) (p : Prog)
  | newModule (args : Val) (ctor : ModId → Val → Prog)
  | callMethod (self : ModId) (method : Str) (args : Val) (body : Val → Prog)
  | nameScope (name : Str) (p : Prog)
  | jit (p : Prog)
  | cond (pred : Bool) (t f : Prog)
  | switch (i : Int) (n : Nat) (branches : Nat → Prog)
  | scan (f : Val → Val → Prog) (init zero : Val) (xs : List Val) (reverse : Bool)
  | fori (lower upper : Int) (body : Int → Val → Prog) (init : Val)
  | whileLoop (fuel : Nat) (c body : Val → Prog) (init : Val)
  | vmap (f : Val → Prog) (x : Val) (xs : List Val)
  | evalShape (p : Prog)
  | initT (rng : RngArg) (p : Prog)
  | applyT (params state : Option PDict) (rng : RngArg) (p : Prog)

section Generic
variable {σ : Type} (K : Mach σ)

/-! ### Modules -/

/-- `run_interceptors` (`/repo/haiku/_src/module.py` 270-295). -/
def runInterceptors (self : ModId) (method : Str) (body : Val → M σ Val) : List Interceptor → Val → M σ Val
  | [], args => body args
  | i :: is, args =>
    match i self method args with
    | .done v => M.pure v
    | .raise e => M.throw e
    | .next a post => runInterceptors self method body is a >>- fun v => M.pure (post v)
    | .orig a post => body a >>- fun v => M.pure (post v)

/-- The body of `wrapper` in `thread_hk_state_in_kwargs` and `value_and_grad` (`/repo/haiku/_src/stateful.py` 346-361, 204-224).
Simplification: the JAX transformation runs the function once and preserves values. -/
def jitM (m : M σ Val) : M σ Val :=
  K.top (fun _ => internalState true) >>- fun st =>
  K.temp st (m >>- fun v => K.top (fun _ => internalState true) >>- fun after => M.pure (v, difference st after)) >>- fun r =>
  K.top (updateInternalState r.2) >>- fun _ => M.pure r.1

/-- The wrapper made by `wrap_method` (`/repo/haiku/_src/module.py` 416-437). Not modelled: `hook_methods`. -/
def wrapMethod (self : ModId) (method : Str) (args : Val) (body : Val → M σ Val) : M σ Val :=
  K.inModule (self, method) (
    K.top (fun E => getModuleName self >>- fun nm => M.pure (nm, E.hooks.interceptors, E.namedCall)) >>- fun r =>
    let f := runInterceptors self method body r.2.1 args
    (if r.2.2 && r.1.isSome && method = sCall then jitM K f else f) >>- fun v =>
    K.top (notify self r.1) >>- fun _ => M.pure v)

/-- `ModuleMetaclass.__call__` (`/repo/haiku/_src/module.py` 124-147). -/
def construct (args : Val) (ctor : ModId → Val → M σ Val) : M σ ModId :=
  K.top (fun _ => allocModule) >>- fun id =>
  wrapMethod K id sInit args (ctor id) >>- fun _ =>
  K.top (fun _ => checkCtor id) >>- fun _ => M.pure id

/-- `name.split("/")` (`/repo/haiku/_src/module.py` 313). -/
def splitSlash : Str → List Str
  | [] => [[]]
  | c :: cs =>
    if c = '/' then [] :: splitSlash cs
    else match splitSlash cs with
      | [] => [[c]]
      | w :: ws => (c :: w) :: ws

/-- "Module", the class instantiated by `NameScope` (`/repo/haiku/_src/module.py` 314). -/
def sModule : Str := "Module".toList

/-- The loop in `NameScope.__init__` (`/repo/haiku/_src/module.py` 311-315); the empty list cannot occur since `split` returns at
least one part.  Entering and leaving the scope of the last module has no effect and is left out. -/
def nameScopeCtor : List Str → M σ ModId
  | [] => M.throw .badScopeName
  | [n] => construct K .unit fun id _ => K.top (Op.superInit id (some n) sModule).run
  | n :: ns =>
    construct K .unit (fun id _ => K.top (Op.superInit id (some n) sModule).run) >>- fun id =>
    K.inModule (id, sCall) (nameScopeCtor ns)

/-- `with name_scope(name): m` (`/repo/haiku/_src/module.py` 304-334, 337-380). -/
def nameScopeM (name : Str) (m : M σ Val) : M σ Val :=
  K.top (fun _ => M.pure ()) >>- fun _ =>
  if name.head? = none || name.head? = some '/' then M.throw .badScopeName
  else nameScopeCtor K (splitSlash name) >>- fun id => K.inModule (id, sCall) m

/-! ### Stateful control flow -/

/-- `stateful_branch` (`/repo/haiku/_src/stateful.py` 371-380). -/
def branchM (st : IState) (m : M σ Val) : M σ (Val × IState) :=
  K.temp st (m >>- fun v => K.top (fun _ => reserveFull) >>- fun _ => K.top (fun _ => internalState true) >>- fun st' =>
    M.pure (v, st'))

/-- Tracing all branches: each starts from the same state; the first exception wins (`jax.lax.switch` at
`/repo/haiku/_src/stateful.py` 424, 443).  Simplification: module objects touched by one branch are not seen by the others. -/
def runBranches (st : IState) : List (M σ Val) → σ → Except (Exc × σ) (List ((Val × IState) × σ))
  | [], _ => .ok []
  | m :: ms, s =>
    match branchM K st m s with
    | (.error e, s') => .error (e, s')
    | (.ok r, s') =>
      match runBranches st ms s with
      | .error x => .error x
      | .ok rs => .ok ((r, s') :: rs)

/-- `cond` and `switch` from the call of JAX on (`/repo/haiku/_src/stateful.py` 424-430, 442-446): all branches must agree on the
structure of their results. -/
def switchFrom (i : Nat) (ms : List (M σ Val)) (st : IState) : M σ Val := fun s =>
  match runBranches K st ms s with
  | .error (e, s') => (.error e, s')
  | .ok rs =>
    match rs[i]? with
    | none => (.error .structureMismatch, s)
    | some ((v, st'), s') =>
      if rs.all fun r => r.1.1.sameStruct v && r.1.2.sameStruct st' then
        (K.top (updateInternalState st'.full) >>- fun _ => M.pure v) s'
      else (.error .structureMismatch, s)

/-- `cond` and `switch` (`/repo/haiku/_src/stateful.py` 405-446); `i` is the position of the chosen branch in `ms`. -/
def switchM (i : Nat) (ms : List (M σ Val)) : M σ Val :=
  K.top (fun _ => reserveFull) >>- fun _ => K.top (fun _ => internalState true) >>- switchFrom K i ms

/-- The index `jax.lax.switch` uses: clamped into range (`/repo/haiku/_src/stateful.py` 443). -/
def clampIndex (i : Int) (n : Nat) : Nat := (max 0 (min i (n - 1))).toNat

/-- Splits a step result into carry and output; anything but a pair is a `TypeError` (`/repo/haiku/_src/stateful.py` 477, 487). -/
def asPair (v : Val) : M σ (Val × Val) :=
  match v with
  | .pair a b => M.pure (a, b)
  | _ => M.throw .structureMismatch

/-- `stateful_fun` in `scan` (`/repo/haiku/_src/stateful.py` 483-490), with JAX's check that the carry keeps its structure. -/
def scanStep (f : Val → Val → M σ Val) (c x : Val) (st : IState) : M σ (Val × Val × IState) :=
  K.temp st (
    K.top (fun _ => internalState true) >>- fun before =>
    f c x >>- fun r => asPair r >>- fun cy =>
    K.top (fun _ => internalState true) >>- fun after =>
    if hasNewParams (before.params.getD []) (after.params.getD []) then M.throw .newParams
    else
      K.top (fun _ => reserveFull) >>- fun _ => K.top (fun _ => internalState false) >>- fun st' =>
      M.pure (cy.1, cy.2, st')) >>- fun r =>
  if r.1.sameStruct c && r.2.2.sameStruct st then M.pure r else M.throw .structureMismatch

/-- `jax.lax.scan` over the elements in scan order (`/repo/haiku/_src/stateful.py` 502-503). -/
def scanLoop (step : Val → Val → IState → M σ (Val × Val × IState)) : List Val → Val → IState → M σ (Val × List Val × IState)
  | [], c, st => M.pure (c, [], st)
  | x :: xs, c, st => step c x st >>- fun r => scanLoop step xs r.1 r.2.2 >>- fun q => M.pure (q.1, r.2.1 :: q.2.1, q.2.2)

/-- The part of `scan` after the unrolled first step (`/repo/haiku/_src/stateful.py` 483-506): carry and stacked outputs.
With `reverse` the elements are visited from the end and the outputs stay in the position of their element. -/
def scanTail (f : Val → Val → M σ Val) (c : Val) (xs : List Val) (reverse : Bool) : M σ (Val × List Val) :=
  K.top (fun _ => reserveFull) >>- fun _ => K.top (fun _ => internalState false) >>- fun st =>
  scanLoop (scanStep K f) (if reverse then xs.reverse else xs) c st >>- fun r =>
  K.top (updateInternalState r.2.2.full) >>- fun _ => M.pure (r.1, if reverse then r.2.1.reverse else r.2.1)

/-- `scan` (`/repo/haiku/_src/stateful.py` 449-510); `length` is the number of elements.  Simplification: tracing the body of a
scan without elements outside init is not modelled. -/
def scanM (f : Val → Val → M σ Val) (init zero : Val) (xs : List Val) (reverse : Bool) : M σ Val :=
  K.top (fun E => M.pure E.frozen) >>- fun frozen =>
  if frozen then scanTail K f init xs reverse >>- fun r => M.pure (.pair r.1 (Val.ofList r.2))
  else
    match (if reverse then xs.getLast? else xs.head?) with
    | none => f init zero >>- fun r => asPair r >>- fun _ => M.pure (.pair init (Val.ofList []))
    | some x0 =>
      f init x0 >>- fun r => asPair r >>- fun cy =>
      let xs' := if reverse then xs.dropLast else xs.tail
      if xs'.isEmpty then M.pure (.pair cy.1 (Val.ofList [cy.2]))
      else scanTail K f cy.1 xs' reverse >>- fun r => M.pure (.pair r.1 (Val.ofList (cy.2 :: r.2)))

/-- `pure_body_fun` in `fori_loop` (`/repo/haiku/_src/stateful.py` 520-526) with JAX's structure check. -/
def foriStep (body : Int → Val → M σ Val) (i : Int) (v : Val) (st : IState) : M σ (Val × IState) :=
  branchM K st (body i v) >>- fun r =>
  if r.1.sameStruct v && r.2.sameStruct st then M.pure r else M.throw .structureMismatch

/-- `jax.lax.fori_loop` for `n` iterations from `i` on (`/repo/haiku/_src/stateful.py` 539). -/
def foriLoop (step : Int → Val → IState → M σ (Val × IState)) : Nat → Int → Val → IState → M σ (Val × IState)
  | 0, _, v, st => M.pure (v, st)
  | n + 1, i, v, st => step i v st >>- fun r => foriLoop step n (i + 1) r.1 r.2

/-- The part of `fori_loop` after the unrolled first step (`/repo/haiku/_src/stateful.py` 536-541). -/
def foriTail (lower upper : Int) (body : Int → Val → M σ Val) (init : Val) : M σ Val :=
  K.top (fun _ => reserveFull) >>- fun _ => K.top (fun _ => internalState true) >>- fun st =>
  foriLoop (foriStep K body) (upper - lower).toNat lower init st >>- fun r =>
  K.top (updateInternalState r.2.full) >>- fun _ => M.pure r.1

/-- `fori_loop` (`/repo/haiku/_src/stateful.py` 513-541). -/
def foriM (lower upper : Int) (body : Int → Val → M σ Val) (init : Val) : M σ Val :=
  K.top (fun E => M.pure E.frozen) >>- fun frozen =>
  if frozen then foriTail K lower upper body init
  else
    body lower init >>- fun v =>
    if upper - (lower + 1) = 0 then M.pure v
    else foriTail K (lower + 1) upper body v

/-- `pure_cond_fun` in `while_loop` (`/repo/haiku/_src/stateful.py` 588-599): runs in the enclosing frame. -/
def whileCond (c : Val → M σ Val) (v : Val) : M σ Bool :=
  K.top (fun _ => M.get) >>- fun before => c v >>- fun r => K.top (fun _ => M.get) >>- fun after =>
  if Frame.stateChanged before after then M.throw .stateChanged
  else match r with
    | .bool b => M.pure b
    | _ => M.throw .structureMismatch

/-- `pure_body_fun` in `while_loop` (`/repo/haiku/_src/stateful.py` 601-606) with JAX's structure check. -/
def whileBody (body : Val → M σ Val) (v : Val) (st : IState) : M σ (Val × IState) :=
  K.temp st (body v >>- fun v' => K.top (fun _ => internalState true) >>- fun st' => M.pure (v', st')) >>- fun r =>
  if r.1.sameStruct v && r.2.sameStruct st then M.pure r else M.throw .structureMismatch

/-- `jax.lax.while_loop` (`/repo/haiku/_src/stateful.py` 609).  The condition is traced once, in the state `s0` before the loop, and
re-evaluated on the loop value only; so its effects on the frame happen once. -/
def whileLoopM (c : Val → M σ Bool) (body : Val → IState → M σ (Val × IState)) (s0 : σ) : Nat → Val → IState → M σ (Val × IState)
  | 0, _, _ => M.throw .outOfFuel
  | n + 1, v, st => fun s =>
    match c v s0 with
    | (.error e, s') => (.error e, s')
    | (.ok false, _) => (.ok (v, st), s)
    | (.ok true, _) => (body v st >>- fun r => whileLoopM c body s0 n r.1 r.2) s

/-- `while_loop` from the call of JAX on (`/repo/haiku/_src/stateful.py` 609-611). -/
def whileFrom (fuel : Nat) (c body : Val → M σ Val) (init : Val) (st : IState) : M σ Val := fun s =>
  match whileCond K c init s with
  | (.error e, s') => (.error e, s')
  | (.ok _, s1) =>
    (whileLoopM (whileCond K c) (whileBody K body) s fuel init st >>- fun r =>
      K.top (updateInternalState r.2.full) >>- fun _ => M.pure r.1) s1

/-- `while_loop` (`/repo/haiku/_src/stateful.py` 569-611). -/
def whileM (fuel : Nat) (c body : Val → M σ Val) (init : Val) : M σ Val :=
  K.top (fun E => if E.frozen then M.pure () else M.throw .whileInInit) >>- fun _ =>
  K.top (fun _ => internalState true) >>- whileFrom K fuel c body init

/-- `pure_fun` in `vmap` (`/repo/haiku/_src/stateful.py` 551-555). -/
def vmapBody (st : IState) (m : M σ Val) : M σ (Val × Diff) :=
  K.temp st (m >>- fun v => K.top (fun _ => internalState true) >>- fun after => M.pure (v, difference st after))

/-- The remaining batch elements: every element starts from the same state and must give the same new state, since
`out_axes` is `None` for it (`/repo/haiku/_src/stateful.py` 549, 560-562).  Simplification: JAX rejects state
that depends on the batch even if the values happen to agree. -/
def vmapRest (st : IState) (d : Diff) (f : Val → M σ Val) (s : σ) : List Val → Except (Exc × σ) (List Val)
  | [] => .ok []
  | x :: xs =>
    match vmapBody K st (f x) s with
    | (.error e, s') => .error (e, s')
    | (.ok (v, d'), s') =>
      if d'.noTrace = d.noTrace then
        match vmapRest st d f s xs with
        | .error e => .error e
        | .ok vs => .ok (v :: vs)
      else .error (.structureMismatch, s')

/-- `vmap` on a non-empty batch, from the call of JAX on (`/repo/haiku/_src/stateful.py` 561-563). -/
def vmapFrom (f : Val → M σ Val) (x : Val) (xs : List Val) (st : IState) : M σ Val := fun s =>
  match vmapBody K st (f x) s with
  | (.error e, s') => (.error e, s')
  | (.ok (v, d), s1) =>
    match vmapRest K st d f s xs with
    | .error (e, s') => (.error e, s')
    | .ok vs => (K.top (updateInternalState d) >>- fun _ => M.pure (Val.ofList (v :: vs))) s1

/-- `vmap` on a non-empty batch (`/repo/haiku/_src/stateful.py` 544-566). -/
def vmapM (f : Val → M σ Val) (x : Val) (xs : List Val) : M σ Val :=
  K.top (fun _ => internalState true) >>- vmapFrom K f x xs

/-- `eval_shape` (`/repo/haiku/_src/stateful.py` 628-633). -/
def evalShapeM (m : M σ Val) : M σ Val :=
  K.top (fun _ => internalState true) >>- fun st => K.temp st m >>- fun v => M.pure v.shapeOnly

/-! ### Transforms -/

/-- `init_fn` of `transform_with_state` (`/repo/haiku/_src/transform.py` 273-282). -/
def initM (rng : RngArg) (m : M σ Val) : M σ Val :=
  match rng.toSeq with
  | .error e => M.throw e
  | .ok r =>
    K.inCtx (Ctx.new none none r) m >>- fun q =>
    match q.1 with
    | .error e => M.throw e
    | .ok _ => M.pure (.pair (.bundle q.2.params) (.bundle (extractState true q.2.state)))

/-- `apply_fn` of `transform_with_state` (`/repo/haiku/_src/transform.py` 284-298); `none` is Python's `None`, which
`check_mapping` turns into an empty dict (321-323). -/
def applyM (params state : Option PDict) (rng : RngArg) (m : M σ Val) : M σ Val :=
  match rng.toSeq with
  | .error e => M.throw e
  | .ok r =>
    K.inCtx (Ctx.new (some (params.getD [])) (some (state.getD [])) r) m >>- fun q =>
    match q.1 with
    | .error e => M.throw e
    | .ok v => M.pure (.pair v (.bundle (extractState false q.2.state)))

/-- Running a user program on a machine (the calls listed at `Prog`; `/repo/haiku/_src/base.py`, `/repo/haiku/_src/module.py` 124, 396,
`/repo/haiku/_src/stateful.py` 335-633, `/repo/haiku/_src/transform.py` 273-298). -/
def Prog.run : Prog → M σ Val
  | .ret v => M.pure v
  | .raise e => M.throw e
  | .bind p k => p.run >>- fun v => (k v).run
  | .tryCatch p h => M.tryCatch p.run fun e => (h e).run
  | .op o => K.top o.run
  | .withRng r p => K.top (fun _ => M.pure ()) >>- fun _ =>
    match r.seq with
    | .error e => M.throw e
    | .ok q => K.inRng q p.run
  | .withHook h p => K.top (fun _ => M.pure ()) >>- fun _ => K.inHook h p.run
  | .newModule args ctor => construct K args (fun id a => (ctor id a).run) >>- fun id => M.pure (.mod id)
  | .callMethod self method args body => wrapMethod K self method args fun a => (body a).run
  | .nameScope name p => nameScopeM K name p.run
  | .jit p => jitM K p.run
  | .cond b t f => switchM K (if b then 0 else 1) [t.run, f.run]
  | .switch i n br => switchM K (clampIndex i n) ((List.range n).map fun j => (br j).run)
  | .scan f init zero xs rev => scanM K (fun c x => (f c x).run) init zero xs rev
  | .fori lo up body init => foriM K lo up (fun i v => (body i v).run) init
  | .whileLoop fuel c body init => whileM K fuel (fun v => (c v).run) (fun v => (body v).run) init
  | .vmap f x xs => vmapM K (fun v => (f v).run) x xs
  | .evalShape p => evalShapeM K p.run
  | .initT rng p => initM K rng p.run
  | .applyT params state rng p => applyM K params state rng p.run

end Generic

/-! ### The machine of the code: explicit stacks -/

/-- `Frame` (`/repo/haiku/_src/base.py` 53-65); all stacks are listed from the top.  `trace` is ghost. -/
structure FrameS where
  params : PDict
  frozen : Bool
  state : SDict
  rngStack : List (Option PRNGSeq)
  moduleStack : List (ModId × Str)
  scopeStack : List Scope
  trace : List Event

/-- The state of one thread: `frame_stack`, top first (`/repo/haiku/_src/base.py` 46), the hook stacks (47-50, `/repo/haiku/_src/module.py`
219), `modules_with_named_call` (`/repo/haiku/_src/module.py` 41), the module objects, and the ghost record of keys handed out. -/
structure World where
  frames : List FrameS
  hooks : Hooks
  namedCall : Bool
  heap : List ModObj
  log : List Key

namespace World

/-- A thread outside any transform (`/repo/haiku/_src/base.py` 46-50). -/
def initial : World := ⟨[], Hooks.none, false, [], []⟩

/-- Runs a frame operation on `current_frame()` (`/repo/haiku/_src/base.py` 102, `assert_context` 226-230).  A frame with an empty `rng_stack`
does not occur (`Frame.create` pushes one entry, 79); it is reported as `stackCorrupt`. -/
def top {α : Type} (f : FOp α) : M World α := fun w =>
  match w.frames with
  | [] => (.error .notInTransform, w)
  | F :: rest =>
    match F.rngStack with
    | [] => (.error .stackCorrupt, w)
    | r :: tl =>
      match f ⟨F.frozen, F.moduleStack, w.hooks, w.namedCall⟩ ⟨F.params, F.state, r, F.scopeStack, w.heap, w.log, F.trace⟩ with
      | (a, s) => (a, { w with
          frames := { F with params := s.params, state := s.state, rngStack := s.rng :: tl, scopeStack := s.scopes, trace := s.trace } :: rest
          heap := s.heap
          log := s.log })

/-- `frame_stack(frame)` as a `with` block: push, run, pop and check (`/repo/haiku/_src/data_structures.py` 72-78). The check that the popped
object is the pushed one is done by comparing stack depths. -/
def withFrame {α : Type} (F : FrameS) (m : M World α) : M World α := fun w =>
  match m { w with frames := F :: w.frames } with
  | (a, w') =>
    match w'.frames with
    | _ :: rest => if rest.length = w.frames.length then (a, { w' with frames := rest }) else (.error .stackCorrupt, w')
    | [] => (.error .stackCorrupt, w')

/-- `Frame.evolve` (`/repo/haiku/_src/base.py` 84-92) applied to a saved state (`temporary_internal_state`,
`/repo/haiku/_src/stateful.py` 67-82); missing params are taken from the current frame. -/
def evolve (F : FrameS) (st : IState) : FrameS :=
  { F with
    params := st.params.getD F.params
    state := st.state
    rngStack := st.rng.map PRNGSeq.ofState :: F.rngStack
    trace := st.trace }

/-- `with temporary_internal_state(st): m` (`/repo/haiku/_src/stateful.py` 67-82). -/
def temp {α : Type} (st : IState) (m : M World α) : M World α := fun w =>
  match w.frames with
  | [] => (.error .notInTransform, w)
  | F :: _ => withFrame (evolve F st) m w

/-- `with frame.module(ms): m` (`/repo/haiku/_src/base.py` 94-99): pushes the module and fresh counters and names. -/
def inModule {α : Type} (ms : ModId × Str) (m : M World α) : M World α := fun w =>
  match w.frames with
  | [] => (.error .notInTransform, w)
  | F :: rest =>
    match m { w with frames := { F with moduleStack := ms :: F.moduleStack, scopeStack := Scope.empty :: F.scopeStack } :: rest } with
    | (a, w') =>
      match w'.frames with
      | [] => (.error .stackCorrupt, w')
      | F' :: rest' =>
        match F'.moduleStack, F'.scopeStack with
        | ms' :: mods, _ :: scopes =>
          if ms' = ms then (a, { w' with frames := { F' with moduleStack := mods, scopeStack := scopes } :: rest' })
          else (.error .stackCorrupt, w')
        | _, _ => (.error .stackCorrupt, w')

/-- `with frame.rng_stack(seq): m` (`/repo/haiku/_src/base.py` 779). -/
def inRng {α : Type} (q : PRNGSeq) (m : M World α) : M World α := fun w =>
  match w.frames with
  | [] => (.error .notInTransform, w)
  | F :: rest =>
    match m { w with frames := { F with rngStack := some q :: F.rngStack } :: rest } with
    | (a, w') =>
      match w'.frames with
      | [] => (.error .stackCorrupt, w')
      | F' :: rest' =>
        match F'.rngStack with
        | _ :: rngs =>
          if rngs.length = F.rngStack.length then (a, { w' with frames := { F' with rngStack := rngs } :: rest' })
          else (.error .stackCorrupt, w')
        | [] => (.error .stackCorrupt, w')

/-- Push onto the hook stacks (`/repo/haiku/_src/base.py` 400-403, 468-471, `/repo/haiku/_src/module.py` 267). -/
def pushHook (h : Hooks) : HookPush → Hooks
  | .creator c p s => { h with
      paramCreators := if p then h.paramCreators ++ [c] else h.paramCreators
      stateCreators := if s then h.stateCreators ++ [c] else h.stateCreators }
  | .getter g p s => { h with
      paramGetters := if p then h.paramGetters ++ [g] else h.paramGetters
      stateGetters := if s then h.stateGetters ++ [g] else h.stateGetters }
  | .interceptor i => { h with interceptors := h.interceptors ++ [i] }

/-- Pop from the hook stacks what `pushHook` pushed (`ExitStack` unwinding, `/repo/haiku/_src/base.py` 399-404). -/
def popHook (h : Hooks) : HookPush → Hooks
  | .creator _ p s => { h with
      paramCreators := if p then h.paramCreators.dropLast else h.paramCreators
      stateCreators := if s then h.stateCreators.dropLast else h.stateCreators }
  | .getter _ p s => { h with
      paramGetters := if p then h.paramGetters.dropLast else h.paramGetters
      stateGetters := if s then h.stateGetters.dropLast else h.stateGetters }
  | .interceptor _ => { h with interceptors := h.interceptors.dropLast }

/-- `with stack(hook): m` (`/repo/haiku/_src/base.py` 398-404, 466-472, `/repo/haiku/_src/module.py` 266-267). -/
def inHook {α : Type} (h : HookPush) (m : M World α) : M World α := fun w =>
  match m { w with hooks := pushHook w.hooks h } with
  | (a, w') => (a, { w' with hooks := popHook w'.hooks h })

/-- `HaikuContext.__enter__` (`/repo/haiku/_src/base.py` 135-142, `Frame.create` 71-82): the new frame.  Its scope stack holds the
persistent counter and names of the context above a fresh pair. -/
def frameOf (c : Ctx) : FrameS where
  params := c.params
  frozen := c.frozen
  state := c.state
  rngStack := [c.rng]
  moduleStack := []
  scopeStack := [c.scope, Scope.empty]
  trace := []

/-- `with ctx: m` (`/repo/haiku/_src/base.py` 135-147).  The context shares its dictionaries, rng sequence, counter and names with
the frame, so they are read back from the popped frame.  Ghost: the record of keys is that of the context during the block. -/
def inCtx {α : Type} (c : Ctx) (m : M World α) : M World (Except Exc α × Ctx) := fun w =>
  match m { w with frames := frameOf c :: w.frames, log := [] } with
  | (a, w') =>
    match w'.frames with
    | F :: rest =>
      match F.rngStack, F.scopeStack with
      | [r], [sc, _] =>
        if rest.length = w.frames.length then
          (.ok (a, ⟨F.params, F.frozen, F.state, r, sc⟩), { w' with frames := rest, log := w.log })
        else (.error .stackCorrupt, w')
      | _, _ => (.error .stackCorrupt, w')
    | [] => (.error .stackCorrupt, w')

end World

/-- The machine with explicit stacks (`/repo/haiku/_src/base.py` 46-147, `/repo/haiku/_src/data_structures.py` 39-81). -/
def stackMach : Mach World where
  top := World.top
  temp := World.temp
  inModule := World.inModule
  inRng := World.inRng
  inHook := World.inHook
  inCtx := World.inCtx

end Verif
