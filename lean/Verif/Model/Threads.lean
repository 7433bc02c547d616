import Verif.Model.Machine

/-!
# Threads

Models what the threads of a process share: the stacks of `/repo/haiku/_src/base.py` 46-50 and `/repo/haiku/_src/module.py` 219 are
`ThreadLocalStack`s (`/repo/haiku/_src/data_structures.py` 81), i.e. one stack per thread in one object, and the flag
`modules_with_named_call` (`/repo/haiku/_src/module.py` 41) is one variable for all threads.

A thread takes one small step at a time: one access to a stack (push, pop, or acting on the current frame).  `Prog.thr` gives the small
steps of the programs of `Verif.Model.Machine`.
-/

namespace Verif
open Names Frame

/-! ### Small steps of one thread -/

/-- Code of a thread as a tree of small steps: each acts on what the thread sees, and the code goes on depending on the result, a value or
an exception (Python running e.g. `/repo/haiku/_src/data_structures.py` 72-78). -/
inductive Thr (α : Type) : Type 1 where
  | done (r : Except Exc α)
  | atom {β : Type} (f : M World β) (k : Except Exc β → Thr α)

namespace Thr
variable {α β : Type}

/-- Goes on after the end, normal or by an exception (`try: ... finally: ...`, `/repo/haiku/_src/data_structures.py` 75-78). -/
def after : Thr α → (Except Exc α → Thr β) → Thr β
  | .done r, k => k r
  | .atom f j, k => .atom f fun r => (j r).after k

/-- A value without effect (`return`, e.g. `/repo/haiku/_src/base.py` 302). -/
def pure (a : α) : Thr α := .done (.ok a)

/-- `raise` (e.g. `/repo/haiku/_src/base.py` 274). -/
def throw (e : Exc) : Thr α := .done (.error e)

/-- Sequencing (e.g. the statements at `/repo/haiku/_src/base.py` 267-302). -/
def bind (t : Thr α) (f : α → Thr β) : Thr β := t.after fun r =>
  match r with
  | .ok a => f a
  | .error e => .done (.error e)

/-- `try ... except` (user code). -/
def tryCatch (t : Thr α) (h : Exc → Thr α) : Thr α := t.after fun r =>
  match r with
  | .ok a => .done (.ok a)
  | .error e => h e

/-- One small step (e.g. `Stack.push`, `/repo/haiku/_src/data_structures.py` 60-61). -/
def lift (f : M World α) : Thr α := .atom f .done

end Thr

@[inherit_doc] infixl:55 " >>~ " => Thr.bind

namespace Thr
variable {α : Type}

/-- Acting on `current_frame()` (`/repo/haiku/_src/base.py` 102). -/
def top (f : FOp α) : Thr α := lift (World.top f)

/-- Pushing a frame, giving the depth below it (`/repo/haiku/_src/data_structures.py` 74). -/
def pushFrame (F : World → Except Exc FrameS) (log : World → List Key) : M World (Nat × List Key) := fun w =>
  match F w with
  | .error e => (.error e, w)
  | .ok F => (.ok (w.frames.length, w.log), { w with frames := F :: w.frames, log := log w })

/-- `assert self.pop() is elem` for a frame (`/repo/haiku/_src/data_structures.py` 78), with the result of the block. -/
def popFrame (n : Nat) (a : Except Exc α) : M World α := fun w =>
  match w.frames with
  | _ :: rest => if rest.length = n then (a, { w with frames := rest }) else (.error .stackCorrupt, w)
  | [] => (.error .stackCorrupt, w)

/-- `with temporary_internal_state(st): ...` (`/repo/haiku/_src/stateful.py` 67-82). -/
def temp (st : IState) (m : Thr α) : Thr α :=
  lift (pushFrame (fun w => match w.frames with | [] => .error .notInTransform | F :: _ => .ok (World.evolve F st)) (·.log)) >>~ fun n =>
  m.after fun a => lift (popFrame n.1 a)

/-- Pushing a module with fresh counters and names (`/repo/haiku/_src/base.py` 94-98). -/
def pushModule (ms : ModId × Str) : M World Unit := fun w =>
  match w.frames with
  | [] => (.error .notInTransform, w)
  | F :: rest => (.ok (), { w with frames := { F with moduleStack := ms :: F.moduleStack, scopeStack := Scope.empty :: F.scopeStack } :: rest })

/-- Popping it (`/repo/haiku/_src/base.py` 94-99, `/repo/haiku/_src/data_structures.py` 78). -/
def popModule (ms : ModId × Str) (a : Except Exc α) : M World α := fun w =>
  match w.frames with
  | [] => (.error .stackCorrupt, w)
  | F :: rest =>
    match F.moduleStack, F.scopeStack with
    | ms' :: mods, _ :: scopes =>
      if ms' = ms then (a, { w with frames := { F with moduleStack := mods, scopeStack := scopes } :: rest })
      else (.error .stackCorrupt, w)
    | _, _ => (.error .stackCorrupt, w)

/-- `with frame.module(ms): ...` (`/repo/haiku/_src/base.py` 94-99). -/
def inModule (ms : ModId × Str) (m : Thr α) : Thr α := lift (pushModule ms) >>~ fun _ => m.after fun a => lift (popModule ms a)

/-- Pushing an rng sequence, giving the depth below it (`/repo/haiku/_src/base.py` 779). -/
def pushRng (q : PRNGSeq) : M World Nat := fun w =>
  match w.frames with
  | [] => (.error .notInTransform, w)
  | F :: rest => (.ok F.rngStack.length, { w with frames := { F with rngStack := some q :: F.rngStack } :: rest })

/-- Popping it (`/repo/haiku/_src/base.py` 779, `/repo/haiku/_src/data_structures.py` 78). -/
def popRng (n : Nat) (a : Except Exc α) : M World α := fun w =>
  match w.frames with
  | [] => (.error .stackCorrupt, w)
  | F :: rest =>
    match F.rngStack with
    | _ :: rngs => if rngs.length = n then (a, { w with frames := { F with rngStack := rngs } :: rest }) else (.error .stackCorrupt, w)
    | [] => (.error .stackCorrupt, w)

/-- `with frame.rng_stack(seq): ...` (`/repo/haiku/_src/base.py` 779). -/
def inRng (q : PRNGSeq) (m : Thr α) : Thr α := lift (pushRng q) >>~ fun n => m.after fun a => lift (popRng n a)

/-- `with stack(hook): ...` (`/repo/haiku/_src/base.py` 398-404, 466-472, `/repo/haiku/_src/module.py` 266-267). -/
def inHook (h : HookPush) (m : Thr α) : Thr α :=
  lift (M.modify fun w => { w with hooks := World.pushHook w.hooks h }) >>~ fun _ =>
  m.after fun a => lift fun w => (a, { w with hooks := World.popHook w.hooks h })

/-- Leaving a context (`/repo/haiku/_src/base.py` 144-147). -/
def popCtx (n : Nat) (log : List Key) (a : Except Exc α) : M World (Except Exc α × Ctx) := fun w =>
  match w.frames with
  | F :: rest =>
    match F.rngStack, F.scopeStack with
    | [r], [sc, _] => if rest.length = n then (.ok (a, ⟨F.params, F.frozen, F.state, r, sc⟩), { w with frames := rest, log := log }) else (.error .stackCorrupt, w)
    | _, _ => (.error .stackCorrupt, w)
  | [] => (.error .stackCorrupt, w)

/-- `with ctx: ...` (`/repo/haiku/_src/base.py` 135-147). -/
def inCtx (c : Ctx) (m : Thr α) : Thr (Except Exc α × Ctx) :=
  lift (pushFrame (fun _ => .ok (World.frameOf c)) fun _ => []) >>~ fun n => m.after fun a => lift (popCtx n.1 n.2 a)

/-- What the thread sees, as a value; used for the traced functions that start from the same point (`/repo/haiku/_src/stateful.py` 424, 443, 561, 605). -/
def save : Thr World := lift M.get

/-- Back to that point (same). -/
def restore (w : World) : Thr Unit := lift (M.modify fun _ => w)

/-! ### The functions of `Verif.Model.Machine` in small steps -/

/-- `run_interceptors` (`/repo/haiku/_src/module.py` 270-295). -/
def runInterceptors (self : ModId) (method : Str) (body : Val → Thr Val) : List Interceptor → Val → Thr Val
  | [], args => body args
  | i :: is, args =>
    match i self method args with
    | .done v => pure v
    | .raise e => throw e
    | .next a post => runInterceptors self method body is a >>~ fun v => pure (post v)
    | .orig a post => body a >>~ fun v => pure (post v)

/-- `thread_hk_state_in_kwargs`, `value_and_grad` (`/repo/haiku/_src/stateful.py` 346-361, 204-224). -/
def jit (m : Thr Val) : Thr Val :=
  top (fun _ => internalState true) >>~ fun st =>
  temp st (m >>~ fun v => top (fun _ => internalState true) >>~ fun after => pure (v, difference st after)) >>~ fun r =>
  top (updateInternalState r.2) >>~ fun _ => pure r.1

/-- `wrap_method` (`/repo/haiku/_src/module.py` 396-437). -/
def wrapMethod (self : ModId) (method : Str) (args : Val) (body : Val → Thr Val) : Thr Val :=
  inModule (self, method) (
    top (fun E => getModuleName self >>- fun nm => M.pure (nm, E.hooks.interceptors, E.namedCall)) >>~ fun r =>
    (if r.2.2 && r.1.isSome && method = sCall then jit (runInterceptors self method body r.2.1 args) else runInterceptors self method body r.2.1 args) >>~ fun v =>
    top (notify self r.1) >>~ fun _ => pure v)

/-- `ModuleMetaclass.__call__` (`/repo/haiku/_src/module.py` 124-147). -/
def construct (args : Val) (ctor : ModId → Val → Thr Val) : Thr ModId :=
  top (fun _ => allocModule) >>~ fun id =>
  wrapMethod id sInit args (ctor id) >>~ fun _ =>
  top (fun _ => checkCtor id) >>~ fun _ => pure id

/-- `NameScope.__init__` (`/repo/haiku/_src/module.py` 311-315). -/
def nameScopeCtor : List Str → Thr ModId
  | [] => throw .badScopeName
  | [n] => construct .unit fun id _ => top (Op.superInit id (some n) sModule).run
  | n :: ns =>
    construct .unit (fun id _ => top (Op.superInit id (some n) sModule).run) >>~ fun id =>
    inModule (id, sCall) (nameScopeCtor ns)

/-- `with name_scope(name): m` (`/repo/haiku/_src/module.py` 304-334, 337-380). -/
def nameScope (name : Str) (m : Thr Val) : Thr Val :=
  top (fun _ => M.pure ()) >>~ fun _ =>
  if name.head? = none || name.head? = some '/' then throw .badScopeName
  else nameScopeCtor (splitSlash name) >>~ fun id => inModule (id, sCall) m

/-- `stateful_branch` (`/repo/haiku/_src/stateful.py` 371-380). -/
def branch (st : IState) (m : Thr Val) : Thr (Val × IState) :=
  temp st (m >>~ fun v => top (fun _ => reserveFull) >>~ fun _ => top (fun _ => internalState true) >>~ fun st' => pure (v, st'))

/-- Tracing all branches (`/repo/haiku/_src/stateful.py` 424, 443). -/
def runBranches (st : IState) : List (Thr Val) → Thr (List ((Val × IState) × World))
  | [] => pure []
  | m :: ms => save >>~ fun s => branch st m >>~ fun r => save >>~ fun s' => restore s >>~ fun _ => runBranches st ms >>~ fun rs => pure ((r, s') :: rs)

/-- `cond` and `switch` from the call of JAX on (`/repo/haiku/_src/stateful.py` 424-430, 442-446). -/
def switchFrom (i : Nat) (ms : List (Thr Val)) (st : IState) : Thr Val :=
  runBranches st ms >>~ fun rs =>
  match rs[i]? with
  | none => throw .structureMismatch
  | some ((v, st'), s') =>
    if rs.all fun r => r.1.1.sameStruct v && r.1.2.sameStruct st' then restore s' >>~ fun _ => top (updateInternalState st'.full) >>~ fun _ => pure v
    else throw .structureMismatch

/-- `cond` and `switch` (`/repo/haiku/_src/stateful.py` 405-446). -/
def switch (i : Nat) (ms : List (Thr Val)) : Thr Val :=
  top (fun _ => reserveFull) >>~ fun _ => top (fun _ => internalState true) >>~ switchFrom i ms

/-- Carry and output of a step (`/repo/haiku/_src/stateful.py` 477, 487). -/
def asPair (v : Val) : Thr (Val × Val) :=
  match v with
  | .pair a b => pure (a, b)
  | _ => throw .structureMismatch

/-- `stateful_fun` in `scan` (`/repo/haiku/_src/stateful.py` 483-490). -/
def scanStep (f : Val → Val → Thr Val) (c x : Val) (st : IState) : Thr (Val × Val × IState) :=
  temp st (
    top (fun _ => internalState true) >>~ fun before =>
    f c x >>~ fun r => asPair r >>~ fun cy =>
    top (fun _ => internalState true) >>~ fun after =>
    if hasNewParams (before.params.getD []) (after.params.getD []) then throw .newParams
    else
      top (fun _ => reserveFull) >>~ fun _ => top (fun _ => internalState false) >>~ fun st' =>
      pure (cy.1, cy.2, st')) >>~ fun r =>
  if r.1.sameStruct c && r.2.2.sameStruct st then pure r else throw .structureMismatch

/-- `jax.lax.scan` (`/repo/haiku/_src/stateful.py` 502-503). -/
def scanLoop (step : Val → Val → IState → Thr (Val × Val × IState)) : List Val → Val → IState → Thr (Val × List Val × IState)
  | [], c, st => pure (c, [], st)
  | x :: xs, c, st => step c x st >>~ fun r => scanLoop step xs r.1 r.2.2 >>~ fun q => pure (q.1, r.2.1 :: q.2.1, q.2.2)

/-- `scan` after the unrolled first step (`/repo/haiku/_src/stateful.py` 483-506). -/
def scanTail (f : Val → Val → Thr Val) (c : Val) (xs : List Val) (reverse : Bool) : Thr (Val × List Val) :=
  top (fun _ => reserveFull) >>~ fun _ => top (fun _ => internalState false) >>~ fun st =>
  scanLoop (scanStep f) (if reverse then xs.reverse else xs) c st >>~ fun r =>
  top (updateInternalState r.2.2.full) >>~ fun _ => pure (r.1, if reverse then r.2.1.reverse else r.2.1)

/-- `scan` (`/repo/haiku/_src/stateful.py` 449-510). -/
def scan (f : Val → Val → Thr Val) (init zero : Val) (xs : List Val) (reverse : Bool) : Thr Val :=
  top (fun E => M.pure E.frozen) >>~ fun frozen =>
  if frozen then scanTail f init xs reverse >>~ fun r => pure (.pair r.1 (Val.ofList r.2))
  else
    match (if reverse then xs.getLast? else xs.head?) with
    | none => f init zero >>~ fun r => asPair r >>~ fun _ => pure (.pair init (Val.ofList []))
    | some x0 =>
      f init x0 >>~ fun r => asPair r >>~ fun cy =>
      if (if reverse then xs.dropLast else xs.tail).isEmpty then pure (.pair cy.1 (Val.ofList [cy.2]))
      else scanTail f cy.1 (if reverse then xs.dropLast else xs.tail) reverse >>~ fun r => pure (.pair r.1 (Val.ofList (cy.2 :: r.2)))

/-- `pure_body_fun` in `fori_loop` (`/repo/haiku/_src/stateful.py` 520-526). -/
def foriStep (body : Int → Val → Thr Val) (i : Int) (v : Val) (st : IState) : Thr (Val × IState) :=
  branch st (body i v) >>~ fun r =>
  if r.1.sameStruct v && r.2.sameStruct st then pure r else throw .structureMismatch

/-- `jax.lax.fori_loop` (`/repo/haiku/_src/stateful.py` 539). -/
def foriLoop (step : Int → Val → IState → Thr (Val × IState)) : Nat → Int → Val → IState → Thr (Val × IState)
  | 0, _, v, st => pure (v, st)
  | n + 1, i, v, st => step i v st >>~ fun r => foriLoop step n (i + 1) r.1 r.2

/-- `fori_loop` after the unrolled first step (`/repo/haiku/_src/stateful.py` 536-541). -/
def foriTail (lower upper : Int) (body : Int → Val → Thr Val) (init : Val) : Thr Val :=
  top (fun _ => reserveFull) >>~ fun _ => top (fun _ => internalState true) >>~ fun st =>
  foriLoop (foriStep body) (upper - lower).toNat lower init st >>~ fun r =>
  top (updateInternalState r.2.full) >>~ fun _ => pure r.1

/-- `fori_loop` (`/repo/haiku/_src/stateful.py` 513-541). -/
def fori (lower upper : Int) (body : Int → Val → Thr Val) (init : Val) : Thr Val :=
  top (fun E => M.pure E.frozen) >>~ fun frozen =>
  if frozen then foriTail lower upper body init
  else
    body lower init >>~ fun v =>
    if upper - (lower + 1) = 0 then pure v
    else foriTail (lower + 1) upper body v

/-- `pure_cond_fun` in `while_loop` (`/repo/haiku/_src/stateful.py` 588-599). -/
def whileCond (c : Val → Thr Val) (v : Val) : Thr Bool :=
  top (fun _ => M.get) >>~ fun before => c v >>~ fun r => top (fun _ => M.get) >>~ fun after =>
  if Frame.stateChanged before after then throw .stateChanged
  else match r with
    | .bool b => pure b
    | _ => throw .structureMismatch

/-- `pure_body_fun` in `while_loop` (`/repo/haiku/_src/stateful.py` 601-606). -/
def whileBody (body : Val → Thr Val) (v : Val) (st : IState) : Thr (Val × IState) :=
  temp st (body v >>~ fun v' => top (fun _ => internalState true) >>~ fun st' => pure (v', st')) >>~ fun r =>
  if r.1.sameStruct v && r.2.sameStruct st then pure r else throw .structureMismatch

/-- `jax.lax.while_loop` (`/repo/haiku/_src/stateful.py` 609), the condition starting from `s0` each time (see `Verif.whileLoopM`). -/
def whileLoop (c : Val → Thr Bool) (body : Val → IState → Thr (Val × IState)) (s0 : World) : Nat → Val → IState → Thr (Val × IState)
  | 0, _, _ => throw .outOfFuel
  | n + 1, v, st =>
    save >>~ fun s => restore s0 >>~ fun _ => c v >>~ fun b => restore s >>~ fun _ =>
    if b then body v st >>~ fun r => whileLoop c body s0 n r.1 r.2 else pure (v, st)

/-- `while_loop` from the call of JAX on (`/repo/haiku/_src/stateful.py` 609-611). -/
def whileFrom (fuel : Nat) (c body : Val → Thr Val) (init : Val) (st : IState) : Thr Val :=
  save >>~ fun s => whileCond c init >>~ fun _ =>
  whileLoop (whileCond c) (whileBody body) s fuel init st >>~ fun r => top (updateInternalState r.2.full) >>~ fun _ => pure r.1

/-- `while_loop` (`/repo/haiku/_src/stateful.py` 569-611). -/
def while_ (fuel : Nat) (c body : Val → Thr Val) (init : Val) : Thr Val :=
  top (fun E => if E.frozen then M.pure () else M.throw .whileInInit) >>~ fun _ =>
  top (fun _ => internalState true) >>~ whileFrom fuel c body init

/-- `pure_fun` in `vmap` (`/repo/haiku/_src/stateful.py` 551-555). -/
def vmapBody (st : IState) (m : Thr Val) : Thr (Val × Diff) :=
  temp st (m >>~ fun v => top (fun _ => internalState true) >>~ fun after => pure (v, difference st after))

/-- The remaining batch elements, each from the point `s` (`/repo/haiku/_src/stateful.py` 549, 560-562). -/
def vmapRest (st : IState) (d : Diff) (f : Val → Thr Val) (s : World) : List Val → Thr (List Val)
  | [] => pure []
  | x :: xs =>
    restore s >>~ fun _ => vmapBody st (f x) >>~ fun r =>
    if r.2.noTrace = d.noTrace then vmapRest st d f s xs >>~ fun vs => pure (r.1 :: vs) else throw .structureMismatch

/-- `vmap` from the call of JAX on (`/repo/haiku/_src/stateful.py` 561-563). -/
def vmapFrom (f : Val → Thr Val) (x : Val) (xs : List Val) (st : IState) : Thr Val :=
  save >>~ fun s => vmapBody st (f x) >>~ fun r => save >>~ fun s1 =>
  vmapRest st r.2 f s xs >>~ fun vs => restore s1 >>~ fun _ => top (updateInternalState r.2) >>~ fun _ => pure (Val.ofList (r.1 :: vs))

/-- `vmap` on a non-empty batch (`/repo/haiku/_src/stateful.py` 544-566). -/
def vmap (f : Val → Thr Val) (x : Val) (xs : List Val) : Thr Val := top (fun _ => internalState true) >>~ vmapFrom f x xs

/-- `eval_shape` (`/repo/haiku/_src/stateful.py` 628-633). -/
def evalShape (m : Thr Val) : Thr Val :=
  top (fun _ => internalState true) >>~ fun st => temp st m >>~ fun v => pure v.shapeOnly

/-- `init_fn` (`/repo/haiku/_src/transform.py` 273-282). -/
def init (rng : RngArg) (m : Thr Val) : Thr Val :=
  match rng.toSeq with
  | .error e => throw e
  | .ok r =>
    inCtx (Ctx.new none none r) m >>~ fun q =>
    match q.1 with
    | .error e => throw e
    | .ok _ => pure (.pair (.bundle q.2.params) (.bundle (extractState true q.2.state)))

/-- `apply_fn` (`/repo/haiku/_src/transform.py` 284-298). -/
def apply (params state : Option PDict) (rng : RngArg) (m : Thr Val) : Thr Val :=
  match rng.toSeq with
  | .error e => throw e
  | .ok r =>
    inCtx (Ctx.new (some (params.getD [])) (some (state.getD [])) r) m >>~ fun q =>
    match q.1 with
    | .error e => throw e
    | .ok v => pure (.pair v (.bundle (extractState false q.2.state)))

end Thr

/-- The small steps of a program (the calls listed at `Prog`). -/
def Prog.thr : Prog → Thr Val
  | .ret v => .pure v
  | .raise e => .throw e
  | .bind p k => p.thr >>~ fun v => (k v).thr
  | .tryCatch p h => .tryCatch p.thr fun e => (h e).thr
  | .op o => .top o.run
  | .withRng r p => .top (fun _ => M.pure ()) >>~ fun _ =>
    match r.seq with
    | .error e => .throw e
    | .ok q => .inRng q p.thr
  | .withHook h p => .top (fun _ => M.pure ()) >>~ fun _ => .inHook h p.thr
  | .newModule args ctor => .construct args (fun id a => (ctor id a).thr) >>~ fun id => .pure (.mod id)
  | .callMethod self method args body => .wrapMethod self method args fun a => (body a).thr
  | .nameScope name p => .nameScope name p.thr
  | .jit p => .jit p.thr
  | .cond b t f => .switch (if b then 0 else 1) [t.thr, f.thr]
  | .switch i n br => .switch (clampIndex i n) ((List.range n).map fun j => (br j).thr)
  | .scan f init zero xs rev => .scan (fun c x => (f c x).thr) init zero xs rev
  | .fori lo up body init => .fori lo up (fun i v => (body i v).thr) init
  | .whileLoop fuel c body init => .while_ fuel (fun v => (c v).thr) (fun v => (body v).thr) init
  | .vmap f x xs => .vmap (fun v => (f v).thr) x xs
  | .evalShape p => .evalShape p.thr
  | .initT rng p => .init rng p.thr
  | .applyT params state rng p => .apply params state rng p.thr

/-! ### The process -/

/-- A `ThreadLocalStack`: `threading.local` gives every thread its own `_storage`, empty at first (`/repo/haiku/_src/data_structures.py` 39-43, 81). -/
structure TLS (α : Type) where
  storage : Dict Nat (List α)

namespace TLS
variable {α : Type}

/-- The storage that thread `t` sees (`/repo/haiku/_src/data_structures.py` 42-43, 81). -/
def get (s : TLS α) (t : Nat) : List α := (s.storage.get? t).getD []

/-- Thread `t` changes its storage (`/repo/haiku/_src/data_structures.py` 60-67, 81). -/
def set (s : TLS α) (t : Nat) (l : List α) : TLS α := ⟨s.storage.set t l⟩

end TLS

/-- What the threads of a process share: the `ThreadLocalStack` objects (`/repo/haiku/_src/base.py` 46-50, `/repo/haiku/_src/module.py` 219) and the global flag
(`/repo/haiku/_src/module.py` 41).  The module objects and the ghost record of keys are listed by the thread that made them.  Simplification: threads do not hand
module objects to each other. -/
structure Process where
  frames : TLS FrameS
  paramCreators : TLS Creator
  stateCreators : TLS Creator
  paramGetters : TLS Getter
  stateGetters : TLS Getter
  interceptors : TLS Interceptor
  namedCall : Bool
  heaps : TLS ModObj
  logs : TLS Key

/-- What thread `t` sees (`/repo/haiku/_src/base.py` 46-50, 102). -/
def Process.view (P : Process) (t : Nat) : World where
  frames := P.frames.get t
  hooks := ⟨P.paramCreators.get t, P.stateCreators.get t, P.paramGetters.get t, P.stateGetters.get t, P.interceptors.get t⟩
  namedCall := P.namedCall
  heap := P.heaps.get t
  log := P.logs.get t

/-- Thread `t` changes what it sees; none of the functions of `Prog` assigns the flag (`/repo/haiku/_src/base.py` 46-50, 102). -/
def Process.put (P : Process) (t : Nat) (w : World) : Process where
  frames := P.frames.set t w.frames
  paramCreators := P.paramCreators.set t w.hooks.paramCreators
  stateCreators := P.stateCreators.set t w.hooks.stateCreators
  paramGetters := P.paramGetters.set t w.hooks.paramGetters
  stateGetters := P.stateGetters.set t w.hooks.stateGetters
  interceptors := P.interceptors.set t w.hooks.interceptors
  namedCall := P.namedCall
  heaps := P.heaps.set t w.heap
  logs := P.logs.set t w.log

/-- A process at import time (`/repo/haiku/_src/base.py` 46-50, `/repo/haiku/_src/module.py` 41, 219). -/
def Process.initial : Process := ⟨⟨[]⟩, ⟨[]⟩, ⟨[]⟩, ⟨[]⟩, ⟨[]⟩, ⟨[]⟩, false, ⟨[]⟩, ⟨[]⟩⟩

/-- What a thread does: finish with some result; run code, then go on depending on the result; or `profiler_name_scopes(enabled)` (`/repo/haiku/_src/module.py` 44-58), which gives the previous setting. -/
inductive Script : Type 1 where
  | finished (r : Except Exc Val)
  | code (t : Thr Val) (k : Except Exc Val → Script)
  | profilerNameScopes (enabled : Bool) (k : Bool → Script)

/-- One small step of thread `t`.  Reaching the end of a piece of code is a step of its own (the interpreter switching between threads, `/repo/haiku/_src/data_structures.py` 81). -/
def Script.step (t : Nat) : Script → Process → Script × Process
  | .finished r, P => (.finished r, P)
  | .code (.done r) k, P => (k r, P)
  | .code (.atom f j) k, P => (.code (j (f (P.view t)).1) k, P.put t (f (P.view t)).2)
  | .profilerNameScopes b k, P => (k P.namedCall, { P with namedCall := b })

/-- The threads by number, and the process (the interpreter switching between threads, `/repo/haiku/_src/data_structures.py` 81). -/
structure System where
  scripts : Nat → Script
  process : Process

/-- Thread `t` takes a step (same). -/
def System.step (S : System) (t : Nat) : System where
  scripts u := if u = t then ((S.scripts t).step t S.process).1 else S.scripts u
  process := ((S.scripts t).step t S.process).2

/-- A schedule: which thread takes a step, in order (same). -/
def System.run (S : System) (schedule : List Nat) : System := schedule.foldl System.step S

end Verif
