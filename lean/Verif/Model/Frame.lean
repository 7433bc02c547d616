import Verif.Model.Value

/-!
# Operations on the current frame

Models the functions of `/repo/haiku/_src/base.py`, `/repo/haiku/_src/module.py`, `/repo/haiku/_src/lift.py` and
`/repo/haiku/_src/stateful.py` that read and write the current frame without pushing or popping any stack.

`Env` is what these functions only read, `Loc` is what they may change.
-/

namespace Verif
open Names

/-- A ghost record of the accesses to the parameter and state dictionaries of one frame, in order
(stores at `/repo/haiku/_src/base.py` 292, 713, 757, reads at 280 and 715). -/
inductive Event where
  | paramNew (bundle name : Str) (v : Arr)
  | paramRead (bundle name : Str) (v : Arr)
  | stateNew (bundle name : Str) (v : Arr)
  | stateRead (bundle name : Str) (v : Arr)
  | stateSet (bundle name : Str) (v : Arr)
  deriving DecidableEq, Repr

/-- The attributes of an `hk.Module` object used by Haiku: `module_name` and `_submodules`, both absent until
`Module.__init__` sets them (`/repo/haiku/_src/module.py` 495-496). -/
structure ModObj where
  name : Option Str
  subs : Option (List Str)
  deriving DecidableEq, Repr

/-- What frame operations read but never write: whether parameters are frozen (`/repo/haiku/_src/base.py` 66-69), the
module stack, top first (63), the thread's hook stacks (47-50) and `modules_with_named_call`
(`/repo/haiku/_src/module.py` 41). -/
structure Env where
  frozen : Bool
  modules : List (ModId × Str)
  hooks : Hooks
  namedCall : Bool

/-- What frame operations may change: parameters, state and the top of `rng_stack` of the current frame
(`/repo/haiku/_src/base.py` 57-60), the counters and used names, top first (64-65; the two stacks are always pushed
together so they are one stack of `Scope`s), the store of module objects, and two ghost records: the keys
handed out and the accesses to the dictionaries. -/
structure Loc where
  params : PDict
  state : SDict
  rng : Option PRNGSeq
  scopes : List Scope
  heap : List ModObj
  log : List Key
  trace : List Event
  deriving DecidableEq

/-- Computations on the current frame (`frame = current_frame()`, `/repo/haiku/_src/base.py` 102). -/
abbrev FOp (α : Type) := Env → M Loc α

namespace Frame

/-- An exception or a value (raising, e.g. `/repo/haiku/_src/base.py` 274, versus returning). -/
def liftExcept {α : Type} (r : Except Exc α) : M Loc α := fun s => (r, s)

/-- "~", the bundle of parameters outside any module (`/repo/haiku/_src/base.py` 223). -/
def sTilde : Str := ['~']

/-- `safe_get_module_name` (`/repo/haiku/_src/base.py` 201-206). -/
def moduleName (m : ModId) (s : Loc) : Except Exc Str :=
  match s.heap[m]? with
  | some ⟨some n, _⟩ => .ok n
  | _ => .error .superNotCalled

/-- `current_module` (`/repo/haiku/_src/base.py` 209-214). -/
def currentModule (E : Env) : Option ModId := E.modules.head?.map Prod.fst

/-- `current_bundle_name` (`/repo/haiku/_src/base.py` 217-223). -/
def bundleName : FOp Str := fun E s =>
  match currentModule E with
  | some m => (moduleName m s, s)
  | none => (.ok sTilde, s)

/-! ### RNG -/

/-- `rng_seq_or_fail` (`/repo/haiku/_src/base.py` 571-576). -/
def rngSeqOrFail : M Loc PRNGSeq := fun s =>
  match s.rng with
  | some q => (.ok q, s)
  | none => (.error .noRng, s)

/-- `next(rng_seq)` on the sequence in force; the `none` result is `popleft` on an empty deque (`/repo/haiku/_src/base.py` 559-562). -/
def drawKey (q : PRNGSeq) : M Loc Key := fun s =>
  match q.next with
  | (some k, q') => (.ok k, { s with rng := some q', log := s.log ++ [k] })
  | (none, q') => (.error .indexError, { s with rng := some q' })

/-- `next_rng_key` (`/repo/haiku/_src/base.py` 602-619). -/
def nextRngKey : M Loc Key := rngSeqOrFail >>- drawKey

/-- `next_rng_keys(num)` (`/repo/haiku/_src/base.py` 622-640). -/
def nextRngKeys (n : Int) : M Loc (List Key) := rngSeqOrFail >>- fun q s =>
  let r := q.take n
  (.ok r.1, { s with rng := some r.2, log := s.log ++ r.1 })

/-- `maybe_next_rng_key` (`/repo/haiku/_src/base.py` 643-647). -/
def maybeNextRngKey : M Loc (Option Key) := fun s =>
  match s.rng with
  | none => (.ok none, s)
  | some q => (drawKey q >>- fun k => M.pure (some k)) s

/-- `reserve_rng_keys(num)` (`/repo/haiku/_src/base.py` 579-599). -/
def reserveRngKeys (n : Int) : M Loc Unit := rngSeqOrFail >>- fun q s =>
  (.ok (), { s with rng := some (q.reserve n) })

/-- `reserve_up_to_full_rng_block` (`/repo/haiku/_src/stateful.py` 85-92). -/
def reserveFull : M Loc Unit := fun s =>
  (.ok (), { s with rng := s.rng.map PRNGSeq.reserveUpToFull })

/-! ### Creators and getters -/

/-- Calling an initializer (`/repo/haiku/_src/base.py` 349, 357). -/
def runInit : KeyProg → M Loc Arr
  | .ret a => M.pure a
  | .raise e => M.throw e
  | .draw k => nextRngKey >>- fun key => runInit (k key)

/-- `run_creators` (`/repo/haiku/_src/base.py` 340-359): `popleft` takes the oldest creator first. -/
def runCreators (ctx : GetterContext) : List Creator → List Nat → DType → Initializer → M Loc Arr
  | [], shape, dtype, init => runInit (init shape dtype)
  | c :: cs, shape, dtype, init =>
    match c ctx shape dtype init with
    | .done a => M.pure a
    | .raise e => M.throw e
    | .next shape' dtype' init' post => runCreators ctx cs shape' dtype' init' >>- fun a => M.pure (post a)

/-- `run_getters` (`/repo/haiku/_src/base.py` 410-427). -/
def runGetters (ctx : GetterContext) : List Getter → Arr → Except Exc Arr
  | [], a => .ok a
  | g :: gs, a =>
    match g ctx a with
    | .done r => .ok r
    | .raise e => .error e
    | .next a' post => (runGetters ctx gs a').map post

/-! ### Parameters and state -/

/-- `d[bundle][name]` or absent (`/repo/haiku/_src/base.py` 279-280, 699, 703). -/
def lookup2 {β : Type} (d : Dict Str (Dict Str β)) (b n : Str) : Option β := (d.get? b).bind (·.get? n)

/-- `d[bundle][name] = v` where `d` is a `defaultdict(dict)` (`/repo/haiku/_src/base.py` 279 with 292, 699 with 713). -/
def store2 {β : Type} (d : Dict Str (Dict Str β)) (b n : Str) (v : β) : Dict Str (Dict Str β) :=
  d.set b (((d.get? b).getD []).set n v)

/-- Ghost: append to the access record (accesses at `/repo/haiku/_src/base.py` 280, 292, 703, 713, 757). -/
def record (e : Event) : M Loc Unit := M.modify fun s => { s with trace := s.trace ++ [e] }

/-- `fq_name` (`/repo/haiku/_src/base.py` 281, 700). -/
def fqName (b n : Str) : Str := b ++ '/' :: n

/-- `get_parameter` from line 267 on (`/repo/haiku/_src/base.py` 239-302).  `init = none` is `init is None`. -/
def getParameter (name : Str) (shape : List Nat) (dtype : DType) (init : Option Initializer) : FOp Arr := fun E =>
  match init with
  | none => M.throw .initMissing
  | some init =>
    bundleName E >>- fun b => M.get >>- fun s =>
    if E.frozen && !s.params.has b then M.throw .paramMissing
    else
      (if E.frozen then M.pure () else M.modify fun s => { s with params := s.params.setDefault b [] }) >>- fun _ =>
      (match lookup2 s.params b name with
        | some a => record (.paramRead b name a) >>- fun _ => M.pure a
        | none =>
          if E.frozen then M.throw .paramMissing
          else
            runCreators ⟨fqName b name, currentModule E, some dtype, some shape⟩ E.hooks.paramCreators shape dtype init >>- fun a =>
            M.modify (fun s => { s with params := store2 s.params b name a }) >>- fun _ =>
            record (.paramNew b name a) >>- fun _ => M.pure a) >>- fun a =>
      liftExcept (runGetters ⟨fqName b name, currentModule E, some dtype, some shape⟩ E.hooks.paramGetters a) >>- fun r =>
      if r.shape = shape then M.pure r else M.throw .shapeMismatch

/-- `get_state` (`/repo/haiku/_src/base.py` 657-721). -/
def getState (name : Str) (shape : Option (List Nat)) (dtype : Option DType) (init : Option Initializer) : FOp Arr := fun E =>
  bundleName E >>- fun b =>
  M.modify (fun s => { s with state := s.state.setDefault b [] }) >>- fun _ => M.get >>- fun s =>
  (match lookup2 s.state b name with
    | some p => record (.stateRead b name p.current) >>- fun _ => M.pure p.current
    | none =>
      match init with
      | none => M.throw .stateMissing
      | some init =>
        match shape, dtype with
        | some shape, some dtype =>
          runCreators ⟨fqName b name, currentModule E, some dtype, some shape⟩ E.hooks.stateCreators shape dtype init >>- fun a =>
          M.modify (fun s => { s with state := store2 s.state b name ⟨a, a⟩ }) >>- fun _ =>
          record (.stateNew b name a) >>- fun _ => M.pure a
        | _, _ => M.throw .stateShapeMissing) >>- fun a =>
  liftExcept (runGetters ⟨fqName b name, currentModule E, dtype, shape⟩ E.hooks.stateGetters a)

/-- `set_state` (`/repo/haiku/_src/base.py` 724-757). -/
def setState (name : Str) (v : Arr) : FOp Unit := fun E =>
  bundleName E >>- fun b =>
  M.modify (fun s => { s with state := s.state.setDefault b [] }) >>- fun _ => M.get >>- fun s =>
  let initial := match lookup2 s.state b name with
    | some p => p.initial
    | none => v
  M.modify (fun s => { s with state := store2 s.state b name ⟨initial, v⟩ }) >>- fun _ =>
  record (.stateSet b name v)

/-! ### Modules -/

/-- `cls.__new__(cls)`: a module object without `module_name` (`/repo/haiku/_src/module.py` 132). -/
def allocModule : M Loc ModId := fun s => (.ok s.heap.length, { s with heap := s.heap ++ [⟨none, none⟩] })

/-- The caller of the constructor that is running: the second entry of the module stack
(`/repo/haiku/_src/module.py` 561-575). -/
def callerOf : FOp Caller := fun E s =>
  match E.modules with
  | _ :: (m, method) :: _ => ((moduleName m s).map fun n => some (n, method), s)
  | _ => (.ok none, s)

/-- `Module.__init__(self, name)` for an instance of class `cls` (`/repo/haiku/_src/module.py` 474-497).
Simplification: the dataclass field `name` is not modelled. -/
def superInit (self : ModId) (name : Option Str) (cls : Str) : FOp Unit := fun E =>
  let nm := name.getD (camelToSnake cls)
  if validIdentifier nm then
    M.modify (fun s => { s with heap := s.heap.modify self fun o => { o with subs := some [] } }) >>- fun _ =>
    callerOf E >>- fun caller => fun s =>
      match s.scopes with
      | own :: sc :: rest =>
        match request caller sc nm with
        | (.ok q, sc') => (.ok (), { s with scopes := own :: sc' :: rest,
                                            heap := s.heap.modify self fun o => { o with name := some q } })
        | (.error e, sc') => (.error e, { s with scopes := own :: sc' :: rest })
      | _ => (.error .indexError, s)
  else M.throw .invalidName

/-- "Notify parent modules about our existence" (`/repo/haiku/_src/module.py` 431-436): iterates the module stack from the
top; a module without `_submodules` is an `AttributeError`. -/
def notifyLoop (self : ModId) (name : Str) : List (ModId × Str) → M Loc Unit
  | [] => M.pure ()
  | (m, _) :: ms =>
    if m = self then notifyLoop self name ms
    else fun s =>
      match s.heap[m]? with
      | some ⟨_, some subs⟩ =>
        notifyLoop self name ms { s with heap := s.heap.modify m fun o => { o with subs := some (name :: subs) } }
      | _ => (.error .noSubmodules, s)

/-- `getattr(self, "module_name", None)` (`/repo/haiku/_src/module.py` 407, 429). -/
def getModuleName (self : ModId) : M Loc (Option Str) := fun s => (.ok (s.heap[self]?.bind ModObj.name), s)

/-- Lines 427-436 of `wrap_method`: `before` is `module_name` as read before the method ran
(`/repo/haiku/_src/module.py` 427-436). -/
def notify (self : ModId) (before : Option Str) : FOp Unit := fun E =>
  (match before with
    | some n => M.pure (some n)
    | none => getModuleName self) >>- fun nm =>
  match nm with
  | some n => notifyLoop self n E.modules
  | none => M.pure ()

/-- The check after a constructor (`/repo/haiku/_src/module.py` 140-145). -/
def checkCtor (self : ModId) : M Loc Unit := getModuleName self >>- fun nm =>
  match nm with
  | some _ => M.pure ()
  | none => M.throw .superNeverCalled

/-- Whether `their_module_name` belongs to the module (`/repo/haiku/_src/module.py` 528-530). -/
def belongs (moduleName : Str) (submodules : List Str) (their : Str) : Bool :=
  their = moduleName || (moduleName ++ ['/']).isPrefixOf their || submodules.contains their

/-- `params_or_state_dict` (`/repo/haiku/_src/module.py` 519-535). -/
def paramsOrStateDict {β : Type} (moduleName : Str) (submodules : List Str) (d : Dict Str (Dict Str β)) : Dict Str β :=
  (d.filter fun p => belongs moduleName submodules p.1).foldl
    (fun out p => p.2.foldl (fun out q => Dict.set out (fqName p.1 q.1) q.2) out) []

/-- `self.params_dict()` and `self.state_dict()` (`/repo/haiku/_src/module.py` 502-516); the result is wrapped
as a bundle with an empty module name. -/
def modDict (self : ModId) (ofState : Bool) : M Loc Val := fun s =>
  match s.heap[self]? with
  | some ⟨some n, some subs⟩ =>
    (.ok (.bundle [([], if ofState then paramsOrStateDict n subs (s.state.mapVals fun _ d => d.mapVals fun _ p => p.current)
                        else paramsOrStateDict n subs s.params)]), s)
  | _ => (.error .superNotCalled, s)

/-! ### `hk.lift` -/

/-- A two-level mapping given by the caller, read as dicts of dicts (`/repo/haiku/_src/data_structures.py` 98-108); the identity
when no key is repeated. -/
def dict2 {β : Type} (d : List (Str × List (Str × β))) : Dict Str (Dict Str β) :=
  Dict.ofItems (d.map fun p => (p.1, Dict.ofItems p.2))

/-- `pack_into_dict` (`/repo/haiku/_src/lift.py` 22-27). -/
def packIntoDict (pfx : Str) : PDict → PDict → Except Exc Unit × PDict
  | [], dst => (.ok (), dst)
  | (k, v) :: src, dst =>
    let newKey := fqName pfx k
    if dst.has newKey then (.error .liftKeyExists, dst) else packIntoDict pfx src (dst.set newKey v)

/-- `unpack_from_dict` (`/repo/haiku/_src/lift.py` 30-36). -/
def unpackFromDict (pfx : Str) (src : PDict) : PDict :=
  src.foldl (fun out p => if pfx.isPrefixOf p.1 then Dict.set out (p.1.drop pfx.length) p.2 else out) []

/-- The frozen half of `LiftingModule.__call__` (`/repo/haiku/_src/lift.py` 70-76); `none` means init is running. -/
def liftUnpack (self : ModId) : FOp (Option PDict) := fun E s =>
  match moduleName self s with
  | .error e => (.error e, s)
  | .ok n => if E.frozen then (.ok (some (unpackFromDict (n ++ ['/']) s.params)), s) else (.ok none, s)

/-- `pack_into_dict(params, frame.params, bundle_name)` (`/repo/haiku/_src/lift.py` 80).  Frozen parameters are a
`FlatMapping`, which has no item assignment. -/
def liftPack (self : ModId) (params : PDict) : FOp Unit := fun E s =>
  match moduleName self s with
  | .error e => (.error e, s)
  | .ok n =>
    if E.frozen then (.error .badMapping, s)
    else
      let r := packIntoDict n (dict2 params) s.params
      (r.1, { s with params := r.2 })

/-! ### Saving and restoring the data of a frame (`stateful.py`) -/

/-- `InternalState` (`/repo/haiku/_src/stateful.py` 26); `params = none` is `None`.  `trace` is ghost. -/
structure IState where
  params : Option PDict
  state : SDict
  rng : Option (Key × List Key)
  trace : List Event
  deriving DecidableEq

/-- The result of `difference`: unchanged entries are `none` (`/repo/haiku/_src/stateful.py` 332). -/
structure Diff where
  params : Option (Dict Str (Dict Str (Option Arr)))
  state : Dict Str (Dict Str (Option StatePair))
  rng : Option (Key × List Key)
  trace : List Event
  deriving DecidableEq

/-- The state without the ghost record (`/repo/haiku/_src/stateful.py` 26). -/
def IState.noTrace (s : IState) : IState := { s with trace := [] }

/-- The difference without the ghost record (`/repo/haiku/_src/stateful.py` 332). -/
def Diff.noTrace (d : Diff) : Diff := { d with trace := [] }

/-- `internal_state(params=...)` (`/repo/haiku/_src/stateful.py` 35-43).  Simplification: `copy_structure` keeps
the order of dict entries. -/
def internalState (withParams : Bool) : M Loc IState := fun s =>
  (.ok ⟨if withParams then some s.params else none, s.state, s.rng.map PRNGSeq.internalState, s.trace⟩, s)

/-- `update_recursive` on two-level dictionaries (`/repo/haiku/_src/stateful.py` 46-54). -/
def updateRecursive {β : Type} (dst : Dict Str (Dict Str β)) (src : Dict Str (Dict Str (Option β))) : Dict Str (Dict Str β) :=
  src.foldl (fun dst p =>
    let dst := dst.setDefault p.1 []
    p.2.foldl (fun dst q =>
      match q.2 with
      | some v => store2 dst p.1 q.1 v
      | none => dst) dst) dst

/-- `update_internal_state` (`/repo/haiku/_src/stateful.py` 57-64). `rng` present while the frame has no sequence would be
an `AttributeError` on `None` (reported as `noRng`). -/
def updateInternalState (d : Diff) : FOp Unit := fun E s =>
  let s1 := match d.params with
    | some p => if E.frozen then s else { s with params := updateRecursive s.params p }
    | none => s
  let s2 := { s1 with state := updateRecursive s1.state d.state, trace := d.trace }
  match d.rng with
  | none => (.ok (), s2)
  | some r =>
    match s2.rng with
    | some q => (.ok (), { s2 with rng := some (q.replaceInternalState r) })
    | none => (.error .noRng, s2)

/-- One half of `box_and_fill_missing` followed by `if_changed` (`/repo/haiku/_src/stateful.py` 258-267, 299-303): entries
of `b` that are absent from `a`, or differ according to the identity test `isNew`, keep their value. -/
def diff2 {β : Type} (isNew : β → β → Bool) (a b : Dict Str (Dict Str β)) : Dict Str (Dict Str (Option β)) :=
  b.map fun p => (p.1, p.2.map fun q =>
    (q.1, match lookup2 a p.1 q.1 with
      | none => some q.2
      | some old => if isNew old q.2 then some q.2 else none))

/-- `difference(before, after)` (`/repo/haiku/_src/stateful.py` 270-332) for given identity tests. -/
def differenceWith (newParam : Arr → Arr → Bool) (newState : StatePair → StatePair → Bool)
    (newRng : (Key × List Key) → (Key × List Key) → Bool) (before after : IState) : Diff where
  params := match before.params, after.params with
    | some a, some b => some (diff2 newParam a b)
    | _, _ => none
  state := diff2 newState before.state after.state
  rng := match before.rng, after.rng with
    | some a, some b => if newRng a b then some b else none
    | _, r => r
  trace := after.trace

/-- `difference` as used by the interpreter (`/repo/haiku/_src/stateful.py` 270-332).  Simplification: two objects
are taken to be identical when they are equal; `Verif.Props.Diff` shows the result is used the same way for every test that
never calls different values identical. The tuple of subkeys is rebuilt each time, so the RNG is always "new" (326). -/
def difference (before after : IState) : Diff :=
  differenceWith (fun a b => a ≠ b) (fun a b => a ≠ b) (fun _ _ => true) before after

/-- An `InternalState` used as the argument of `update_internal_state` (`/repo/haiku/_src/stateful.py` 429, 506). -/
def IState.full (s : IState) : Diff where
  params := s.params.map fun d => d.mapVals fun _ b => b.mapVals fun _ v => some v
  state := s.state.mapVals fun _ b => b.mapVals fun _ v => some v
  rng := s.rng
  trace := s.trace

/-- Shapes and dtypes of the entries of a bundle collection. -/
def sig2 {β γ : Type} (f : β → γ) (d : Dict Str (Dict Str β)) : Dict Str (Dict Str γ) := d.mapVals fun _ b => b.mapVals fun _ v => f v

/-- Same keys and same leaf signatures: the structure check of JAX control flow on the threaded state
(`jax.lax.cond`, `scan`, `while_loop` as called at `/repo/haiku/_src/stateful.py` 424, 443, 502, 539, 605).  The outer level is a `defaultdict`, whose
key order is part of the structure; inner dicts are compared regardless of order. -/
def sameSig {γ : Type} [DecidableEq γ] (a b : Dict Str (Dict Str γ)) : Bool :=
  a.keys = b.keys &&
  a.all (fun p => p.2.all fun q => decide (lookup2 b p.1 q.1 = some q.2)) &&
  b.all (fun p => p.2.all fun q => decide (lookup2 a p.1 q.1 = some q.2))

/-- Signature of an array: what JAX calls its aval (`/repo/haiku/_src/stateful.py` 502). -/
def arrSig (a : Arr) : List Nat × DType := (a.shape, a.dtype)

/-- Signature of a state entry (`/repo/haiku/_src/stateful.py` 502). -/
def pairSig (p : StatePair) : (List Nat × DType) × (List Nat × DType) := (arrSig p.initial, arrSig p.current)

/-- Whether two internal states have the same structure (`/repo/haiku/_src/stateful.py` 424, 443, 502, 539, 605). -/
def IState.sameStruct (a b : IState) : Bool :=
  (match a.params, b.params with
    | some p, some q => sameSig (sig2 arrSig p) (sig2 arrSig q)
    | none, none => true
    | _, _ => false) &&
  sameSig (sig2 pairSig a.state) (sig2 pairSig b.state) &&
  (match a.rng, b.rng with
    | some p, some q => p.2.length = q.2.length
    | none, none => true
    | _, _ => false)

/-- `param_names()` (`/repo/haiku/_src/base.py` 782-794). -/
def paramNames (d : PDict) : List (Str × Str) := d.flatMap fun p => p.2.map fun q => (p.1, q.1)

/-- `assert_no_new_parameters` (`/repo/haiku/_src/base.py` 797-803): `before` and `after` are the parameters around the block. -/
def hasNewParams (before after : PDict) : Bool := (paramNames after).any fun n => !(paramNames before).contains n

/-- Number of stores to the dictionaries so far (`/repo/haiku/_src/base.py` 292, 713, 757).  Every store creates an object with a new identity. -/
def storesIn (t : List Event) : Nat := (t.filter fun
  | .paramNew .. => true
  | .stateNew .. => true
  | .stateSet .. => true
  | _ => false).length

/-- The identities `_all_state` records for the RNG (`/repo/haiku/_src/base.py` 824-829). -/
def rngIds (r : Option PRNGSeq) : List Key := match r with
  | some q => q.key :: q.subkeys
  | none => []

/-- `assert_state_unchanged` (`/repo/haiku/_src/base.py` 833-846): raises when an identity is present after the block that
was not present before.  Simplification: stored entries are identified by when they were stored (no reuse of addresses). -/
def stateChanged (before after : Loc) : Bool :=
  storesIn after.trace ≠ storesIn before.trace || (rngIds after.rng).any fun k => !(rngIds before.rng).contains k

end Frame

/-- The rng argument of `init`, `apply` and `with_rng` (`/repo/haiku/_src/transform.py` 68-74): `None`, an int, a
key, or something that is neither. -/
inductive RngArg where
  | none
  | seed (n : Int)
  | key (k : Key)
  | invalid
  deriving DecidableEq, Repr

/-- `PRNGSequence(arg)` (`/repo/haiku/_src/base.py` 507-522). -/
def RngArg.seq : RngArg → Except Exc PRNGSeq
  | .seed n => .ok (.ofSeed n)
  | .key k => .ok (.ofKey k)
  | _ => .error .badRng

/-- `to_prng_sequence` (`/repo/haiku/_src/transform.py` 68-74). -/
def RngArg.toSeq : RngArg → Except Exc (Option PRNGSeq)
  | .none => .ok Option.none
  | r => r.seq.map some

/-- Calls of Haiku functions that act on the current frame (one constructor per function). Defined at
`/repo/haiku/_src/base.py` 239, 579, 602, 622, 643, 657, 724, `/repo/haiku/_src/transform.py` 334, `/repo/haiku/_src/module.py` 474, 502, 510,
`/repo/haiku/_src/lift.py` 67. -/
inductive Op where
  | getParam (name : Str) (shape : List Nat) (dtype : DType) (init : Option Initializer)
  | getState (name : Str) (shape : Option (List Nat)) (dtype : Option DType) (init : Option Initializer)
  | setState (name : Str) (v : Arr)
  | nextKey
  | nextKeys (n : Int)
  | maybeNextKey
  | reserve (n : Int)
  | runningInit
  | superInit (self : ModId) (name : Option Str) (cls : Str)
  | modDict (self : ModId) (ofState : Bool)
  | liftUnpack (self : ModId)
  | liftPack (self : ModId) (params : PDict)

/-- Dispatch of the frame-level functions (`/repo/haiku/_src/base.py` 239, 579, 602, 622, 643, 657, 724,
`/repo/haiku/_src/transform.py` 334-361, `/repo/haiku/_src/module.py` 474, 502, 510, `/repo/haiku/_src/lift.py` 67). -/
def Op.run : Op → FOp Val
  | .getParam n sh dt i => fun E => Frame.getParameter n sh dt i E >>- fun a => M.pure (.arr a)
  | .getState n sh dt i => fun E => Frame.getState n sh dt i E >>- fun a => M.pure (.arr a)
  | .setState n v => fun E => Frame.setState n v E >>- fun _ => M.pure .unit
  | .nextKey => fun _ => Frame.nextRngKey >>- fun k => M.pure (.key k)
  | .nextKeys n => fun _ => Frame.nextRngKeys n >>- fun ks => M.pure (Val.ofList (ks.map .key))
  | .maybeNextKey => fun _ => Frame.maybeNextRngKey >>- fun k => M.pure (match k with | some k => .key k | none => .none)
  | .reserve n => fun _ => Frame.reserveRngKeys n >>- fun _ => M.pure .unit
  | .runningInit => fun E => M.pure (.bool (!E.frozen))
  | .superInit m n cls => fun E => Frame.superInit m n cls E >>- fun _ => M.pure .unit
  | .modDict m st => fun _ => Frame.modDict m st
  | .liftUnpack m => fun E => Frame.liftUnpack m E >>- fun d => M.pure (match d with | some d => .bundle d | none => .none)
  | .liftPack m p => fun E => Frame.liftPack m p E >>- fun _ => M.pure .unit

end Verif
