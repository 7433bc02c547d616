import Verif.Model.PRNG
import Verif.Model.Names

/-!
# Values, hooks and the error/state monad used by the interpreters
-/

namespace Verif

/-- Array element types (`dtype` arguments, `/repo/haiku/_src/base.py` 242). -/
inductive DType where
  | f32 | bf16 | i32 | u32
  | other (n : Nat)
  deriving DecidableEq, Repr

/-- `jnp.ndarray` as far as Haiku looks at it: shape, dtype and (row-major) contents
(`/repo/haiku/_src/base.py` 298 uses `param.shape`).  Simplification: exact numbers, and `data` need not match `shape`. -/
structure Arr where
  shape : List Nat
  dtype : DType
  data : List Int
  deriving DecidableEq, Repr

/-- `StatePair(initial, current)` (`/repo/haiku/_src/base.py` 41). -/
structure StatePair where
  initial : Arr
  current : Arr
  deriving DecidableEq, Repr

/-- `MutableParams` / `Params` (`/repo/haiku/_src/base.py` 42): module name, then parameter name. -/
abbrev PDict := Dict Str (Dict Str Arr)

/-- `MutableState` (`/repo/haiku/_src/base.py` 43). -/
abbrev SDict := Dict Str (Dict Str StatePair)

/-- A reference to an `hk.Module` object: index into the object store (`/repo/haiku/_src/module.py` 132). -/
abbrev ModId := Nat

/-- The values computed by user programs (arguments and results of the functions passed to `hk.transform`,
`/repo/haiku/_src/transform.py` 273-298). Lists are encoded with `pair` and `unit`. -/
inductive Val where
  | unit
  | none
  | bool (b : Bool)
  | int (i : Int)
  | arr (a : Arr)
  | key (k : Key)
  | mod (id : ModId)
  | bundle (d : PDict)
  | pair (a b : Val)
  deriving DecidableEq, Repr

namespace Val

/-- A Python list or stacked leading axis as nested pairs (results of `jax.lax.scan`, `/repo/haiku/_src/stateful.py` 502). -/
def ofList : List Val → Val
  | [] => .unit
  | v :: vs => .pair v (ofList vs)

/-- Whether two values have the same tree structure, shapes and dtypes: the check JAX control flow makes on carries and
branch outputs (`jax.lax.cond`, `scan`, `while_loop` as called at `/repo/haiku/_src/stateful.py` 424, 443, 502, 539, 605). -/
def sameStruct : Val → Val → Bool
  | .unit, .unit => true
  | .none, .none => true
  | .bool _, .bool _ => true
  | .int _, .int _ => true
  | .arr a, .arr b => a.shape = b.shape ∧ a.dtype = b.dtype
  | .key _, .key _ => true
  | .mod a, .mod b => a = b
  | .bundle a, .bundle b => a.map (fun p => (p.1, p.2.map fun q => (q.1, q.2.shape, q.2.dtype))) =
      b.map (fun p => (p.1, p.2.map fun q => (q.1, q.2.shape, q.2.dtype)))
  | .pair a b, .pair c d => sameStruct a c && sameStruct b d
  | _, _ => false

/-- `ShapeDtypeStruct` of a value: contents erased (`jax.eval_shape`, `/repo/haiku/_src/stateful.py` 631). -/
def shapeOnly : Val → Val
  | .arr a => .arr { a with data := [] }
  | .bool _ => .bool false
  | .int _ => .int 0
  | .key _ => .unit
  | .pair a b => .pair (shapeOnly a) (shapeOnly b)
  | v => v

end Val

/-- The body of an initializer: it may draw RNG keys with `hk.next_rng_key` (e.g. `/repo/haiku/_src/initializers.py` 82-100)
and then returns an array or raises.  Simplification: initializers use no other Haiku function. -/
inductive KeyProg where
  | ret (a : Arr)
  | raise (e : Exc)
  | draw (k : Key → KeyProg)

/-- `Initializer`: a callable of shape and dtype (`/repo/haiku/_src/base.py` 243). -/
abbrev Initializer := List Nat → DType → KeyProg

/-- `GetterContext` (`/repo/haiku/_src/base.py` 305-332, built at 282 and 701). -/
structure GetterContext where
  fullName : Str
  module : Option ModId
  dtype : Option DType
  shape : Option (List Nat)

/-- What a custom creator does with `next_creator` (`/repo/haiku/_src/base.py` 353-357): return or raise
without calling it, or call it once and post-process.  Simplification: creators are pure and call `next` at most once
(the general chain is `Verif.Model.Hooks`). -/
inductive CreatorAct where
  | done (a : Arr)
  | raise (e : Exc)
  | next (shape : List Nat) (dtype : DType) (init : Initializer) (post : Arr → Arr)

/-- `Creator` (`/repo/haiku/_src/base.py` 336-337). -/
abbrev Creator := GetterContext → List Nat → DType → Initializer → CreatorAct

/-- What a custom getter does with `next_getter` (`/repo/haiku/_src/base.py` 421-425).  Same simplification as `CreatorAct`. -/
inductive GetterAct where
  | done (a : Arr)
  | raise (e : Exc)
  | next (a : Arr) (post : Arr → Arr)

/-- `Getter` (`/repo/haiku/_src/base.py` 407). -/
abbrev Getter := GetterContext → Arr → GetterAct

/-- What a method interceptor does (`/repo/haiku/_src/module.py` 285-293): return or raise without running the method,
call `next_fun` once, or call `context.orig_method` once.  Same simplification as `CreatorAct`. -/
inductive InterceptAct where
  | done (v : Val)
  | raise (e : Exc)
  | next (args : Val) (post : Val → Val)
  | orig (args : Val) (post : Val → Val)

/-- `MethodGetter`: gets the module, method name and arguments (`/repo/haiku/_src/module.py` 218). -/
abbrev Interceptor := ModId → Str → Val → InterceptAct

/-- The thread-local hook stacks, outermost (oldest) first, which is the order `popleft` takes them
(`/repo/haiku/_src/base.py` 47-50, `/repo/haiku/_src/module.py` 219). -/
structure Hooks where
  paramCreators : List Creator
  stateCreators : List Creator
  paramGetters : List Getter
  stateGetters : List Getter
  interceptors : List Interceptor

/-- No hook active (`/repo/haiku/_src/base.py` 47-50). -/
def Hooks.none : Hooks := ⟨[], [], [], [], []⟩

/-- State and exceptions: a computation always ends with a state, also when it raises (Python side effects survive
exceptions).  Not a Haiku function; the effect of running Python code such as `/repo/haiku/_src/base.py` 239-302. -/
abbrev M (σ α : Type) := σ → Except Exc α × σ

namespace M
variable {σ α β : Type}

/-- A value without effect (`return v`, e.g. `/repo/haiku/_src/base.py` 302). -/
def pure (a : α) : M σ α := fun s => (.ok a, s)

/-- `raise` (e.g. `/repo/haiku/_src/base.py` 274). -/
def throw (e : Exc) : M σ α := fun s => (.error e, s)

/-- Sequencing: an exception skips the rest (Python semantics of the statements at e.g. `/repo/haiku/_src/base.py` 267-302). -/
def bind (m : M σ α) (f : α → M σ β) : M σ β := fun s =>
  match m s with
  | (.ok a, s') => f a s'
  | (.error e, s') => (.error e, s')

/-- `try: m except Exception as e: h(e)` (user code; also `/repo/haiku/_src/stateful.py` 590-599). -/
def tryCatch (m : M σ α) (h : Exc → M σ α) : M σ α := fun s =>
  match m s with
  | (.ok a, s') => (.ok a, s')
  | (.error e, s') => h e s'

/-- Reading a variable (e.g. `frame = current_frame()`, `/repo/haiku/_src/base.py` 271). -/
def get : M σ σ := fun s => (.ok s, s)

/-- Assigning (e.g. `/repo/haiku/_src/base.py` 292). -/
def modify (f : σ → σ) : M σ Unit := fun s => (.ok (), f s)

end M

@[inherit_doc] infixl:55 " >>- " => M.bind

end Verif
