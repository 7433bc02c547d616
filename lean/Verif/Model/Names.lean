import Verif.Base.Dict

/-!
# Module names

Models `/repo/haiku/_src/module.py` 442-443 (`valid_identifier`), 556-601 (`unique_and_canonical_name`) and
`/repo/haiku/_src/utils.py` 245-246 (`camel_to_snake`).

Strings are lists of characters.
-/

namespace Verif

/-- A Python `str`, as the list of its characters (module names, `/repo/haiku/_src/module.py` 556). -/
abbrev Str := List Char

/-- The exceptions raised by the modelled code.  Messages are not modelled, except that errors with different
meaning have different constructors.  Raised at `/repo/haiku/_src/base.py` 204, 228, 268, 274, 286, 298, 574, 706, 709, 803, 844,
`/repo/haiku/_src/module.py` 142, 309, 323, 325, 401, 436, 492, 598, `/repo/haiku/_src/transform.py` 73, 113, 120, 222, 326. -/
inductive Exc where
  /-- "must be used as part of an `hk.transform`" -/
  | notInTransform
  /-- "The super constructor must be called before you create parameters or submodules." -/
  | superNotCalled
  /-- "Initializer must be specified." -/
  | initMissing
  /-- "Unable to retrieve parameter ... All parameters must be created as part of `init`." -/
  | paramMissing
  /-- shape assertion in `get_parameter` -/
  | shapeMismatch
  /-- "You must pass a non-None PRNGKey to init and/or apply" -/
  | noRng
  /-- "No value for ..., perhaps set an init function?" -/
  | stateMissing
  /-- "Must provide shape and dtype to initialize" -/
  | stateShapeMissing
  /-- "is not a valid module name" -/
  | invalidName
  /-- "Module name ... is not unique." -/
  | nameNotUnique
  /-- "Constructing an hk.Module without calling the super constructor is not supported." -/
  | superNeverCalled
  /-- `AttributeError`: `_submodules` of a module whose super constructor has not run -/
  | noSubmodules
  /-- "Name scopes must not start with /" -/
  | badScopeName
  /-- `assert self.pop() is elem` -/
  | stackCorrupt
  /-- `IndexError` from a deque -/
  | indexError
  /-- "New parameters were created" -/
  | newParams
  /-- `StateChangedError` reported by `hk.while_loop` -/
  | stateChanged
  /-- `TypeError` raised by JAX control flow when branch or carry structures differ -/
  | structureMismatch
  /-- "hk.while_loop does not support initialization" -/
  | whileInInit
  /-- invalid rng argument -/
  | badRng
  /-- argument of apply is not a mapping -/
  | badMapping
  /-- "If your transformed function uses `hk.{get,set}_state` then use `hk.transform_with_state`." -/
  | usesState
  /-- `TypeError`: a positional argument is missing -/
  | missingArgument
  /-- `AssertionError` of `pack_into_dict` -/
  | liftKeyExists
  /-- `AttributeError`: `None` has no attribute `reserve` (`optimize_rng_use`) -/
  | noneReserve
  /-- the fuel of a modelled `while` ran out (non-termination; not a Python exception) -/
  | outOfFuel
  /-- an exception raised by user code -/
  | user (code : Nat)
  deriving DecidableEq, Repr

namespace Names

/-- `[a-zA-Z_]` (`/repo/haiku/_src/module.py` 442). -/
def isIdStart (c : Char) : Bool := ('a' ≤ c ∧ c ≤ 'z') ∨ ('A' ≤ c ∧ c ≤ 'Z') ∨ c = '_'

/-- `[a-zA-Z0-9_]` (`/repo/haiku/_src/module.py` 442). -/
def isIdChar (c : Char) : Bool := isIdStart c ∨ ('0' ≤ c ∧ c ≤ '9')

/-- Python's `$` without MULTILINE also matches before one trailing newline: the text a regex ending in `$` has to
match, as used by `/repo/haiku/_src/module.py` 442 and 578. -/
def stripNL (s : Str) : Str := if s.getLast? = some '\n' then s.dropLast else s

/-- `re.compile(r"^[a-zA-Z_]([a-zA-Z0-9_])*$").match(name)` (`/repo/haiku/_src/module.py` 442-443). -/
def validIdentifier (s : Str) : Bool :=
  match stripNL s with
  | [] => false
  | c :: cs => isIdStart c && cs.all isIdChar

/-- `re.split(r"_(\d+)$", name, 3)`: the part before the last underscore and the number, when `name` ends in an
underscore followed by digits (`/repo/haiku/_src/module.py` 578-584).  Simplification: `\d` is `[0-9]` (names are ASCII). -/
def splitNum (s : Str) : Option (Str × Nat) :=
  let r := (stripNL s).reverse
  let digs := r.takeWhile Char.isDigit
  match digs, r.dropWhile Char.isDigit with
  | [], _ => none
  | _ :: _, '_' :: rest => some (rest.reverse, Nat.ofDigitChars 10 digs.reverse 0)
  | _ :: _, _ => none

/-- `f"{name}_{n}"` (`/repo/haiku/_src/module.py` 593). -/
def fmt (base : Str) (n : Nat) : Str := base ++ '_' :: Nat.toDigits 10 n

/-- The caller of a module constructor: name of the parent module and the method it is in
(`/repo/haiku/_src/module.py` 561-575); `none` at the top level of a transform. -/
abbrev Caller := Option (Str × Str)

/-- "__init__" (`/repo/haiku/_src/module.py` 567). -/
def sInit : Str := "__init__".toList
/-- "__call__" (`/repo/haiku/_src/module.py` 569). -/
def sCall : Str := "__call__".toList

/-- The name with method and parent prefix (`/repo/haiku/_src/module.py` 560-575). -/
def withPrefix (caller : Caller) (name : Str) : Str :=
  match caller with
  | none => name
  | some (parent, method) =>
    let name :=
      if method = sInit then '~' :: '/' :: name
      else if method ≠ sCall then '~' :: method ++ '/' :: name
      else name
    parent ++ '/' :: name

/-- One naming scope: `counter_stack.peek(-2)` and `used_names_stack.peek(-2)` (`/repo/haiku/_src/module.py` 587, 596). -/
structure Scope where
  counters : Dict Str Nat
  used : List Str
  deriving DecidableEq, Repr

/-- A fresh `Counter()` and `set()` (`/repo/haiku/_src/base.py` 97-98). -/
def Scope.empty : Scope := ⟨[], []⟩

/-- `counters[name]` on a `collections.Counter`: 0 when absent (`/repo/haiku/_src/module.py` 589-592). -/
def counterGet (c : Dict Str Nat) (name : Str) : Nat := (c.get? name).getD 0

/-- The numbered candidate name and the advanced counters (`/repo/haiku/_src/module.py` 577-593). -/
def numbering (counters : Dict Str Nat) (name : Str) : Str × Dict Str Nat :=
  match splitNum name with
  | some (b, n) => (fmt b n, counters.set b (max (counterGet counters b) (n + 1)))
  | none =>
    let n := counterGet counters name
    (if n ≠ 0 then fmt name n else name, counters.set name (n + 1))

/-- The rest of `unique_and_canonical_name` (`/repo/haiku/_src/module.py` 586-601).  The counter is
advanced before the uniqueness check, so also when the check fails. -/
def uniqueName (sc : Scope) (name : Str) : Except Exc Str × Scope :=
  let r := numbering sc.counters name
  if r.1 ∈ sc.used then (.error .nameNotUnique, ⟨r.2, sc.used⟩)
  else (.ok r.1, ⟨r.2, r.1 :: sc.used⟩)

/-- `Module.__init__(name)` as far as naming is concerned: validation (`/repo/haiku/_src/module.py` 491-494), then
`unique_and_canonical_name` (496, 556-601). -/
def request (caller : Caller) (sc : Scope) (name : Str) : Except Exc Str × Scope :=
  if validIdentifier name then uniqueName sc (withPrefix caller name)
  else (.error .invalidName, sc)

/-- All constructions in one scope: the results, in order, and the final scope (`/repo/haiku/_src/module.py` 485-497). -/
def requests (caller : Caller) (sc : Scope) : List Str → List (Except Exc Str) × Scope
  | [] => ([], sc)
  | name :: names =>
    let r := request caller sc name
    let rs := requests caller r.2 names
    (r.1 :: rs.1, rs.2)

/-- `[A-Z]` (`/repo/haiku/_src/utils.py` 245). -/
def isUpper (c : Char) : Bool := 'A' ≤ c ∧ c ≤ 'Z'

/-- `[a-z]` (`/repo/haiku/_src/utils.py` 245). -/
def isLower (c : Char) : Bool := 'a' ≤ c ∧ c ≤ 'z'

/-- The scan of `_CAMEL_TO_SNAKE_R.sub(r"_\1", value).lower()` (`/repo/haiku/_src/utils.py` 245-246): an underscore is put
before an upper case letter that follows `[a-z0-9]`, or that is not first and is followed by `[a-z]`.
Simplification: `lower` is ASCII lower-casing (class names are ASCII). -/
def camelAux : Option Char → Str → Str
  | _, [] => []
  | prev, c :: cs =>
    let afterLower := match prev with
      | some p => isLower p || ('0' ≤ p ∧ p ≤ '9')
      | none => false
    let beforeLower := prev.isSome && (match cs with | d :: _ => isLower d | [] => false)
    if isUpper c && (afterLower || beforeLower) then '_' :: c.toLower :: camelAux (some c) cs
    else c.toLower :: camelAux (some c) cs

/-- `utils.camel_to_snake` (`/repo/haiku/_src/utils.py` 245-246). -/
def camelToSnake (s : Str) : Str := camelAux none s

end Names
end Verif
