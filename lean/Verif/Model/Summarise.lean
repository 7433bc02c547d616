import Verif.Model.Frame
import Verif.Model.Shapes

/-!
# Summaries of the modules used

Models `eval_summary` and `tabulate` of `/repo/haiku/_src/summarise.py`, with `tree_size`, `tree_bytes`, `simple_dtype`,
`format_array` and `format_bytes` of `/repo/haiku/_src/utils.py` 173-273.  What the user's function does is given by the calls of
methods of modules it makes, as a forest.  `repr` of modules and `pprint.pformat` are any functions, and the library that draws
the table is not modelled: a table is its headers, alignments and rows of texts.
-/

namespace Verif.Summarise
open Verif Verif.Shapes

/-- `ArraySpec` (`/repo/haiku/_src/summarise.py` 47-68); a dtype is its name and its item size. -/
structure ArraySpec where
  shape : List Nat
  dtype : Str
  itemsize : Nat
deriving DecidableEq, Repr

/-- `ArraySpec.size` (`/repo/haiku/_src/summarise.py` 61-63); `np.prod` in exact arithmetic. -/
def ArraySpec.size (a : ArraySpec) : Nat := a.shape.foldl (· * ·) 1

/-! ### Calls of methods -/

/-- A call of a wrapped method: the module object, the method, the arguments, the calls of methods made by its body in order, and
what it returned (`none`: it raised; the caller may have caught the exception) (`/repo/haiku/_src/module.py` 397-437).  -/
inductive Call (V : Type) where
  | mk (module : Nat) (method : Str) (args : V) (inner : List (Call V)) (result : Option V)

/-- What does not change during the run: the `module_name` of every module object, and the parameters of the frame, which `apply`
does not change (`/repo/haiku/_src/base.py` 262-298, `/repo/haiku/_src/module.py` 495-497).  Simplification: a module has its name
from the start, i.e. methods of other modules called by a constructor before `super().__init__()`, which raise, are left out. -/
structure Fixed where
  name : Nat → Str
  params : Dict Str (Dict Str ArraySpec)

/-- The attribute `_submodules` of every module object (`/repo/haiku/_src/module.py` 494). -/
abbrev Subs := Nat → List Str

/-- `frame.module_stack`, top first: the module and the method of every active call (`/repo/haiku/_src/module.py` 404-406). -/
abbrev Stack := List (Nat × Str)

/-- "Notify parent modules about our existence" (`/repo/haiku/_src/module.py` 431-436). -/
def notify (stack : Stack) (self : Nat) (name : Str) (subs : Subs) : Subs := fun m =>
  if m ≠ self ∧ m ∈ stack.map Prod.fst then name :: subs m else subs m

/-- `ModuleDetails` (`/repo/haiku/_src/summarise.py` 70-83), without the state. -/
structure Details where
  module : Nat
  method : Str
  params : Dict Str ArraySpec
deriving DecidableEq, Repr

/-- `ModuleDetails.of` (`/repo/haiku/_src/summarise.py` 86-91).  `params_dict` and `state_dict` are wrapped methods too
(`/repo/haiku/_src/module.py` 93-120): each pushes the module on the stack, and on return notifies all modules on the stack.
Simplifications: the values of the state are left out, and `jax.tree_map` keeps the order of the parameters. -/
def detailsOf (env : Fixed) (stack : Stack) (module : Nat) (method : Str) (subs : Subs) : Details × Subs :=
  let params := Frame.paramsOrStateDict (env.name module) (subs module) env.params
  let subs := notify ((module, "params_dict".toList) :: stack) module (env.name module) subs
  let subs := notify ((module, "state_dict".toList) :: stack) module (env.name module) subs
  (⟨module, method, params⟩, subs)

/-- `get_call_stack` (`/repo/haiku/_src/summarise.py` 121-125): the entries of `todo` in order, while `stack` is active. -/
def getCallStack (env : Fixed) (stack : Stack) : Stack → Subs → List Details × Subs
  | [], subs => ([], subs)
  | (m, method) :: todo, subs =>
    let d := detailsOf env stack m method subs
    let r := getCallStack env stack todo d.2
    (d.1 :: r.1, r.2)

/-- `MethodInvocation` (`/repo/haiku/_src/summarise.py` 94-118); `context` is the module and the method again. -/
structure Invocation (V : Type) where
  details : Details
  args : V
  output : V
  callStack : List Details

/-- `IGNORED_METHODS` (`/repo/haiku/_src/summarise.py` 133). -/
def ignoredMethods : List Str := ["__init__".toList, "params_dict".toList, "state_dict".toList]

/-- The list being filled and the `_submodules` of all modules (`/repo/haiku/_src/summarise.py` 137). -/
structure State (V : Type) where
  used : List (Option (Invocation V))
  subs : Subs

mutual
/-- A call of a method with `log_used_modules` as interceptor (`/repo/haiku/_src/summarise.py` 136-157 in
`/repo/haiku/_src/module.py` 397-437); `stack` is active outside the call. -/
def runCall {V : Type} (env : Fixed) (stack : Stack) (st : State V) : Call V → State V
  | .mk m method args inner result =>
    let stack' := (m, method) :: stack
    if method ∈ ignoredMethods then
      let st := runCalls env stack' st inner
      match result with
      | none => st
      | some _ => { st with subs := notify stack' m (env.name m) st.subs }
    else
      let idx := st.used.length
      let st := runCalls env stack' { st with used := st.used ++ [none] } inner
      match result with
      | none => st
      | some out =>
        let d := detailsOf env stack' m method st.subs
        let cs := getCallStack env stack' stack' d.2
        { used := st.used.set idx (some ⟨d.1, args, out, cs.1⟩), subs := notify stack' m (env.name m) cs.2 }
/-- The calls of a body, one after the other (`/repo/haiku/_src/module.py` 423). -/
def runCalls {V : Type} (env : Fixed) (stack : Stack) (st : State V) : List (Call V) → State V
  | [] => st
  | c :: cs => runCalls env stack (runCall env stack st c) cs
end

/-- `eval_summary(f)(*args)` (`/repo/haiku/_src/summarise.py` 160-214): the outcome of `f_orig.init`, the calls made by `f` in
`f_logged.apply`, and the outcome of that.  `jax.eval_shape` runs the function once. -/
def evalSummary {E V : Type} (env : Fixed) (init : Except E Unit) (calls : List (Call V)) (apply : Except E Unit) :
    Except E (List (Option (Invocation V))) :=
  match init with
  | .error e => .error e
  | .ok () =>
    match apply with
    | .error e => .error e
    | .ok () => .ok (runCalls env [] ⟨[], fun _ => []⟩ calls).used

/-! ### Formatting -/

/-- `str.rsplit("/", 1)` unpacked into two names (`/repo/haiku/_src/summarise.py` 235); `none` is the `ValueError` of an unpacking
with a single part. -/
def rsplitSlash (s : Str) : Option (Str × Str) :=
  let tail := (s.reverse.takeWhile (· ≠ '/')).reverse
  match s.reverse.dropWhile (· ≠ '/') with
  | [] => none
  | _ :: rest => some (rest.reverse, tail)

/-- `owned_params` (`/repo/haiku/_src/summarise.py` 232-238). -/
def ownedParams (moduleName : Str) : Dict Str ArraySpec → Dict Str ArraySpec → Except Err (Dict Str ArraySpec)
  | [], out => .ok out
  | (fq, p) :: ps, out =>
    match rsplitSlash fq with
    | none => .error .value
    | some (mod, name) => if mod = moduleName then ownedParams moduleName ps (out.set name p) else ownedParams moduleName ps out

/-- `a <= b` for strings, as Python compares them: by code points (`/repo/haiku/_src/summarise.py` 246). -/
def strLe : Str → Str → Bool
  | [], _ => true
  | _ :: _, [] => false
  | a :: as, b :: bs => if a.toNat < b.toNat then true else if b.toNat < a.toNat then false else strLe as bs

/-- `(-size, name)` compared as tuples (`/repo/haiku/_src/summarise.py` 244). -/
def sizeDescThenName (a b : Str × ArraySpec) : Bool :=
  if b.2.size < a.2.size then true else if a.2.size < b.2.size then false else strLe a.1 b.1

/-- One step of `sorted`, which is stable: before the first entry that is not smaller (`/repo/haiku/_src/summarise.py` 246). -/
def insertSorted (x : Str × ArraySpec) : List (Str × ArraySpec) → List (Str × ArraySpec)
  | [] => [x]
  | y :: ys => if sizeDescThenName x y then x :: y :: ys else y :: insertSorted x ys

/-- `sorted(params.items(), key=size_desc_then_name)` (`/repo/haiku/_src/summarise.py` 246). -/
def sortParams : List (Str × ArraySpec) → List (Str × ArraySpec)
  | [] => []
  | x :: xs => insertSorted x (sortParams xs)

/-- `str.join` (`/repo/haiku/_src/summarise.py` 245-246). -/
def join (sep : Str) : List Str → Str
  | [] => []
  | [x] => x
  | x :: y :: xs => x ++ sep ++ join sep (y :: xs)

/-- `str.replace(old, new)` with a non-empty `old`: left to right (`/repo/haiku/_src/utils.py` 253-257). -/
def replace (old new : Str) : Nat → Str → Str
  | 0, s => s
  | _ + 1, [] => []
  | n + 1, c :: s => if old.isPrefixOf (c :: s) then new ++ replace old new n ((c :: s).drop old.length) else c :: replace old new n s

/-- `simple_dtype` (`/repo/haiku/_src/utils.py` 249-258), of a dtype given by its name. -/
def simpleDtype (dtype : Str) : Str :=
  let r (old new : String) (s : Str) : Str := replace old.toList new.toList s.length s
  r "int" "s" (r "uint" "u" (r "float" "f" (r "double" "d" (r "complex" "c" dtype))))

/-- `str(n)` for an `int` that is not negative (`/repo/haiku/_src/utils.py` 263). -/
def natStr (n : Nat) : Str := Nat.toDigits 10 n

/-- `format_array` (`/repo/haiku/_src/utils.py` 261-263). -/
def formatArray (x : ArraySpec) : Str := simpleDtype x.dtype ++ '[' :: join [','] (x.shape.map natStr) ++ [']']

/-- `format_owned_params` (`/repo/haiku/_src/summarise.py` 241-246). -/
def formatOwnedParams (moduleName : Str) (d : Details) : Except Err Str :=
  (ownedParams moduleName d.params []).map fun ps =>
    join ['\n'] ((sortParams ps).map fun kv => kv.1 ++ ": ".toList ++ formatArray kv.2)

/-- `tree_size` of a dict of arrays (`/repo/haiku/_src/utils.py` 174-205). -/
def treeSize (d : Dict Str ArraySpec) : Nat := (d.map fun kv => kv.2.size).foldl (· + ·) 0

/-- `tree_bytes` of a dict of arrays (`/repo/haiku/_src/utils.py` 208-243). -/
def treeBytes (d : Dict Str ArraySpec) : Nat := (d.map fun kv => kv.2.size * kv.2.itemsize).foldl (· + ·) 0

/-- The loop of `format_bytes` (`/repo/haiku/_src/utils.py` 271-273): the number is `n / 1000 ^ k`.  Simplification: the division of
decimals is exact, as it is for numbers of at most 28 digits. -/
def scaleBytes (n : Nat) : Nat → String → List String → Nat × String
  | k, suffix, [] => (k, suffix)
  | k, suffix, s :: suffixes => if n ≥ 1000 * 1000 ^ k then scaleBytes n (k + 1) s suffixes else (k, suffix)

/-- `round(n / d)` to the nearest integer, ties to even: the rounding of `decimal` (`/repo/haiku/_src/utils.py` 274). -/
def roundHalfEven (n d : Nat) : Nat :=
  let q := n / d
  let r := n % d
  if 2 * r < d then q else if d < 2 * r then q + 1 else if q % 2 = 0 then q else q + 1

/-- The number of hundredths and the suffix shown by `format_bytes` (`/repo/haiku/_src/utils.py` 266-274). -/
def bytesShown (n : Nat) : Nat × String :=
  let r := scaleBytes n 0 "B" ["KB", "MB", "GB", "TB"]
  (roundHalfEven (100 * n) (1000 ^ r.1), r.2)

/-- Two decimal digits (`/repo/haiku/_src/utils.py` 274). -/
def twoDigits (n : Nat) : Str := [Nat.digitChar (n / 10 % 10), Nat.digitChar (n % 10)]

/-- `format_bytes` (`/repo/haiku/_src/utils.py` 266-274). -/
def formatBytes (n : Nat) : Str :=
  let r := bytesShown n
  natStr (r.1 / 100) ++ '.' :: twoDigits r.1 ++ ' ' :: r.2.toList

/-- Commas between groups of three, from the right, of reversed digits (`/repo/haiku/_src/summarise.py` 289). -/
def commas : Str → Str
  | a :: b :: c :: d :: rest => a :: b :: c :: ',' :: commas (d :: rest)
  | s => s

/-- `"{:,}".format(n)` (`/repo/haiku/_src/summarise.py` 289). -/
def thousands (n : Nat) : Str := (commas (natStr n).reverse).reverse

/-- What `format_call_stack`, `format_input` and `format_output` get from Python: class names, `repr` of a module, `pprint.pformat`
of arguments and outputs, and whether an output is `None` (`/repo/haiku/_src/summarise.py` 249-284). -/
structure Show (V : Type) where
  className : Nat → Str
  repr : Nat → Str
  input : V → Str
  output : V → Str
  isNone : V → Bool

/-- `format_call_stack.format_entry` (`/repo/haiku/_src/summarise.py` 264-271). -/
def formatEntry {V : Type} (env : Fixed) (sh : Show V) (d : Details) : Str :=
  if d.method = "__call__".toList then env.name d.module ++ " (".toList ++ sh.className d.module ++ ")".toList
  else env.name d.module ++ " (".toList ++ sh.className d.module ++ ".".toList ++ d.method ++ ")".toList

/-- `format_call_stack` (`/repo/haiku/_src/summarise.py` 262-273). -/
def formatCallStack {V : Type} (env : Fixed) (sh : Show V) (r : Invocation V) : Str :=
  join "\n └ ".toList (r.callStack.map (formatEntry env sh))

/-- `all_filters`: the names and what they keep (`/repo/haiku/_src/summarise.py` 276-279). -/
def allFilters {V : Type} (sh : Show V) : List (Str × (Invocation V → Bool)) :=
  [("has_output".toList, fun r => !sh.isNone r.output), ("has_params".toList, fun r => !r.details.params.isEmpty)]

/-- `Column` (`/repo/haiku/_src/summarise.py` 225-229). -/
structure Column (V : Type) where
  header : Str
  f : Invocation V → Except Err Str
  align : Str := "left".toList

/-- `all_columns` (`/repo/haiku/_src/summarise.py` 281-295). -/
def allColumns {V : Type} (env : Fixed) (sh : Show V) : List (Str × Column V) :=
  [("module".toList, { header := "Module".toList, f := fun r => .ok (formatCallStack env sh r) }),
   ("config".toList, { header := "Config".toList, f := fun r => .ok (sh.repr r.details.module) }),
   ("owned_params".toList, { header := "Module params".toList, f := fun r => formatOwnedParams (env.name r.details.module) r.details }),
   ("input".toList, { header := "Input".toList, f := fun r => .ok (sh.input r.args) }),
   ("output".toList, { header := "Output".toList, f := fun r => .ok (sh.output r.output) }),
   ("params_size".toList, { header := "Param count".toList, f := fun r => .ok (thousands (treeSize r.details.params)), align := "right".toList }),
   ("params_bytes".toList, { header := "Param bytes".toList, f := fun r => .ok (formatBytes (treeBytes r.details.params)), align := "right".toList })]

/-- What `generate_summary` returns: the text "No modules matching filters.", or the table that is handed to the library that draws
it (`/repo/haiku/_src/summarise.py` 377-383). -/
inductive Summary where
  | noModules
  | table (headers aligns : List Str) (rows : List (List Str))
deriving DecidableEq, Repr

/-- `all(filter.f(r) for filter in filters)` (`/repo/haiku/_src/summarise.py` 371); a filter asks `None` for an attribute. -/
def passes {V : Type} (filters : List (Invocation V → Bool)) : Option (Invocation V) → Except Err Bool
  | some r => .ok (filters.all fun f => f r)
  | none => if filters.isEmpty then .ok true else .error .attribute

/-- `[column.f(r) for column in columns]` (`/repo/haiku/_src/summarise.py` 374). -/
def row {V : Type} (r : Option (Invocation V)) : List (Column V) → Except Err (List Str)
  | [] => .ok []
  | c :: cs =>
    match r with
    | none => .error .attribute
    | some inv =>
      match c.f inv with
      | .error e => .error e
      | .ok s =>
        match row r cs with
        | .error e => .error e
        | .ok ss => .ok (s :: ss)

/-- The loop of `generate_summary` (`/repo/haiku/_src/summarise.py` 369-375). -/
def rowLoop {V : Type} (columns : List (Column V)) (filters : List (Invocation V → Bool)) :
    List (Option (Invocation V)) → List (List Str) → Except Err (List (List Str))
  | [], rows => .ok rows
  | r :: rs, rows =>
    match passes filters r with
    | .error e => .error e
    | .ok false => rowLoop columns filters rs rows
    | .ok true =>
      match row r columns with
      | .error e => .error e
      | .ok x => rowLoop columns filters rs (rows ++ [x])

/-- `generate_summary` (`/repo/haiku/_src/summarise.py` 367-383), of the invocations that `eval_summary` returned. -/
def generateSummary {V : Type} (columns : List (Column V)) (filters : List (Invocation V → Bool))
    (used : List (Option (Invocation V))) : Except Err Summary :=
  match rowLoop columns filters used [] with
  | .error e => .error e
  | .ok rows => if rows.isEmpty then .ok .noModules else .ok (.table (columns.map (·.header)) (columns.map (·.align)) rows)

/-- `tabulate(f, columns=…, filters=…)` (`/repo/haiku/_src/summarise.py` 346-365): an error, or the function from the invocations to
the summary; `none` is `None`, i.e. all columns or filters. -/
def tabulate {V : Type} (env : Fixed) (sh : Show V) (columns filters : Option (List Str)) :
    Except Err (List (Option (Invocation V)) → Except Err Summary) :=
  let columns := columns.getD ((allColumns env sh).map Prod.fst)
  let filters := filters.getD ((allFilters sh).map Prod.fst)
  if columns.any fun c => !Dict.has (allColumns env sh) c then .error .value
  else if filters.any fun f => !Dict.has (allFilters sh) f then .error .value
  else .ok (generateSummary (columns.filterMap fun c => Dict.get? (allColumns env sh) c) (filters.filterMap fun f => Dict.get? (allFilters sh) f))

end Verif.Summarise
