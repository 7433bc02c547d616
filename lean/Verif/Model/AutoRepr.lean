import Verif.Base.Dict

/-!
# The text of a module

Models `auto_repr`, `compare_or_false`, `fancy_repr` and `indent` (`/repo/haiku/_src/utils.py` 30-112), which every construction of a module runs (`/repo/haiku/_src/module.py` 138).
-/

namespace Verif.AutoRepr

/-! ### The call that a text shows -/

/-- `inspect.getfullargspec` (`/repo/haiku/_src/utils.py` 65) without annotations: positional parameters (with `self`), whether there are `*args` and `**kwargs`, the defaults of the last positional parameters, and
the parameters that are only taken by keyword with their defaults. -/
structure ArgSpec (V : Type) where
  args : List String
  varargs : Bool
  varkw : Bool
  defaults : List V
  kwonly : List (String × Option V)

variable {V : Type}

/-- `compare_or_false` (`/repo/haiku/_src/utils.py` 30-38): `eq` is `bool(a == b)`, which may raise. -/
def compareOrFalse (eq : V → V → Option Bool) (a b : V) : Bool := (eq a b).getD false

/-- `defaults` (`/repo/haiku/_src/utils.py` 74-75): the default of a parameter.  Without defaults `argspec.args[-0:]` is all of them, but `zip` stops at once. -/
def ArgSpec.default (spec : ArgSpec V) (name : String) : Option V :=
  Dict.get? ((spec.args.drop (if spec.defaults.length = 0 then 0 else spec.args.length - spec.defaults.length)).zip spec.defaults) name

/-- The default that a call uses for the positional parameter `i` (`/repo/haiku/_src/utils.py` 71: `inspect.getcallargs`): the defaults are those of the last parameters. -/
def ArgSpec.defaultAt (spec : ArgSpec V) (i : Nat) : Option V := if spec.args.length ≤ i + spec.defaults.length then spec.defaults[i + spec.defaults.length - spec.args.length]? else none

/-- What a call binds the parameters to: the positional ones in order, those only taken by keyword in order, and what `*args` and `**kwargs` get (`/repo/haiku/_src/utils.py` 71). -/
structure Bound (V : Type) where
  args : List V
  kwonly : List V
  rest : List V
  restKw : Dict String V

/-- The value of a positional parameter in a call (`/repo/haiku/_src/utils.py` 71: `inspect.getcallargs`); `none` if it is missing or given twice. -/
def ArgSpec.argValue (spec : ArgSpec V) (pos : List V) (kw : Dict String V) (i : Nat) (name : String) : Option V :=
  match pos[i]? with
  | some v => if kw.has name then none else some v
  | none => (kw.get? name).or (spec.defaultAt i)

/-- All of them, or `none` if one is missing, when `inspect.getcallargs` raises (`/repo/haiku/_src/utils.py` 71). -/
def sequence : List (Option V) → Option (List V)
  | [] => some []
  | none :: _ => none
  | some v :: l => (sequence l).map (v :: ·)

/-- `inspect.getcallargs` (`/repo/haiku/_src/utils.py` 71), which binds as a call does; `none` if it raises `TypeError`. -/
def ArgSpec.bind (spec : ArgSpec V) (pos : List V) (kw : Dict String V) : Option (Bound V) :=
  let restKw := kw.filter fun p => !(spec.args ++ spec.kwonly.map Prod.fst).contains p.1
  if !restKw.isEmpty && !spec.varkw then none
  else if pos.length > spec.args.length && !spec.varargs then none
  else
    match sequence (spec.args.mapIdx fun i a => spec.argValue pos kw i a), sequence (spec.kwonly.map fun p => (kw.get? p.1).or p.2) with
    | some args, some kwonly => some ⟨args, kwonly, pos.drop spec.args.length, restKw⟩
    | _, _ => none

/-- `l[i:]` for an integer that may be negative (`/repo/haiku/_src/utils.py` 81). -/
def sliceFrom (l : List V) (i : Int) : List V := if i < 0 then l.drop (l.length - i.natAbs) else l.drop i.toNat

/-- `names_and_values` (`/repo/haiku/_src/utils.py` 65-84): the arguments that are shown, with their keyword unless they are positional.  `none_` stands for `self` in `getcallargs`; `none` if that raises. -/
def namesAndValues (eq : V → V → Option Bool) (none_ : V) (spec : ArgSpec V) (args : List V) (kwargs : Dict String V) : Option (List (Option String × V)) :=
  let argNames := (spec.args.drop 1).take args.length ++ spec.args.filter fun n => kwargs.has n
  (spec.bind (none_ :: args) kwargs).map fun bound =>
    let argValues := spec.args.zip bound.args
    let isDefault := fun n v => match spec.default n with | some d => compareOrFalse eq v d | none => false
    (argNames.filterMap fun n => (Dict.get? argValues n).bind fun v => if isDefault n v then none else some (some n, v)) ++
      (sliceFrom args ((spec.args.length : Int) - 1)).map (fun a => (none, a)) ++
      (kwargs.filter fun p => !spec.args.contains p.1).map fun p => (some p.1, p.2)

/-! ### Layout -/

/-- The characters at which `str.splitlines` (`/repo/haiku/_src/utils.py` 112) splits. -/
def isBreak (c : Char) : Bool := [10, 11, 12, 13, 28, 29, 30, 133, 8232, 8233].contains c.toNat

/-- `str.splitlines` (`/repo/haiku/_src/utils.py` 112): `line` is what was read of the current line; a carriage return and a line feed together are one break. -/
def splitLinesFrom : List Char → List Char → List (List Char)
  | line, [] => if line.isEmpty then [] else [line]
  | line, '\r' :: '\n' :: s => line :: splitLinesFrom [] s
  | line, c :: s => if isBreak c then line :: splitLinesFrom [] s else splitLinesFrom (line ++ [c]) s

/-- `s.splitlines()` (`/repo/haiku/_src/utils.py` 112). -/
def splitLines (s : List Char) : List (List Char) := splitLinesFrom [] s

/-- `sep.join` (`/repo/haiku/_src/utils.py` 86, 93, 112). -/
def join (sep : List Char) : List (List Char) → List Char
  | [] => []
  | [s] => s
  | s :: l => s ++ sep ++ join sep l

/-- `indent` (`/repo/haiku/_src/utils.py` 109-112). -/
def indent (amount : Nat) (s : List Char) : List Char := join ['\n'] ((splitLines s).map fun line => List.replicate amount ' ' ++ line)

end Verif.AutoRepr
