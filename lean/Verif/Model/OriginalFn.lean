import Verif.Model.Names

/-!
# The function behind a transformed function

Function objects carry the attribute `_original_fn`.  A program is a list of calls of `transform`, `transform_with_state`, `without_state` and `without_apply_rng`, each on functions of the user or on results of earlier calls.
-/

namespace Verif.OriginalFn

/-- Function objects: those of the user, and `init_fn` and `apply_fn` created in the call number `k` of one of the four functions (`/repo/haiku/_src/transform.py` 110, 117, 134, 139, 273, 284).  `transform` makes two of each in one call; the inner ones are
`innerInit` and `innerApply`. -/
inductive Fn where
  | user (n : Nat)
  | init (k : Nat)
  | apply (k : Nat)
  | innerInit (k : Nat)
  | innerApply (k : Nat)
  deriving DecidableEq, Repr

/-- `Transformed` and `TransformedWithState` (`/repo/haiku/_src/transform.py` 36-66). -/
structure Pair where
  withState : Bool
  init : Fn
  apply : Fn
  deriving DecidableEq, Repr

/-- What the four functions are called with. -/
inductive Value where
  | fn (f : Fn)
  | pair (p : Pair)
  deriving DecidableEq, Repr

/-- The attributes `_original_fn`, the last one set first (`/repo/haiku/_src/transform.py` 309-310). -/
abbrev Attrs := List (Fn × Value)

/-- `getattr(f, "_original_fn")`; `none` is the `AttributeError` (`/repo/haiku/_src/transform.py` 308, 316). -/
def getAttr (a : Attrs) (f : Fn) : Option Value := (a.find? fun q => q.1 == f).map Prod.snd

/-- `tie_in_original_fn` (`/repo/haiku/_src/transform.py` 305-310). -/
def tieIn (f : Value) (init apply : Fn) (a : Attrs) : Option Attrs :=
  match f with
  | .pair p => (getAttr a p.init).map fun g => (apply, g) :: (init, g) :: a
  | .fn g => some ((apply, .fn g) :: (init, .fn g) :: a)

/-- `get_original_fn` (`/repo/haiku/_src/transform.py` 313-316). -/
def getOriginal (a : Attrs) : Value → Option Value
  | .pair p => getAttr a p.init
  | .fn g => getAttr a g

/-- `transform_with_state` (`/repo/haiku/_src/transform.py` 271-302), creating the functions `i` and `ap`. -/
def transformWithState (f : Value) (i ap : Fn) (a : Attrs) : Option (Pair × Attrs) :=
  (tieIn f i ap a).map fun a => (⟨true, i, ap⟩, a)

/-- `without_state` (`/repo/haiku/_src/transform.py` 110-126).  Simplification: for something that is no pair, the result, whose functions fail when called, is a failure. -/
def withoutState (f : Value) (k : Nat) (a : Attrs) : Option (Pair × Attrs) :=
  match f with
  | .fn _ => none
  | .pair p => (tieIn (.pair p) (.init k) (.apply k) a).map fun a => (⟨false, .init k, .apply k⟩, a)

/-- `without_apply_rng` (`/repo/haiku/_src/transform.py` 132-148): `init` is the one of the argument. -/
def withoutApplyRng (f : Value) (k : Nat) (a : Attrs) : Option (Pair × Attrs) :=
  match f with
  | .fn _ => none
  | .pair p => (tieIn (.pair p) p.init (.apply k) a).map fun a => (⟨true, p.init, .apply k⟩, a)

/-- `transform` (`/repo/haiku/_src/transform.py` 229). -/
def transform (f : Value) (k : Nat) (a : Attrs) : Option (Pair × Attrs) :=
  match transformWithState f (.innerInit k) (.innerApply k) a with
  | none => none
  | some (p, a) => withoutState (.pair p) k a

/-- Arguments of calls: a function of the user, the result of an earlier call, or one of its two functions. -/
inductive Arg where
  | user (n : Nat)
  | result (k : Nat)
  | initOf (k : Nat)
  | applyOf (k : Nat)
  deriving DecidableEq, Repr

/-- The calls (`/repo/haiku/_src/transform.py` 88-302). -/
inductive Call where
  | transform (f : Arg)
  | transformWithState (f : Arg)
  | withoutState (f : Arg)
  | withoutApplyRng (f : Arg)
  deriving DecidableEq, Repr

/-- The value of an argument after the calls with the given results. -/
def Arg.value (res : List Pair) : Arg → Option Value
  | .user n => some (.fn (.user n))
  | .result k => res[k]?.map .pair
  | .initOf k => res[k]?.map fun p => .fn p.init
  | .applyOf k => res[k]?.map fun p => .fn p.apply

/-- The call number `k` (`/repo/haiku/_src/transform.py` 88-302). -/
def Call.run (res : List Pair) (k : Nat) (a : Attrs) : Call → Option (Pair × Attrs)
  | .transform f => (f.value res).bind fun v => OriginalFn.transform v k a
  | .transformWithState f => (f.value res).bind fun v => OriginalFn.transformWithState v (.init k) (.apply k) a
  | .withoutState f => (f.value res).bind fun v => OriginalFn.withoutState v k a
  | .withoutApplyRng f => (f.value res).bind fun v => OriginalFn.withoutApplyRng v k a

/-- The results of calls one after another, and the attributes after them. -/
def runCalls : List Call → List Pair → Attrs → Option (List Pair × Attrs)
  | [], res, a => some (res, a)
  | c :: cs, res, a => match c.run res res.length a with
    | none => none
    | some (p, a) => runCalls cs (res ++ [p]) a

end Verif.OriginalFn
