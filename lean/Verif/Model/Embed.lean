import Verif.Model.Mlp

/-!
# Embeddings

Models `Embed` of `/repo/haiku/_src/embed.py`.
-/

namespace Verif.Emb
open Verif.Shapes (Err)
open Verif.Pool (Arr)
open Verif.Mlp (ParamFn getParameter)

variable {K : Type}

/-- `EmbedLookupStyle` (`/repo/haiku/_src/embed.py` 35-38). -/
inductive LookupStyle where
  | arrayIndex
  | oneHot
  deriving DecidableEq, Repr

/-- A `lookup_style` argument: a string or a member of the enum (`/repo/haiku/_src/embed.py` 57, 127). -/
inductive StyleArg where
  | str (s : List Char)
  | style (s : LookupStyle)
  deriving DecidableEq, Repr

/-- `getattr(hk.EmbedLookupStyle, lookup_style.upper())` for a string (`/repo/haiku/_src/embed.py` 153-154).  Simplification: `upper` is that of ASCII letters. -/
def StyleArg.resolve : StyleArg → Except Err LookupStyle
  | .style s => .ok s
  | .str s =>
    if s.map Char.toUpper = "ARRAY_INDEX".toList then .ok .arrayIndex
    else if s.map Char.toUpper = "ONE_HOT".toList then .ok .oneHot
    else .error .attribute

/-- `lookup_style or self.lookup_style` (`/repo/haiku/_src/embed.py` 152): an empty string counts as not given. -/
def orDefault (given : Option StyleArg) (default : StyleArg) : StyleArg :=
  match given with
  | none => default
  | some (.str []) => default
  | some s => s

/-- An `Embed` object (`/repo/haiku/_src/embed.py` 114-117).  `matrix` is what `w_init` returns if a matrix was given. -/
structure Embed (K : Type) where
  vocabSize : Nat
  embedDim : Nat
  lookupStyle : StyleArg
  matrix : Option (Arr K)

/-- A size that is given and not 0, as Python's truth value has it (`/repo/haiku/_src/embed.py` 93, 100, 105). -/
def given : Option Nat → Option Nat
  | some 0 => none
  | o => o

/-- `Embed.__init__` (`/repo/haiku/_src/embed.py` 51-117).  `embedding_matrix.shape[0]` and `shape[1]` raise `IndexError` for arrays of too small a rank. -/
def Embed.make (vocabSize embedDim : Option Nat) (matrix : Option (Arr K)) (lookupStyle : StyleArg) : Except Err (Embed K) :=
  match matrix with
  | none =>
    match given vocabSize, given embedDim with
    | some v, some d => .ok ⟨v, d, lookupStyle, none⟩
    | _, _ => .error .value
  | some m =>
    match m.shape with
    | v :: d :: _ =>
      if (given vocabSize).any (· != v) then .error .value
      else if (given embedDim).any (· != d) then .error .value
      else .ok ⟨v, d, lookupStyle, some m⟩
    | [v] =>
      if (given vocabSize).any (· != v) then .error .value
      else .error .index
    | [] => .error .index

/-- The property `embeddings` (`/repo/haiku/_src/embed.py` 119-122). -/
def Embed.embeddings (get : ParamFn K) (e : Embed K) (module : String) : Except Err (Arr K) := getParameter get module "embeddings" [e.vocabSize, e.embedDim]

/-- The row that `x[(i,)]` reads, for an array with `v` rows (`/repo/haiku/_src/embed.py` 162): a negative index counts from the end, and one out of bounds is clamped. -/
def row (v : Nat) (i : Int) : Nat :=
  let i := if i < 0 then i + v else i
  (max 0 (min i (v - 1))).toNat

/-- `jax.nn.one_hot(ids, v)`, at `k` for the id `i`: 0 everywhere for an id out of bounds (`/repo/haiku/_src/embed.py` 165). -/
def oneHot [Zero K] [One K] (i : Int) (k : Nat) : K := if i = k then 1 else 0

/-- `Embed.__call__` (`/repo/haiku/_src/embed.py` 124-169), for `ids` of integer or other dtype. -/
def Embed.call [AddCommMonoid K] [MulOneClass K] (get : ParamFn K) (e : Embed K) (module : String) (ids : Arr Int) (isInt : Bool) (style : Option StyleArg) : Except Err (Arr K) :=
  if isInt = false then .error .value
  else do
    let s ← (orDefault style e.lookupStyle).resolve
    let m ← e.embeddings get module
    match s with
    | .arrayIndex => .ok ⟨ids.shape ++ [e.embedDim], fun i => m.val [row e.vocabSize (ids.val i.dropLast), i.getLastD 0]⟩
    | .oneHot => .ok ⟨ids.shape ++ [e.embedDim], fun i => ∑ k ∈ Finset.range e.vocabSize, m.val [k, i.getLastD 0] * oneHot (ids.val i.dropLast) k⟩

end Verif.Emb
