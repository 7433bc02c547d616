import Verif.Model.Ema
import Verif.Model.Names
import Verif.Model.SpectralNorm

/-!
# Averages and spectral normalisation of a tree of parameters

Models `EMAParamsTree` of `/repo/haiku/_src/moving_averages.py` and `SNParamsTree` of `/repo/haiku/_src/spectral_norm.py`, which differ only in the module that is made for every
parameter and in the text that replaces `~`.
-/

namespace Verif.PTree
open Verif.Names (Scope request sCall)
open Verif.Shapes (Err)
open Verif.Pool (Arr)

variable {S V : Type}

/-- A tree of parameters, by module and parameter name (`/repo/haiku/_src/moving_averages.py` 209-213). -/
abbrev Params (V : Type) := Dict Str (Dict Str V)

/-- What goes wrong: the construction of a module, or its call (`/repo/haiku/_src/moving_averages.py` 203-205). -/
inductive Fail where
  | naming (e : Exc)
  | leaf (e : Err)
  deriving DecidableEq

/-- `s.replace(c, t)` for a single character `c` (`/repo/haiku/_src/moving_averages.py` 202). -/
def replaceChar (c : Char) (t : Str) (s : Str) : Str := s.flatMap fun d => if d = c then t else [d]

/-- An `EMAParamsTree` or `SNParamsTree` object with the name it got (`/repo/haiku/_src/moving_averages.py` 191-195, `/repo/haiku/_src/spectral_norm.py` 184-187).
`ignore` stands for `self.ignore_regex and re.match(self.ignore_regex, k)`; `leaf` is the module made for one parameter, as a function of its state (`none` if it has none), the value and `update_stats`. -/
structure ParamsTree (S V : Type) where
  name : Str
  tilde : Str
  ignore : Str → Bool
  leaf : Option S → V → Bool → Except Err (V × S)

/-- `"/".join([module_name, k])` (`/repo/haiku/_src/moving_averages.py` 211). -/
def key (m p : Str) : Str := m ++ '/' :: p

/-- `ema_name`, `sn_name` (`/repo/haiku/_src/moving_averages.py` 202, `/repo/haiku/_src/spectral_norm.py` 194). -/
def ParamsTree.mangle (t : ParamsTree S V) (k : Str) : Str := replaceChar '~' t.tilde (replaceChar '/' ['_', '_'] k)

/-- `maybe_ema(k, v)` (`/repo/haiku/_src/moving_averages.py` 198-205, `/repo/haiku/_src/spectral_norm.py` 190-196): the names given so far in this call and the states by module name are threaded through. -/
def ParamsTree.maybe (t : ParamsTree S V) (update : Bool) (k : Str) (v : V) (s : Scope × Dict Str S) : Except Fail (V × (Scope × Dict Str S)) :=
  if t.ignore k then .ok (v, s)
  else
    match request (some (t.name, sCall)) s.1 (t.mangle k) with
    | (.error e, _) => .error (.naming e)
    | (.ok q, sc) =>
      match t.leaf (s.2.get? q) v update with
      | .error e => .error (.leaf e)
      | .ok (v', s') => .ok (v', (sc, s.2.set q s'))

/-- The dictionary comprehension over the parameters of a module (`/repo/haiku/_src/moving_averages.py` 210-213). -/
def ParamsTree.params (t : ParamsTree S V) (update : Bool) (m : Str) : Dict Str V → Scope × Dict Str S → Except Fail (Dict Str V × (Scope × Dict Str S))
  | [], s => .ok ([], s)
  | (p, v) :: rest, s => do
    let (v', s) ← t.maybe update (key m p) v s
    let (rest', s) ← t.params update m rest s
    .ok ((p, v') :: rest', s)

/-- The loop over the modules (`/repo/haiku/_src/moving_averages.py` 208-213). -/
def ParamsTree.modules (t : ParamsTree S V) (update : Bool) : Params V → Scope × Dict Str S → Except Fail (Params V × (Scope × Dict Str S))
  | [], s => .ok ([], s)
  | (m, d) :: rest, s => do
    let (d', s) ← t.params update m d s
    let (rest', s) ← t.modules update rest s
    .ok ((m, d') :: rest', s)

/-- `__call__` (`/repo/haiku/_src/moving_averages.py` 197-214, `/repo/haiku/_src/spectral_norm.py` 189-205).  A method call starts with no names given (`/repo/haiku/_src/base.py` 97-98).
Simplification: `to_immutable_dict` is left out. -/
def ParamsTree.call (t : ParamsTree S V) (st : Dict Str S) (tree : Params V) (update : Bool) : Except Fail (Params V × Dict Str S) := do
  let (out, s) ← t.modules update tree (.empty, st)
  .ok (out, s.2)

/-- A history of calls (`/repo/haiku/_src/moving_averages.py` 197-214, called any number of times, each in its own `apply`). -/
def ParamsTree.after (t : ParamsTree S V) (st : Dict Str S) : List (Params V × Bool) → Except Fail (Dict Str S)
  | [] => .ok st
  | (tree, u) :: rest => do
    let (_, st) ← t.call st tree u
    t.after st rest

/-- `EMAParamsTree` (`/repo/haiku/_src/moving_averages.py` 140-214). -/
def ema {K : Type} [Field K] (name : Str) (decay : K) (zeroDebias : Bool) (warmupLength : Int) (ignore : Str → Bool) : ParamsTree (Ema.State K) K :=
  ⟨name, "_tilde_".toList, ignore, fun s v u => do
    let m ← Ema.EMA.make decay zeroDebias warmupLength
    .ok (m.call (s.getD Ema.State.empty) v u)⟩

/-- `SNParamsTree` (`/repo/haiku/_src/spectral_norm.py` 160-205). -/
def sn {K : Type} [Field K] (name : Str) (eps : K) (nSteps : Int) (rsqrt : K → K) (init : List Nat → Arr K) (ignore : Str → Bool) : ParamsTree (Spectral.State K) (Arr K) :=
  ⟨name, "_tilde".toList, ignore, fun s v u => (⟨eps, nSteps⟩ : Spectral.SpectralNorm K).call rsqrt init (s.getD ⟨none, none⟩) v u false⟩

end Verif.PTree
