import Verif.Model.Shapes

/-!
# Argument helpers

Models `replicate` and `get_channel_index` of `/repo/haiku/_src/utils.py`.
-/

namespace Verif.Utils
open Verif.Shapes (Err)

/-- An argument that may be one value or a sequence of values (`/repo/haiku/_src/utils.py` 121-123).  `scalar` also stands for strings and for arrays, which
are no `collections.Sequence`; the name `collections.Sequence` is taken to exist (Python before 3.10). -/
inductive Arg (α : Type) where
  | scalar (a : α)
  | seq (l : List α)
  deriving DecidableEq, Repr

/-- `replicate` (`/repo/haiku/_src/utils.py` 115-130); a tuple times a negative number is empty. -/
def replicate {α : Type} (element : Arg α) (numTimes : Int) : Except Err (List α) :=
  match element with
  | .scalar a => .ok (List.replicate numTimes.toNat a)
  | .seq l =>
    if l.length = 1 then .ok (List.replicate numTimes.toNat l).flatten
    else if (l.length : Int) = numTimes then .ok l
    else .error .type

/-- `[^c]*` followed by `c` and `$`, after the prefix has been matched (`/repo/haiku/_src/utils.py` 134-135): `$` matches at the end and before a final
newline. -/
def upToLast (c : Char) : List Char → Bool
  | [] => false
  | x :: xs => if x = c then xs = [] || xs = ['\n'] else upToLast c xs

/-- `_SPATIAL_CHANNELS_FIRST.match` (`/repo/haiku/_src/utils.py` 133): `[^C]*` takes any final newline itself. -/
def spatialChannelsFirst : List Char → Bool
  | 'N' :: 'C' :: cs => cs.all (· ≠ 'C')
  | _ => false

/-- `_SPATIAL_CHANNELS_LAST.match` (`/repo/haiku/_src/utils.py` 134). -/
def spatialChannelsLast : List Char → Bool
  | 'N' :: cs => upToLast 'C' cs
  | _ => false

/-- `_SEQUENTIAL.match` (`/repo/haiku/_src/utils.py` 135). -/
def sequential : List Char → Bool
  | 'B' :: 'T' :: cs => upToLast 'D' cs
  | 'T' :: 'B' :: cs => upToLast 'D' cs
  | _ => false

/-- `get_channel_index` (`/repo/haiku/_src/utils.py` 138-165). -/
def getChannelIndex (dataFormat : List Char) : Except Err Int :=
  if dataFormat = "channels_first".toList then .ok 1
  else if dataFormat = "channels_last".toList then .ok (-1)
  else if spatialChannelsFirst dataFormat then .ok 1
  else if spatialChannelsLast dataFormat then .ok (-1)
  else if sequential dataFormat then .ok (-1)
  else .error .value

end Verif.Utils
