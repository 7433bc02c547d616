import Verif.Model.Conv

/-!
# Pooling

Models `/repo/haiku/_src/pool.py`.
-/

namespace Verif.Pool
open Verif.Shapes (Err)
open Verif.Utils
open Verif.Conv (outSize stringPad indices)

variable {α : Type}

/-- `_infer_shape` for an input of rank `ndim` (`/repo/haiku/_src/pool.py` 32-50); `None` and 0 are both false at lines 39 and 41. -/
def inferShape (ndim : Nat) (size : Arg Int) (channelAxis : Option Int) : Except Err (List Int) :=
  match size with
  | .scalar size =>
    let c := channelAxis.getD 0
    if c ≠ 0 ∧ ¬ (c.natAbs < ndim) then .error .value
    else
      let c := if c < 0 then ndim + c else c
      .ok (1 :: (List.range' 1 (ndim - 1)).map fun (d : Nat) => if channelAxis ≠ none ∧ (d : Int) = c then 1 else size)
  | .seq size =>
    if size.length < ndim then .ok (List.replicate (ndim - size.length) 1 ++ size)
    else if ndim = size.length then .ok size
    else .error .assertion

/-- An array: its shape and its elements (`value` at `/repo/haiku/_src/pool.py` 75); positions outside the shape carry no data. -/
structure Arr (α : Type) where
  shape : List Nat
  val : List Nat → α

/-- What `lax.reduce_window` computes for the padding string (`true` is `"SAME"`), per dimension (`/repo/haiku/_src/pool.py` 101, 136). -/
def pads (isSame : Bool) : List Nat → List Int → List Int → List (Int × Int)
  | n :: ns, k :: ks, s :: ss => stringPad isSame n k s :: pads isSame ns ks ss
  | _, _, _ => []

/-- Shape of the result of `lax.reduce_window` (`/repo/haiku/_src/pool.py` 101, 136). -/
def outShape : List Nat → List Int → List Int → List (Int × Int) → List Nat
  | n :: ns, k :: ks, s :: ss, p :: ps => (outSize n k s p.1 p.2).toNat :: outShape ns ks ss ps
  | _, _, _, _ => []

/-- The element that window position `j` reads for output `t`, if it is not padding (`lax.reduce_window`, `/repo/haiku/_src/pool.py` 101, 136). -/
def place : List Nat → List Int → List (Int × Int) → List Nat → List Nat → Option (List Nat)
  | n :: ns, s :: ss, p :: ps, t :: ts, j :: js =>
    let q := (t : Int) * s - p.1 + j
    if 0 ≤ q ∧ q < n then (place ns ss ps ts js).map (q.toNat :: ·) else none
  | [], [], [], [], [] => some []
  | _, _, _, _, _ => none

/-- `lax.reduce_window` (called at `/repo/haiku/_src/pool.py` 101, 136, 144): padding reads as the initial value; windows and strides must be positive and have the rank of the
input (else a `TypeError`). -/
def reduceWindow (x : Arr α) (init : α) (op : α → α → α) (window strides : List Int) (isSame : Bool) : Except Err (Arr α) :=
  if window.any (· ≤ 0) ∨ strides.any (· ≤ 0) ∨ window.length ≠ x.shape.length ∨ strides.length ≠ x.shape.length then .error .type
  else
    let ps := pads isSame x.shape window strides
    .ok ⟨outShape x.shape window strides ps, fun t =>
      (indices (window.map Int.toNat)).foldr (fun j acc => op (((place x.shape strides ps t j).map x.val).getD init) acc) init⟩

/-- The `padding` argument: `"SAME"` is true, `"VALID"` false, anything else a `ValueError` (`/repo/haiku/_src/pool.py` 95-96, 128-129). -/
def paddingOf (padding : List Char) : Except Err Bool :=
  if padding = "SAME".toList then .ok true
  else if padding = "VALID".toList then .ok false
  else .error .value

/-- `max_pool` (`/repo/haiku/_src/pool.py` 74-102); `bot` is `-jnp.inf`, so integer arrays are not modelled. -/
def maxPool [Max α] (bot : α) (x : Arr α) (window strides : Arg Int) (padding : List Char) (channelAxis : Option Int) : Except Err (Arr α) := do
  let p ← paddingOf padding
  let ks ← inferShape x.shape.length window channelAxis
  let ss ← inferShape x.shape.length strides channelAxis
  reduceWindow x bot max ks ss p

/-- `avg_pool` (`/repo/haiku/_src/pool.py` 105-146), in exact arithmetic. -/
def avgPool [Zero α] [One α] [Add α] [Div α] [NatCast α] (x : Arr α) (window strides : Arg Int) (padding : List Char) (channelAxis : Option Int) : Except Err (Arr α) := do
  let p ← paddingOf padding
  let ks ← inferShape x.shape.length window channelAxis
  let ss ← inferShape x.shape.length strides channelAxis
  let pooled ← reduceWindow x 0 (· + ·) ks ss p
  if p then
    let counts ← reduceWindow ⟨x.shape, fun _ => 1⟩ 0 (· + ·) ks ss p
    return ⟨pooled.shape, fun t => pooled.val t / counts.val t⟩
  else
    return ⟨pooled.shape, fun t => pooled.val t / ((Verif.Shapes.size (ks.map Int.toNat) : Nat) : α)⟩

end Verif.Pool
