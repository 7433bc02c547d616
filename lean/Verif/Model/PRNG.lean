/-!
# `hk.PRNGSequence`

Models `/repo/haiku/_src/base.py` 35 and 475-568.

Keys are symbolic: a key is the path of splits that produced it, so `jax.random.split` never collides.
-/

namespace Verif

/-- A JAX PRNG key.  `root n` is `jax.random.PRNGKey(n)`; `child k m i` is `jax.random.split(k, m)[i]`
(`/repo/haiku/_src/base.py` 518, 535).  Simplification: keys are their derivation, i.e. splitting is ideal. -/
inductive Key where
  | root (seed : Int)
  | child (parent : Key) (num idx : Nat)
  deriving DecidableEq, Repr

/-- `tuple(jax.random.split(key, num))` (`/repo/haiku/_src/base.py` 535). -/
def jaxSplit (k : Key) (num : Nat) : List Key := (List.range num).map (Key.child k num)

/-- A `PRNGSequence` object: the slots `_key` and `_subkeys` (`/repo/haiku/_src/base.py` 505). -/
structure PRNGSeq where
  key : Key
  subkeys : List Key
  deriving DecidableEq, Repr

/-- `DEFAULT_PRNG_RESERVE_SIZE = 1` (`/repo/haiku/_src/base.py` 35). -/
def defaultReserve : Nat := 1

namespace PRNGSeq

/-- `PRNGSequence(key)` for a key that passes `assert_is_prng_key` (`/repo/haiku/_src/base.py` 516-522). -/
def ofKey (k : Key) : PRNGSeq := ⟨k, []⟩

/-- `PRNGSequence(seed)` for a Python int (`/repo/haiku/_src/base.py` 517-518). -/
def ofSeed (n : Int) : PRNGSeq := ofKey (Key.root n)

/-- `PRNGSequence((key, subkeys))` (`/repo/haiku/_src/base.py` 509-515). -/
def ofState (st : Key × List Key) : PRNGSeq := ⟨st.1, st.2⟩

/-- `seq.reserve(num)` (`/repo/haiku/_src/base.py` 524-537).  The `[]` case is `new_keys[0]` on an empty
tuple, which cannot happen since `num + 1 ≥ 1`. -/
def reserve (s : PRNGSeq) (num : Int) : PRNGSeq :=
  if num > 0 then
    match jaxSplit s.key (num.toNat + 1) with
    | [] => s
    | k0 :: rest => ⟨k0, s.subkeys ++ rest⟩
  else s

/-- `seq.reserve_up_to_full()` (`/repo/haiku/_src/base.py` 539-545). -/
def reserveUpToFull (s : PRNGSeq) : PRNGSeq :=
  let num : Int := (defaultReserve : Int) - s.subkeys.length
  if num > 0 then s.reserve num
  else { s with subkeys := s.subkeys.take defaultReserve }

/-- `seq.internal_state` (`/repo/haiku/_src/base.py` 547-549). -/
def internalState (s : PRNGSeq) : Key × List Key := (s.key, s.subkeys)

/-- `seq.replace_internal_state(state)` for a state made of valid keys (`/repo/haiku/_src/base.py` 551-557). -/
def replaceInternalState (_s : PRNGSeq) (st : Key × List Key) : PRNGSeq := ⟨st.1, st.2⟩

/-- `next(seq)` (`/repo/haiku/_src/base.py` 559-562).  `none` is the `IndexError` of `popleft` on an empty deque. -/
def next (s : PRNGSeq) : Option Key × PRNGSeq :=
  let s' := if s.subkeys = [] then s.reserve defaultReserve else s
  match s'.subkeys with
  | k :: ks => (some k, { s' with subkeys := ks })
  | [] => (none, s')

/-- `tuple(next(self) for _ in range(n))`, used in `take` (`/repo/haiku/_src/base.py` 568). -/
def nextN (s : PRNGSeq) : Nat → List Key × PRNGSeq
  | 0 => ([], s)
  | n + 1 =>
    match s.next with
    | (some k, s') => let r := nextN s' n; (k :: r.1, r.2)
    | (none, s') => ([], s')

/-- `seq.take(num)` (`/repo/haiku/_src/base.py` 566-568). -/
def take (s : PRNGSeq) (num : Int) : List Key × PRNGSeq :=
  (s.reserve (max (num - s.subkeys.length) 0)).nextN num.toNat

end PRNGSeq

/-- The public operations of a `PRNGSequence` (`/repo/haiku/_src/base.py` 524-568). -/
inductive SeqOp where
  | next
  | take (num : Int)
  | reserve (num : Int)
  | reserveUpToFull
  deriving DecidableEq, Repr

/-- One operation: the keys handed to the caller and the new sequence (`/repo/haiku/_src/base.py` 524-568). -/
def SeqOp.step (s : PRNGSeq) : SeqOp → List Key × PRNGSeq
  | .next => let r := s.next; (r.1.toList, r.2)
  | .take n => s.take n
  | .reserve n => ([], s.reserve n)
  | .reserveUpToFull => ([], s.reserveUpToFull)

/-- A history of operations: all keys handed out, in order, and the final sequence
(`/repo/haiku/_src/base.py` 491-568). -/
def SeqOp.run (s : PRNGSeq) : List SeqOp → List Key × PRNGSeq
  | [] => ([], s)
  | op :: ops =>
    let r := op.step s
    let r' := SeqOp.run r.2 ops
    (r.1 ++ r'.1, r'.2)

end Verif
