import Verif.Model.Machine

/-!
# `hk.experimental.optimize_rng_use`

Models `/repo/haiku/_src/random.py` 25-101 in three ways: as seen by one thread with the whole RNG interface (`RFun`), as seen by several threads
that share the global `base.next_rng_key_internal` (`Hook.*`), and for arbitrary programs (`optimizeM`).
-/

namespace Verif
open Names Frame

namespace Optimize

/-- What matters to RNG use in a thread: the global `base.next_rng_key_internal` as the chain of the counting wrappers around the original
(innermost wrapper first, each identified by its cell `count`; `/repo/haiku/_src/random.py` 31-39), the cells, the `rng_stack` of the
current frame (top first, `/repo/haiku/_src/base.py` 61).  Ghost: how often `next_rng_key` was called, and the keys handed out. -/
structure RState where
  hook : List Nat
  counts : List Nat
  rngs : List (Option PRNGSeq)
  requests : Nat
  log : List Key
  deriving DecidableEq, Repr

/-- `count[0] += 1` for one wrapper (`/repo/haiku/_src/random.py` 34). -/
def bump (counts : List Nat) (c : Nat) : List Nat := counts.set c (counts.getD c 0 + 1)

/-- `frame.rng_stack.peek()`; on an empty stack an IndexError (`/repo/haiku/_src/base.py` 572, 646). -/
def peek : M RState (Option PRNGSeq) := fun s =>
  match s.rngs with
  | [] => (.error .indexError, s)
  | r :: _ => (.ok r, s)

/-- The sequence object on top of the stack has changed (mutation in `/repo/haiku/_src/base.py` 524-568). -/
def poke (q : PRNGSeq) : M RState Unit := fun s =>
  match s.rngs with
  | [] => (.ok (), s)
  | _ :: tl => (.ok (), { s with rngs := some q :: tl })

/-- `rng_seq_or_fail` (`/repo/haiku/_src/base.py` 571-576). -/
def seqOrFail : M RState PRNGSeq := peek >>- fun r =>
  match r with
  | none => M.throw .noRng
  | some q => M.pure q

/-- `next(rng_seq)` (`/repo/haiku/_src/base.py` 559-562). -/
def draw (q : PRNGSeq) : M RState Key :=
  match q.next with
  | (some k, q') => poke q' >>- fun _ => M.modify (fun s => { s with log := s.log ++ [k] }) >>- fun _ => M.pure k
  | (none, q') => poke q' >>- fun _ => M.throw .indexError

/-- The original `next_rng_key_internal` (`/repo/haiku/_src/base.py` 617-619). -/
def baseNext : M RState Key := seqOrFail >>- draw

/-- `next_rng_key` (`/repo/haiku/_src/base.py` 602-613): looks up the global and calls it; each wrapper counts, then calls what it wraps
(`/repo/haiku/_src/random.py` 33-35). -/
def nextKey : M RState Key :=
  M.modify (fun s => { s with requests := s.requests + 1, counts := s.hook.foldl bump s.counts }) >>- fun _ => baseNext

/-- `next_rng_keys(num)` (`/repo/haiku/_src/base.py` 622-640). -/
def nextKeys (n : Int) : M RState (List Key) := seqOrFail >>- fun q =>
  poke (q.take n).2 >>- fun _ => M.modify (fun s => { s with log := s.log ++ (q.take n).1 }) >>- fun _ => M.pure (q.take n).1

/-- `maybe_next_rng_key` (`/repo/haiku/_src/base.py` 643-647). -/
def maybeNextKey : M RState (Option Key) := peek >>- fun r =>
  match r with
  | none => M.pure none
  | some q => draw q >>- fun k => M.pure (some k)

/-- `reserve_rng_keys(num)` (`/repo/haiku/_src/base.py` 579-599). -/
def reserveKeys (n : Int) : M RState Unit := seqOrFail >>- fun q => poke (q.reserve n)

/-- `with hk.with_rng(rng): m` (`/repo/haiku/_src/base.py` 762-780). -/
def withRng {α : Type} (q : PRNGSeq) (m : M RState α) : M RState α := fun s =>
  match m { s with rngs := some q :: s.rngs } with
  | (a, s') => (a, { s' with rngs := s'.rngs.tail })

/-- Lines 79-93 of `/repo/haiku/_src/random.py` with `count_hk_rngs_requested` (25-40): a new cell, the global replaced by the wrapper, the
function run by `jax.eval_shape` in a new context with a copy of the RNG state, and the global put back however that ends; gives the count.
Simplification: abstract evaluation is running the function; what it computes is dropped.  The ghost record of keys is not changed by it, as
nothing is computed from these keys. -/
def countRngs {α : Type} (m : M RState α) : M RState Nat := peek >>- fun r s =>
  match m { s with hook := s.counts.length :: s.hook, counts := s.counts ++ [0], rngs := [r.map fun q => PRNGSeq.ofState q.internalState] } with
  | (.ok _, s') => (.ok (s'.counts.getD s.counts.length 0), { s' with hook := s.hook, rngs := s.rngs, log := s.log })
  | (.error e, s') => (.error e, { s' with hook := s.hook, rngs := s.rngs, log := s.log })

/-- Lines 95-96 of `/repo/haiku/_src/random.py`: `if rng_count: ...peek().reserve(rng_count)`. -/
def reserveCount (n : Nat) : M RState Unit :=
  if n ≠ 0 then
    peek >>- fun r =>
    match r with
    | none => M.throw .noneReserve
    | some q => poke (q.reserve n)
  else M.pure ()

/-- The wrapper made by `optimize_rng_use(fun)` (`/repo/haiku/_src/random.py` 75-99), inside a transform. -/
def optimize {α : Type} (m : M RState α) : M RState α := countRngs m >>- fun n => reserveCount n >>- fun _ => m

/-- A user function as far as RNG use goes: calls of the RNG interface (`/repo/haiku/_src/base.py` 579-647, 762-780, `/repo/haiku/_src/random.py` 43);
what happens next may depend on what the call gave or raised (so exceptions may be caught). -/
inductive RFun where
  | ret (v : Val)
  | raise (e : Exc)
  | nextKey (k : Except Exc Key → RFun)
  | nextKeys (n : Int) (k : Except Exc (List Key) → RFun)
  | maybeNextKey (k : Except Exc (Option Key) → RFun)
  | reserve (n : Int) (k : Except Exc Unit → RFun)
  | withRng (q : PRNGSeq) (body : RFun) (k : Except Exc Val → RFun)
  | optimize (body : RFun) (k : Except Exc Val → RFun)

/-- Going on with the outcome of a call (Python's sequencing with try/except, as in user code of `/repo/haiku/_src/random.py` 98). -/
def andThen {α : Type} (m : M RState α) (k : Except Exc α → M RState Val) : M RState Val := fun s => k (m s).1 (m s).2

/-- Runs a user function (`/repo/haiku/_src/base.py` 579-647, 762-780, `/repo/haiku/_src/random.py` 43). -/
def RFun.run : RFun → M RState Val
  | .ret v => M.pure v
  | .raise e => M.throw e
  | .nextKey k => andThen Optimize.nextKey fun r => (k r).run
  | .nextKeys n k => andThen (Optimize.nextKeys n) fun r => (k r).run
  | .maybeNextKey k => andThen Optimize.maybeNextKey fun r => (k r).run
  | .reserve n k => andThen (reserveKeys n) fun r => (k r).run
  | .withRng q b k => andThen (Optimize.withRng q b.run) fun r => (k r).run
  | .optimize b k => andThen (Optimize.optimize b.run) fun r => (k r).run

end Optimize

/-! ### Several threads -/

namespace Hook

/-- What a thread does to the global hook, in atomic steps: `save` is lines 31-32 of `/repo/haiku/_src/random.py` (a new cell, the global read), `install`
line 37, `restore` line 40 and the reading of the count; `request` is a call of `next_rng_key` (`/repo/haiku/_src/base.py` 613), whose wrappers count
in one step (simplification). -/
inductive Act where
  | save
  | install
  | request
  | restore
  deriving DecidableEq, Repr

/-- The shared memory: the global `base.next_rng_key_internal` (the chain of wrappers, by their cells) and the cells (`/repo/haiku/_src/random.py` 31-40). -/
structure Shared where
  hook : List Nat
  counts : List Nat
  deriving DecidableEq, Repr

/-- One thread: what it still does, the regions it is in (cell and saved hook, innermost first), the counts it obtained
(`/repo/haiku/_src/random.py` 31-40, 93). -/
structure Thread where
  todo : List Act
  regions : List (Nat × List Nat)
  counted : List Nat
  deriving DecidableEq, Repr

/-- One step of a thread (`/repo/haiku/_src/random.py` 31-40; `/repo/haiku/_src/base.py` 613). -/
def Thread.step (t : Thread) (g : Shared) : Thread × Shared :=
  match t.todo with
  | [] => (t, g)
  | .save :: rest => (⟨rest, (g.counts.length, g.hook) :: t.regions, t.counted⟩, { g with counts := g.counts ++ [0] })
  | .install :: rest =>
    match t.regions with
    | [] => (⟨rest, [], t.counted⟩, g)
    | (c, orig) :: rs => (⟨rest, (c, orig) :: rs, t.counted⟩, { g with hook := c :: orig })
  | .request :: rest => (⟨rest, t.regions, t.counted⟩, { g with counts := g.hook.foldl Optimize.bump g.counts })
  | .restore :: rest =>
    match t.regions with
    | [] => (⟨rest, [], t.counted⟩, g)
    | (c, orig) :: rs => (⟨rest, rs, t.counted ++ [g.counts.getD c 0]⟩, { g with hook := orig })

/-- All threads and the shared memory (`/repo/haiku/_src/random.py` 25-40). -/
structure Sys where
  threads : Nat → Thread
  shared : Shared

/-- Thread `t` takes a step (the interpreter switching between threads; `/repo/haiku/_src/random.py` 25-40). -/
def Sys.step (S : Sys) (t : Nat) : Sys where
  threads u := if u = t then ((S.threads t).step S.shared).1 else S.threads u
  shared := ((S.threads t).step S.shared).2

/-- A schedule: which thread takes the next step (same). -/
def Sys.run (S : Sys) (schedule : List Nat) : Sys := schedule.foldl Sys.step S

/-- What the code of a thread amounts to: requests, and blocks `with count_hk_rngs_requested(): ...` (`/repo/haiku/_src/random.py` 91-92).  A block that is
left by an exception is one whose code ends there. -/
inductive Code where
  | request
  | region (body : List Code)

mutual
/-- The atomic steps of a piece of code (`/repo/haiku/_src/random.py` 31-40). -/
def Code.acts : Code → List Act
  | .request => [.request]
  | .region body => .save :: .install :: (actsList body ++ [.restore])

/-- The atomic steps of code in sequence (same). -/
def actsList : List Code → List Act
  | [] => []
  | c :: cs => c.acts ++ actsList cs
end

end Hook

/-! ### Arbitrary programs -/

section Generic
variable {σ : Type} (K : Mach σ)

/-- The wrapper made by `optimize_rng_use(fun)` (`/repo/haiku/_src/random.py` 75-99) on the machine for arbitrary programs: `frame.params or None`,
`frame.state or None` with the initial values, and the RNG state make a new context (79-89), in which the function is run once to count (91-93).
Simplifications: as at `Optimize.countRngs`; the keys handed out are counted, which is right for functions that draw keys with `next_rng_key` only. -/
def optimizeM (m : M σ Val) : M σ Val :=
  K.top (fun _ => M.get) >>- fun s =>
  K.inCtx (Ctx.new (if s.params = [] then none else some s.params) (if s.state = [] then none else some (extractState true s.state))
      (s.rng.map fun q => PRNGSeq.ofState q.internalState))
    (m >>- fun _ => K.top fun _ => M.get >>- fun s => M.pure s.log.length) >>- fun r =>
  match r.1 with
  | .error e => M.throw e
  | .ok n =>
    (if n ≠ 0 then
      K.top (fun _ s =>
        match s.rng with
        | none => (.error .noneReserve, s)
        | some q => (.ok (), { s with rng := some (q.reserve n) }))
    else M.pure ()) >>- fun _ => m

end Generic

end Verif
