import Verif.Base.Dict
import Verif.Lemmas.PRNG
import Verif.Model.OptimizeRng

/-!
# `optimize_rng_use` (C39, C40)
-/

set_option linter.unusedVariables false

namespace Verif.Props.OptimizeRng
open Verif Optimize

/-! ### Counting wrappers -/

theorem bump_length (l : List Nat) (c : Nat) : (bump l c).length = l.length := by
  unfold bump
  exact List.length_set

theorem bump_get (l : List Nat) (c d : Nat) (h : c < l.length) : (bump l c).getD d 0 = l.getD d 0 + if d = c then 1 else 0 := by
  unfold bump
  simp only [List.getD_eq_getElem?_getD, List.getElem?_set]
  by_cases e : d = c
  · subst e
    simp [h]
  · simp [e, Ne.symm e]

theorem bumps_length (hook : List Nat) : ∀ l : List Nat, (hook.foldl bump l).length = l.length := by
  induction hook with
  | nil => intro l; rfl
  | cons c cs ih => intro l; exact (ih _).trans (bump_length l c)

theorem bumps_get (hook : List Nat) : ∀ (l : List Nat) (d : Nat), hook.Nodup → (∀ c ∈ hook, c < l.length) →
    (hook.foldl bump l).getD d 0 = l.getD d 0 + if d ∈ hook then 1 else 0 := by
  induction hook with
  | nil => intro l d _ _; simp
  | cons c cs ih =>
    intro l d hn hl
    obtain ⟨hc, hn⟩ := List.nodup_cons.1 hn
    rw [List.foldl_cons, ih (bump l c) d hn (fun x hx => by rw [bump_length]; exact hl x (List.mem_cons_of_mem _ hx)), bump_get l c d (hl c List.mem_cons_self)]
    by_cases e : d = c
    · subst e
      simp [hc]
    · simp [e]

/-! ### Specification -/

/-- The wrappers around the original are different ones, and their cells exist. -/
def Installed (s : RState) : Prop := s.hook.Nodup ∧ ∀ c ∈ s.hook, c < s.counts.length

/-- The function calls `next_rng_key` exactly `n` times and then returns (`e = true`) or raises (`e = false`), whatever keys it gets, as long as an
RNG is in force.  A nested `optimize_rng_use` runs its function twice if it returns. -/
inductive Repeats : RFun → Nat → Bool → Prop
  | ret (v : Val) : Repeats (.ret v) 0 true
  | raise (x : Exc) : Repeats (.raise x) 0 false
  | nextKey {k : Except Exc Key → RFun} {n : Nat} {e : Bool} : (∀ a, Repeats (k (.ok a)) n e) → Repeats (.nextKey k) (n + 1) e
  | nextKeys {m : Int} {k : Except Exc (List Key) → RFun} {n : Nat} {e : Bool} : (∀ a, Repeats (k (.ok a)) n e) → Repeats (.nextKeys m k) n e
  | maybeNextKey {k : Except Exc (Option Key) → RFun} {n : Nat} {e : Bool} : (∀ a, Repeats (k (.ok (some a))) n e) → Repeats (.maybeNextKey k) n e
  | reserve {m : Int} {k : Except Exc Unit → RFun} {n : Nat} {e : Bool} : Repeats (k (.ok ())) n e → Repeats (.reserve m k) n e
  | withRng {q : PRNGSeq} {b : RFun} {k : Except Exc Val → RFun} {m n : Nat} {e : Bool} : Repeats b m true → (∀ v, Repeats (k (.ok v)) n e) → Repeats (.withRng q b k) (m + n) e
  | withRngRaises {q : PRNGSeq} {b : RFun} {k : Except Exc Val → RFun} {m n : Nat} {e : Bool} : Repeats b m false → (∀ x, Repeats (k (.error x)) n e) → Repeats (.withRng q b k) (m + n) e
  | optimize {b : RFun} {k : Except Exc Val → RFun} {m n : Nat} {e : Bool} : Repeats b m true → (∀ v, Repeats (k (.ok v)) n e) → Repeats (.optimize b k) (m + m + n) e
  | optimizeRaises {b : RFun} {k : Except Exc Val → RFun} {m n : Nat} {e : Bool} : Repeats b m false → (∀ x, Repeats (k (.error x)) n e) → Repeats (.optimize b k) (m + n) e

/-- The outcome is a value. -/
def returned {α : Type} : Except Exc α → Bool
  | .ok _ => true
  | .error _ => false

/-! ### Every function leaves the hook and the stack as they were -/

/-- What no function changes. -/
def Same (s s' : RState) : Prop := s'.hook = s.hook ∧ s'.rngs.tail = s.rngs.tail ∧ s'.rngs.map Option.isSome = s.rngs.map Option.isSome ∧ s.counts.length ≤ s'.counts.length

theorem Same.refl (s : RState) : Same s s := ⟨rfl, rfl, rfl, Nat.le_refl _⟩

theorem Same.trans {a b c : RState} (h : Same a b) (h' : Same b c) : Same a c :=
  ⟨h'.1.trans h.1, h'.2.1.trans h.2.1, h'.2.2.1.trans h.2.2.1, Nat.le_trans h.2.2.2 h'.2.2.2⟩

def Keeps {α : Type} (m : M RState α) : Prop := ∀ s, Same s (m s).2

theorem Keeps.pure {α : Type} (a : α) : Keeps (M.pure a) := fun s => Same.refl s
theorem Keeps.throw {α : Type} (e : Exc) : Keeps (M.throw e : M RState α) := fun s => Same.refl s

theorem Keeps.bind {α β : Type} {m : M RState α} {f : α → M RState β} (h : Keeps m) (h' : ∀ a, Keeps (f a)) : Keeps (m >>- f) := by
  intro s
  show Same s (M.bind m f s).2
  unfold M.bind
  have hs := h s
  rcases hm : m s with ⟨_ | a, s'⟩
  · rw [hm] at hs
    exact hs
  · rw [hm] at hs
    exact hs.trans (h' a s')

theorem Keeps.peek : Keeps peek := by
  intro s
  unfold Optimize.peek
  split <;> exact Same.refl s

/-- Changing the sequence in force, when there is one. -/
theorem same_poke {s : RState} {q : PRNGSeq} {r : Option PRNGSeq} {tl : List (Option PRNGSeq)} (h : s.rngs = r :: tl) (hr : r.isSome = true) (q' : PRNGSeq) : Same s { s with rngs := some q' :: tl } := by
  refine ⟨rfl, ?_, ?_, Nat.le_refl _⟩
  · rw [h]; rfl
  · rw [h, List.map_cons, List.map_cons, hr]; rfl

theorem peek_some {s : RState} {r : Option PRNGSeq} {tl : List (Option PRNGSeq)} (h : s.rngs = r :: tl) : peek s = (.ok r, s) := by
  unfold peek
  rw [h]

theorem seq_some {s : RState} {q : PRNGSeq} {tl : List (Option PRNGSeq)} (h : s.rngs = some q :: tl) : seqOrFail s = (.ok q, s) := by
  unfold seqOrFail
  show M.bind _ _ _ = _
  unfold M.bind
  rw [peek_some h]
  rfl

theorem bind_ok {α β : Type} {m : M RState α} {f : α → M RState β} {s s' : RState} {a : α} (h : m s = (.ok a, s')) : (m >>- f) s = f a s' := by
  show M.bind m f s = _
  unfold M.bind
  rw [h]

theorem bind_error {α β : Type} {m : M RState α} {f : α → M RState β} {s s' : RState} {e : Exc} (h : m s = (.error e, s')) : (m >>- f) s = (.error e, s') := by
  show M.bind m f s = _
  unfold M.bind
  rw [h]

theorem poke_some {s : RState} {r : Option PRNGSeq} {tl : List (Option PRNGSeq)} (h : s.rngs = r :: tl) (q : PRNGSeq) : poke q s = (.ok (), { s with rngs := some q :: tl }) := by
  unfold poke
  rw [h]

theorem draw_some {s : RState} {q : PRNGSeq} {tl : List (Option PRNGSeq)} (h : s.rngs = some q :: tl) :
    ∃ k, q.next.1 = some k ∧ draw q s = (.ok k, { s with rngs := some q.next.2 :: tl, log := s.log ++ [k] }) := by
  obtain ⟨k, q', hq⟩ := PRNGSeq.next_eq q
  refine ⟨k, by rw [hq], ?_⟩
  unfold draw
  rw [hq]
  dsimp only
  rw [bind_ok (poke_some h q')]
  rfl

/-- The state after the wrappers have counted. -/
def ticked (s : RState) : RState := { s with requests := s.requests + 1, counts := s.hook.foldl bump s.counts }

theorem nextKey_eq (s : RState) : nextKey s = baseNext (ticked s) := rfl

theorem nextKey_some {s : RState} {q : PRNGSeq} {tl : List (Option PRNGSeq)} (h : s.rngs = some q :: tl) :
    ∃ k, q.next.1 = some k ∧ nextKey s = (.ok k, { s with requests := s.requests + 1, counts := s.hook.foldl bump s.counts, rngs := some q.next.2 :: tl, log := s.log ++ [k] }) := by
  obtain ⟨k, hk, hd⟩ := draw_some (s := ticked s) h
  refine ⟨k, hk, ?_⟩
  rw [nextKey_eq]
  unfold baseNext
  rw [bind_ok (seq_some (s := ticked s) h)]
  exact hd

theorem peek_nil {s : RState} (h : s.rngs = []) : peek s = (.error .indexError, s) := by
  unfold peek
  rw [h]

theorem seq_nil {s : RState} (h : s.rngs = []) : seqOrFail s = (.error .indexError, s) := bind_error (peek_nil h)

theorem seq_none {s : RState} {tl : List (Option PRNGSeq)} (h : s.rngs = none :: tl) : seqOrFail s = (.error .noRng, s) := bind_ok (peek_some h)

theorem nextKey_nil {s : RState} (h : s.rngs = []) : nextKey s = (.error .indexError, ticked s) := by
  rw [nextKey_eq]
  exact bind_error (seq_nil (s := ticked s) h)

theorem nextKey_none {s : RState} {tl : List (Option PRNGSeq)} (h : s.rngs = none :: tl) : nextKey s = (.error .noRng, ticked s) := by
  rw [nextKey_eq]
  exact bind_error (seq_none (s := ticked s) h)

theorem same_ticked (s : RState) : Same s (ticked s) := ⟨rfl, rfl, rfl, Nat.le_of_eq (bumps_length _ _).symm⟩

theorem Keeps.nextKey : Keeps nextKey := by
  intro s
  rcases hs : s.rngs with _ | ⟨_ | q, tl⟩
  · rw [nextKey_nil hs]; exact same_ticked s
  · rw [nextKey_none hs]; exact same_ticked s
  · obtain ⟨k, _, h⟩ := nextKey_some hs
    rw [h]
    refine ⟨rfl, ?_, ?_, Nat.le_of_eq (bumps_length _ _).symm⟩ <;> dsimp only <;> rw [hs] <;> rfl

theorem nextKeys_some {s : RState} {q : PRNGSeq} {tl : List (Option PRNGSeq)} (h : s.rngs = some q :: tl) (n : Int) :
    nextKeys n s = (.ok (q.take n).1, { s with rngs := some (q.take n).2 :: tl, log := s.log ++ (q.take n).1 }) := by
  unfold nextKeys
  rw [bind_ok (seq_some h), bind_ok (poke_some h _)]
  rfl

theorem nextKeys_fails {s : RState} {x : Exc} (h : seqOrFail s = (.error x, s)) (n : Int) : nextKeys n s = (.error x, s) := bind_error h

theorem reserve_some {s : RState} {q : PRNGSeq} {tl : List (Option PRNGSeq)} (h : s.rngs = some q :: tl) (n : Int) :
    reserveKeys n s = (.ok (), { s with rngs := some (q.reserve n) :: tl }) := by
  unfold reserveKeys
  rw [bind_ok (seq_some h)]
  exact poke_some h _

theorem reserve_fails {s : RState} {x : Exc} (h : seqOrFail s = (.error x, s)) (n : Int) : reserveKeys n s = (.error x, s) := bind_error h

theorem maybe_nil {s : RState} (h : s.rngs = []) : maybeNextKey s = (.error .indexError, s) := bind_error (peek_nil h)

theorem maybe_none {s : RState} {tl : List (Option PRNGSeq)} (h : s.rngs = none :: tl) : maybeNextKey s = (.ok none, s) := bind_ok (peek_some h)

theorem maybe_some {s : RState} {q : PRNGSeq} {tl : List (Option PRNGSeq)} (h : s.rngs = some q :: tl) :
    ∃ k, q.next.1 = some k ∧ maybeNextKey s = (.ok (some k), { s with rngs := some q.next.2 :: tl, log := s.log ++ [k] }) := by
  obtain ⟨k, hk, hd⟩ := draw_some h
  refine ⟨k, hk, ?_⟩
  unfold maybeNextKey
  rw [bind_ok (peek_some h)]
  dsimp only
  rw [bind_ok hd]
  rfl

theorem Keeps.nextKeys (n : Int) : Keeps (nextKeys n) := by
  intro s
  rcases hs : s.rngs with _ | ⟨_ | q, tl⟩
  · rw [nextKeys_fails (seq_nil hs)]; exact Same.refl s
  · rw [nextKeys_fails (seq_none hs)]; exact Same.refl s
  · rw [nextKeys_some hs]
    refine ⟨rfl, ?_, ?_, Nat.le_refl _⟩ <;> dsimp only <;> rw [hs] <;> rfl

theorem Keeps.maybeNextKey : Keeps maybeNextKey := by
  intro s
  rcases hs : s.rngs with _ | ⟨_ | q, tl⟩
  · rw [maybe_nil hs]; exact Same.refl s
  · rw [maybe_none hs]; exact Same.refl s
  · obtain ⟨k, _, h⟩ := maybe_some hs
    rw [h]
    refine ⟨rfl, ?_, ?_, Nat.le_refl _⟩ <;> dsimp only <;> rw [hs] <;> rfl

theorem Keeps.reserveKeys (n : Int) : Keeps (reserveKeys n) := by
  intro s
  rcases hs : s.rngs with _ | ⟨_ | q, tl⟩
  · rw [reserve_fails (seq_nil hs)]; exact Same.refl s
  · rw [reserve_fails (seq_none hs)]; exact Same.refl s
  · rw [reserve_some hs]
    refine ⟨rfl, ?_, ?_, Nat.le_refl _⟩ <;> dsimp only <;> rw [hs] <;> rfl

theorem Keeps.withRng {α : Type} (q : PRNGSeq) {m : M RState α} (h : Keeps m) : Keeps (withRng q m) := by
  intro s
  unfold Optimize.withRng
  have hs := h { s with rngs := some q :: s.rngs }
  rcases hm : m { s with rngs := some q :: s.rngs } with ⟨a, s'⟩
  rw [hm] at hs
  obtain ⟨h1, h2, h3, h4⟩ := hs
  dsimp only at h1 h2 h3 h4 ⊢
  refine ⟨h1, ?_, ?_, h4⟩
  · rw [h2]; rfl
  · rw [h2]; rfl

theorem Keeps.countRngs {α : Type} {m : M RState α} (h : Keeps m) : Keeps (countRngs m) := by
  refine Keeps.bind Keeps.peek fun r s => ?_
  have hs := h { s with hook := s.counts.length :: s.hook, counts := s.counts ++ [0], rngs := [r.map fun q => PRNGSeq.ofState q.internalState] }
  rcases hm : m { s with hook := s.counts.length :: s.hook, counts := s.counts ++ [0], rngs := [r.map fun q => PRNGSeq.ofState q.internalState] } with ⟨_ | a, s'⟩ <;>
  · rw [hm] at hs
    have h4 := hs.2.2.2
    dsimp only at h4 ⊢
    rw [List.length_append] at h4
    exact ⟨rfl, rfl, rfl, by dsimp only; omega⟩

theorem reserveCount_some {s : RState} {q : PRNGSeq} {tl : List (Option PRNGSeq)} (h : s.rngs = some q :: tl) (n : Nat) :
    reserveCount n s = (.ok (), { s with rngs := some (q.reserve n) :: tl }) := by
  unfold reserveCount
  by_cases hn : n ≠ 0
  · rw [if_pos hn, bind_ok (peek_some h)]
    exact poke_some h _
  · rw [if_neg hn]
    have : n = 0 := by omega
    subst this
    rw [PRNGSeq.reserve_nonpos _ (by decide), ← h]
    rfl

theorem Keeps.reserveCount (n : Nat) : Keeps (reserveCount n) := by
  intro s
  rcases hs : s.rngs with _ | ⟨_ | q, tl⟩
  · unfold Optimize.reserveCount
    split
    · rw [bind_error (peek_nil hs)]; exact Same.refl s
    · exact Same.refl s
  · unfold Optimize.reserveCount
    split
    · rw [bind_ok (peek_some hs)]; exact Same.refl s
    · exact Same.refl s
  · rw [reserveCount_some hs]
    refine ⟨rfl, ?_, ?_, Nat.le_refl _⟩ <;> dsimp only <;> rw [hs] <;> rfl

theorem Keeps.optimize {α : Type} {m : M RState α} (h : Keeps m) : Keeps (optimize m) :=
  Keeps.bind (Keeps.countRngs h) fun n => Keeps.bind (Keeps.reserveCount n) fun _ => h

theorem Keeps.andThen {α : Type} {m : M RState α} {k : Except Exc α → M RState Val} (h : Keeps m) (h' : ∀ r, Keeps (k r)) : Keeps (andThen m k) :=
  fun s => (h s).trans (h' _ _)

theorem run_keeps : ∀ f : RFun, Keeps f.run
  | .ret v => Keeps.pure v
  | .raise e => Keeps.throw e
  | .nextKey k => Keeps.andThen Keeps.nextKey fun r => run_keeps (k r)
  | .nextKeys n k => Keeps.andThen (Keeps.nextKeys n) fun r => run_keeps (k r)
  | .maybeNextKey k => Keeps.andThen Keeps.maybeNextKey fun r => run_keeps (k r)
  | .reserve n k => Keeps.andThen (Keeps.reserveKeys n) fun r => run_keeps (k r)
  | .withRng q b k => Keeps.andThen (Keeps.withRng q (run_keeps b)) fun r => run_keeps (k r)
  | .optimize b k => Keeps.andThen (Keeps.optimize (run_keeps b)) fun r => run_keeps (k r)

/-- C40 `optimize_rng_use(fun)` leaves the implementation of `next_rng_key` as it was, for every function (which may use `optimize_rng_use` itself), whether it
returns or raises and in which of the two runs, with or without an RNG. -/
theorem hook_restored (f : RFun) (s : RState) : (optimize f.run s).2.hook = s.hook := (Keeps.optimize (run_keeps f) s).1

/-- C40 It also leaves the RNG stack below the sequence in force as it was. -/
theorem rng_stack_kept (f : RFun) (s : RState) : (optimize f.run s).2.rngs.tail = s.rngs.tail ∧ (optimize f.run s).2.rngs.length = s.rngs.length := by
  obtain ⟨_, h1, h2, _⟩ := Keeps.optimize (run_keeps f) s
  refine ⟨h1, ?_⟩
  have := congrArg List.length h2
  rwa [List.length_map, List.length_map] at this

/-- The state at the start of `init` or `apply` with RNG `key`. -/
def start (key : Key) : RState := ⟨[], [], [some (.ofKey key)], 0, []⟩

/-- Draws a key and raises; the second request is not reached. -/
def raising : RFun := .nextKey fun _ => .raise (.user 1)

example : optimize raising.run (start (.root 1)) = (.error (.user 1), ⟨[], [1], [some (.ofKey (.root 1))], 1, []⟩) := by decide +kernel

/-! ### Counting -/

/-- There is an RNG in force. -/
def HasRng (s : RState) : Prop := ∃ q tl, s.rngs = some q :: tl

theorem Same.installed {s s' : RState} (h : Same s s') (hi : Installed s) : Installed s' :=
  ⟨h.1 ▸ hi.1, fun c hc => Nat.lt_of_lt_of_le (hi.2 c (h.1 ▸ hc)) h.2.2.2⟩

theorem Same.hasRng {s s' : RState} (h : Same s s') (hr : HasRng s) : HasRng s' := by
  obtain ⟨q, tl, e⟩ := hr
  have := h.2.2.1
  rw [e] at this
  rcases e' : s'.rngs with _ | ⟨_ | q', tl'⟩
  · rw [e'] at this; simp at this
  · rw [e'] at this; simp at this
  · exact ⟨q', tl', e'⟩

/-- Running `m` in state `s`: it returns or raises, with `n` requests, each counted once by every wrapper. -/
def Does {α : Type} (m : M RState α) (n : Nat) (e : Bool) (s : RState) : Prop :=
  returned (m s).1 = e ∧ (m s).2.requests = s.requests + n ∧ ∀ c < s.counts.length, (m s).2.counts.getD c 0 = s.counts.getD c 0 + if c ∈ s.hook then n else 0

theorem Does.andThen {α : Type} {m : M RState α} {k : Except Exc α → M RState Val} {n n' : Nat} {e e' : Bool} {s : RState} (hk : Keeps m) (h : Does m n e s)
    (h' : ∀ r, returned r = e → Does (k r) n' e' (m s).2) : Does (andThen m k) (n + n') e' s := by
  obtain ⟨h1, h2, h3⟩ := h
  obtain ⟨g1, g2, g3⟩ := h' _ h1
  refine ⟨g1, ?_, ?_⟩
  · exact g2.trans (by rw [h2]; omega)
  · intro c hc
    have := g3 c (Nat.lt_of_lt_of_le hc (hk s).2.2.2)
    refine this.trans ?_
    rw [h3 c hc, (hk s).1]
    split <;> omega

theorem Does.nextKey {s : RState} (hi : Installed s) (hr : HasRng s) : Does Optimize.nextKey 1 true s := by
  obtain ⟨q, tl, e⟩ := hr
  obtain ⟨k, _, h⟩ := nextKey_some e
  unfold Does
  rw [h]
  exact ⟨rfl, rfl, fun c _ => bumps_get _ _ _ hi.1 hi.2⟩

theorem Does.nothing {α : Type} {m : M RState α} {s : RState} {a : α} {r : List (Option PRNGSeq)} {l : List Key} (h : m s = (.ok a, { s with rngs := r, log := l })) : Does m 0 true s := by
  unfold Does
  rw [h]
  exact ⟨rfl, rfl, fun c _ => by split <;> rfl⟩

theorem Does.withRng {α : Type} {m : M RState α} {n : Nat} {e : Bool} {s : RState} {q : PRNGSeq} (h : Does m n e { s with rngs := some q :: s.rngs }) : Does (Optimize.withRng q m) n e s := h

/-- The state in which a function is counted. -/
def counted (s : RState) (q : PRNGSeq) : RState := { s with hook := s.counts.length :: s.hook, counts := s.counts ++ [0], rngs := [some (PRNGSeq.ofState q.internalState)] }

theorem installed_counted {s : RState} (hi : Installed s) (q : PRNGSeq) : Installed (counted s q) := by
  refine ⟨List.nodup_cons.2 ⟨fun h => Nat.lt_irrefl _ (hi.2 _ h), hi.1⟩, fun c hc => ?_⟩
  show c < (s.counts ++ [0]).length
  rw [List.length_append]
  rcases List.mem_cons.1 hc with e | h
  · rw [e]; exact Nat.lt_succ_self _
  · exact Nat.lt_succ_of_lt (hi.2 c h)

theorem countRngs_some {α : Type} {m : M RState α} {s : RState} {q : PRNGSeq} {tl : List (Option PRNGSeq)} (hr : s.rngs = some q :: tl) :
    countRngs m s = ((m (counted s q)).1.map fun _ => (m (counted s q)).2.counts.getD s.counts.length 0, { (m (counted s q)).2 with hook := s.hook, rngs := s.rngs, log := s.log }) := by
  unfold countRngs
  rw [bind_ok (peek_some hr)]
  show (match m (counted s q) with | (.ok _, s') => _ | (.error e, s') => _) = _
  rcases m (counted s q) with ⟨_ | a, s'⟩ <;> rfl

theorem Does.countRngs {α : Type} {m : M RState α} {n : Nat} {e : Bool} {s : RState} {q : PRNGSeq} {tl : List (Option PRNGSeq)} (hr : s.rngs = some q :: tl) (hi : Installed s)
    (h : Does m n e (counted s q)) : Does (Optimize.countRngs m) n e s ∧ (e = true → (Optimize.countRngs m s).1 = .ok n) := by
  obtain ⟨h1, h2, h3⟩ := h
  unfold Does
  rw [countRngs_some hr]
  refine ⟨⟨?_, h2, fun c hc => ?_⟩, fun he => ?_⟩
  · rcases hm : m (counted s q) with ⟨_ | a, s'⟩ <;> (rw [hm] at h1; exact h1)
  · have := h3 c (by show c < (s.counts ++ [0]).length; rw [List.length_append]; omega)
    refine this.trans ?_
    have e1 : (counted s q).counts.getD c 0 = s.counts.getD c 0 := by
      show (s.counts ++ [0]).getD c 0 = _
      simp only [List.getD_eq_getElem?_getD]
      rw [List.getElem?_append_left hc]
    have e2 : c ∈ (counted s q).hook ↔ c ∈ s.hook := by
      show c ∈ s.counts.length :: s.hook ↔ _
      rw [List.mem_cons]
      exact ⟨fun h => h.resolve_left (by omega), .inr⟩
    rw [e1]
    by_cases hm : c ∈ s.hook
    · rw [if_pos hm, if_pos (e2.2 hm)]
    · rw [if_neg hm, if_neg (fun h => hm (e2.1 h))]
  · have := h3 s.counts.length (by show _ < (s.counts ++ [0]).length; rw [List.length_append]; exact Nat.lt_succ_self _)
    have e1 : (counted s q).counts.getD s.counts.length 0 = 0 := by
      show (s.counts ++ [0]).getD _ 0 = _
      simp
    rw [e1, if_pos (show s.counts.length ∈ (counted s q).hook from List.mem_cons_self), Nat.zero_add] at this
    subst he
    rcases hm : m (counted s q) with ⟨_ | a, s'⟩
    · rw [hm] at h1; cases h1
    · rw [hm] at this
      show Except.ok _ = _
      rw [this]

theorem Does.optimize {α : Type} {m : M RState α} {n : Nat} {s : RState} (hk : Keeps m) (hr : HasRng s) (hi : Installed s) (h : ∀ s, Installed s → HasRng s → Does m n true s) :
    Does (Optimize.optimize m) (n + n) true s := by
  obtain ⟨q, tl, e⟩ := hr
  obtain ⟨h1, h2⟩ := Does.countRngs e hi (h (counted s q) (installed_counted hi q) ⟨_, _, rfl⟩)
  have h2 := h2 rfl
  have hks := Keeps.countRngs hk s
  have hrng : (Optimize.countRngs m s).2.rngs = some q :: tl := by
    rw [countRngs_some e]; exact e
  rcases hc : Optimize.countRngs m s with ⟨r, s1⟩
  unfold Does at h1
  rw [hc] at h1 h2 hks hrng
  dsimp only at h1 h2 hks hrng
  subst h2
  have hrun : Optimize.optimize m s = m { s1 with rngs := some (q.reserve n) :: tl } := by
    unfold Optimize.optimize
    rw [bind_ok hc, bind_ok (reserveCount_some hrng n)]
  have hi1 : Installed { s1 with rngs := some (q.reserve n) :: tl } := hks.installed hi
  obtain ⟨g1, g2, g3⟩ := h { s1 with rngs := some (q.reserve n) :: tl } hi1 ⟨_, _, rfl⟩
  unfold Does
  rw [hrun]
  refine ⟨g1, ?_, fun c hc => ?_⟩
  · rw [g2]; have := h1.2.1; dsimp only; omega
  · rw [g3 c (Nat.lt_of_lt_of_le hc hks.2.2.2)]
    dsimp only
    rw [h1.2.2 c hc, hks.1]
    split <;> omega

theorem Does.optimizeRaises {α : Type} {m : M RState α} {n : Nat} {s : RState} (hr : HasRng s) (hi : Installed s) (h : ∀ s, Installed s → HasRng s → Does m n false s) :
    Does (Optimize.optimize m) n false s := by
  obtain ⟨q, tl, e⟩ := hr
  obtain ⟨h1, _⟩ := Does.countRngs e hi (h (counted s q) (installed_counted hi q) ⟨_, _, rfl⟩)
  rcases hc : Optimize.countRngs m s with ⟨x | a, s1⟩
  · unfold Does at h1 ⊢
    rw [hc] at h1
    unfold Optimize.optimize
    rw [bind_error hc]
    exact h1
  · have := h1.1
    rw [hc] at this
    cases this

/-- What running a repeatable function does. -/
theorem counting {f : RFun} {n : Nat} {e : Bool} (h : Repeats f n e) : ∀ (s : RState), Installed s → HasRng s → Does f.run n e s := by
  induction h with
  | ret v => exact fun s _ _ => ⟨rfl, rfl, fun c _ => by split <;> rfl⟩
  | raise x => exact fun s _ _ => ⟨rfl, rfl, fun c _ => by split <;> rfl⟩
  | @nextKey k n e _ ih =>
    intro s hi hr
    rw [Nat.add_comm]
    refine Does.andThen Keeps.nextKey (Does.nextKey hi hr) fun r hr' => ?_
    rcases r with _ | a
    · cases hr'
    · exact ih a _ ((Keeps.nextKey s).installed hi) ((Keeps.nextKey s).hasRng hr)
  | @nextKeys m k n e _ ih =>
    intro s hi hr
    have hr2 := hr
    obtain ⟨q, tl, e⟩ := hr2
    rw [← Nat.zero_add n]
    refine Does.andThen (Keeps.nextKeys m) (Does.nothing (nextKeys_some e m)) fun r hr' => ?_
    rcases r with _ | a
    · cases hr'
    · exact ih a _ ((Keeps.nextKeys m s).installed hi) ((Keeps.nextKeys m s).hasRng hr)
  | @maybeNextKey k n e _ ih =>
    intro s hi hr
    have hr2 := hr
    obtain ⟨q, tl, e⟩ := hr2
    obtain ⟨a, _, ha⟩ := maybe_some e
    show Does (fun s => (k (Optimize.maybeNextKey s).1).run (Optimize.maybeNextKey s).2) n _ s
    have h0 := ih a _ ((Keeps.maybeNextKey s).installed hi) ((Keeps.maybeNextKey s).hasRng hr)
    rw [ha] at h0
    unfold Does at h0 ⊢
    dsimp only at h0 ⊢
    rw [ha]
    exact h0
  | @reserve m k n e _ ih =>
    intro s hi hr
    have hr2 := hr
    obtain ⟨q, tl, e⟩ := hr2
    rw [← Nat.zero_add n]
    refine Does.andThen (Keeps.reserveKeys m) (Does.nothing (reserve_some e m)) fun r hr' => ?_
    rcases r with _ | a
    · cases hr'
    · exact ih _ ((Keeps.reserveKeys m s).installed hi) ((Keeps.reserveKeys m s).hasRng hr)
  | @withRng q b k m n e _ _ ih1 ih2 =>
    intro s hi hr
    refine Does.andThen (Keeps.withRng q (run_keeps b)) (Does.withRng (ih1 _ hi ⟨_, _, rfl⟩)) fun r hr' => ?_
    rcases r with _ | a
    · cases hr'
    · exact ih2 a _ ((Keeps.withRng q (run_keeps b) s).installed hi) ((Keeps.withRng q (run_keeps b) s).hasRng hr)
  | @withRngRaises q b k m n e _ _ ih1 ih2 =>
    intro s hi hr
    refine Does.andThen (Keeps.withRng q (run_keeps b)) (Does.withRng (ih1 _ hi ⟨_, _, rfl⟩)) fun r hr' => ?_
    rcases r with x | _
    · exact ih2 x _ ((Keeps.withRng q (run_keeps b) s).installed hi) ((Keeps.withRng q (run_keeps b) s).hasRng hr)
    · cases hr'
  | @optimize b k m n e _ _ ih1 ih2 =>
    intro s hi hr
    refine Does.andThen (Keeps.optimize (run_keeps b)) (Does.optimize (run_keeps b) hr hi ih1) fun r hr' => ?_
    rcases r with _ | a
    · cases hr'
    · exact ih2 a _ ((Keeps.optimize (run_keeps b) s).installed hi) ((Keeps.optimize (run_keeps b) s).hasRng hr)
  | @optimizeRaises b k m n e _ _ ih1 ih2 =>
    intro s hi hr
    refine Does.andThen (Keeps.optimize (run_keeps b)) (Does.optimizeRaises hr hi ih1) fun r hr' => ?_
    rcases r with x | _
    · exact ih2 x _ ((Keeps.optimize (run_keeps b) s).installed hi) ((Keeps.optimize (run_keeps b) s).hasRng hr)
    · cases hr'

/-- C40 If an RNG is in force and the function calls `next_rng_key` the same number of times `n` whatever keys it gets, `n` is what is counted up front, `n` keys are
reserved on the sequence in force, and the function is then run and calls `next_rng_key` `n` times.  Not true for keys drawn by other means: `next_keys_not_counted`. -/
theorem counted_exactly (f : RFun) (n : Nat) (h : Repeats f n true) (s : RState) (hi : Installed s) (q : PRNGSeq) (tl : List (Option PRNGSeq)) (hr : s.rngs = some q :: tl) :
    (countRngs f.run s).1 = .ok n ∧ (countRngs f.run s).2.rngs = s.rngs ∧
    ∃ s', s' = { (countRngs f.run s).2 with rngs := some (q.reserve n) :: tl } ∧ optimize f.run s = f.run s' ∧ (f.run s').2.requests = s'.requests + n := by
  have hc := (Does.countRngs hr hi (counting h (counted s q) (installed_counted hi q) ⟨_, _, rfl⟩)).2 rfl
  have hrng : (countRngs f.run s).2.rngs = s.rngs := by rw [countRngs_some hr]
  refine ⟨hc, hrng, _, rfl, ?_, ?_⟩
  · rcases hcs : countRngs f.run s with ⟨r, s1⟩
    rw [hcs] at hc hrng
    dsimp only at hc hrng
    subst hc
    unfold optimize
    rw [bind_ok hcs, bind_ok (reserveCount_some (hrng.trans hr) n)]
  · exact (counting h { (countRngs f.run s).2 with rngs := some (q.reserve n) :: tl } ((Keeps.countRngs (run_keeps f) s).installed hi) ⟨_, _, rfl⟩).2.1

/-- Two requests, one inside `with_rng`, and a nested `optimize_rng_use`. -/
def mixed : RFun := .nextKey fun _ => .withRng (.ofSeed 7) (.nextKey fun _ => .ret .unit) fun _ => .optimize (.nextKey fun _ => .ret .unit) fun _ => .ret .none

example : Repeats mixed 4 true ∧ Installed (start (.root 1)) :=
  ⟨.nextKey (n := 3) fun _ => .withRng (m := 1) (n := 2) (.nextKey (n := 0) fun _ => .ret _) fun _ => .optimize (m := 1) (n := 0) (.nextKey (n := 0) fun _ => .ret _) fun _ => .ret _,
    List.nodup_nil, (fun c h => by cases h)⟩

/-- C40 does not hold for keys drawn by `next_rng_keys` and `maybe_next_rng_key`: they are not counted, so nothing is reserved for them. -/
theorem next_keys_not_counted : (countRngs (RFun.nextKeys 2 fun _ => .maybeNextKey fun _ => .ret .unit).run (start (.root 1))).1 = .ok 0 ∧
    (optimize (RFun.nextKeys 2 fun _ => .maybeNextKey fun _ => .ret .unit).run (start (.root 1))).2.log.length = 3 := by decide +kernel

/-- C40 Nor without an RNG: a function that needs none because it draws its keys under `with_rng`, or catches the exception, runs, but fails after `optimize_rng_use`. -/
theorem no_rng_fails : (RFun.withRng (.ofSeed 7) (.nextKey fun _ => .ret .unit) fun _ => .ret .none).run ⟨[], [], [none], 0, []⟩ = (.ok .none, ⟨[], [], [none], 1, [.child (.root 7) 2 1]⟩) ∧
    (optimize (RFun.withRng (.ofSeed 7) (.nextKey fun _ => .ret .unit) fun _ => .ret .none).run ⟨[], [], [none], 0, []⟩).1 = .error .noneReserve ∧
    (RFun.nextKey fun _ => .ret .none).run ⟨[], [], [none], 0, []⟩ = (.ok .none, ⟨[], [], [none], 1, []⟩) ∧
    (optimize (RFun.nextKey fun _ => .ret .none).run ⟨[], [], [none], 0, []⟩).1 = .error .noneReserve := by decide +kernel

/-! ### Keys -/

/-- The function draws exactly `n` keys, by `next_rng_key` in the RNG in force, and returns. -/
inductive Draws : RFun → Nat → Prop
  | ret (v : Val) : Draws (.ret v) 0
  | nextKey {k : Except Exc Key → RFun} {n : Nat} : (∀ a, Draws (k (.ok a)) n) → Draws (.nextKey k) (n + 1)

theorem Draws.repeats {f : RFun} {n : Nat} (h : Draws f n) : Repeats f n true := by
  induction h with
  | ret v => exact .ret v
  | nextKey _ ih => exact .nextKey ih

theorem Draws.run {f : RFun} {n : Nat} (h : Draws f n) : ∀ (s : RState) (key : Key) (ks : List Key) (tl : List (Option PRNGSeq)), s.rngs = some ⟨key, ks⟩ :: tl → n ≤ ks.length →
    (f.run s).2.log = s.log ++ ks.take n ∧ (f.run s).2.rngs = some ⟨key, ks.drop n⟩ :: tl := by
  induction h with
  | ret v => intro s key ks tl e _; exact ⟨(List.append_nil _).symm, e⟩
  | @nextKey k n _ ih =>
    intro s key ks tl e hn
    rcases ks with _ | ⟨a, ks⟩
    · cases hn
    · obtain ⟨b, hb, hd⟩ := nextKey_some e
      have hq := PRNGSeq.next_cons (s := ⟨key, a :: ks⟩) rfl
      rw [hq] at hb hd
      cases hb
      obtain ⟨g1, g2⟩ := ih a { ticked s with rngs := some ⟨key, ks⟩ :: tl, log := s.log ++ [a] } key ks tl rfl (Nat.le_of_succ_le_succ hn)
      have hrun : (RFun.nextKey k).run s = (k (.ok a)).run { ticked s with rngs := some ⟨key, ks⟩ :: tl, log := s.log ++ [a] } := by
        show (k (Optimize.nextKey s).1).run (Optimize.nextKey s).2 = _
        rw [hd]
        rfl
      rw [hrun]
      refine ⟨g1.trans ?_, g2⟩
      show s.log ++ [a] ++ ks.take n = _
      rw [List.append_assoc]
      rfl

/-- C40 For a function that draws `n` keys by `next_rng_key` the keys are the ones already reserved, followed by `split(key, n + 1)[1:]`, where `key` is the key in force: a single split. -/
theorem one_split (f : RFun) (n : Nat) (h : Draws f n) (s : RState) (hi : Installed s) (key : Key) (ks : List Key) (tl : List (Option PRNGSeq)) (hr : s.rngs = some ⟨key, ks⟩ :: tl) :
    (optimize f.run s).2.log = s.log ++ (ks ++ (jaxSplit key (n + 1)).tail).take n ∧
    (optimize f.run s).2.rngs = some ⟨if n = 0 then key else .child key (n + 1) 0, (ks ++ (jaxSplit key (n + 1)).tail).drop n⟩ :: tl := by
  obtain ⟨h1, h2, s', hs', h3, _⟩ := counted_exactly f n h.repeats s hi _ tl hr
  have hsplit : (jaxSplit key (n + 1)).tail.length = n := by
    unfold jaxSplit
    simp
  have hq : (PRNGSeq.mk key ks).reserve n = ⟨if n = 0 then key else .child key (n + 1) 0, ks ++ (jaxSplit key (n + 1)).tail⟩ := by
    by_cases hn : n = 0
    · subst hn
      rw [if_pos rfl, PRNGSeq.reserve_nonpos _ (by decide)]
      have : (jaxSplit key (0 + 1)).tail = [] := List.eq_nil_of_length_eq_zero hsplit
      rw [this, List.append_nil]
    · rw [if_neg hn]
      unfold PRNGSeq.reserve
      rw [if_pos (by omega)]
      rw [Int.toNat_natCast, jaxSplit_succ]
      rfl
  have hlog : s'.log = s.log := by
    rw [hs', countRngs_some hr]
  have hrng : s'.rngs = some ⟨if n = 0 then key else .child key (n + 1) 0, ks ++ (jaxSplit key (n + 1)).tail⟩ :: tl := by
    rw [hs', ← hq]
  obtain ⟨g1, g2⟩ := h.run s' _ _ tl hrng (by rw [List.length_append, hsplit]; omega)
  rw [h3]
  exact ⟨by rw [g1, hlog], g2⟩

example : Draws (.nextKey fun r => .nextKey fun _ => .ret .unit) 2 := .nextKey (n := 1) fun _ => .nextKey (n := 0) fun _ => .ret _

/-- As in `random_test.py`: the keys are `split(key, 3)[1:]`. -/
example : (optimize (RFun.nextKey fun _ => .nextKey fun _ => .ret .unit).run (start (.root 42))).2.log = [.child (.root 42) 3 1, .child (.root 42) 3 2] ∧
    ((RFun.nextKey fun _ => .nextKey fun _ => .ret .unit).run (start (.root 42))).2.log = [.child (.root 42) 2 1, .child (.child (.root 42) 2 0) 2 1] := by decide +kernel

/-- The function does not use `with_rng` (whose keys the user chooses). -/
inductive NoWithRng : RFun → Prop
  | ret (v : Val) : NoWithRng (.ret v)
  | raise (x : Exc) : NoWithRng (.raise x)
  | nextKey {k : Except Exc Key → RFun} : (∀ r, NoWithRng (k r)) → NoWithRng (.nextKey k)
  | nextKeys {m : Int} {k : Except Exc (List Key) → RFun} : (∀ r, NoWithRng (k r)) → NoWithRng (.nextKeys m k)
  | maybeNextKey {k : Except Exc (Option Key) → RFun} : (∀ r, NoWithRng (k r)) → NoWithRng (.maybeNextKey k)
  | reserve {m : Int} {k : Except Exc Unit → RFun} : (∀ r, NoWithRng (k r)) → NoWithRng (.reserve m k)
  | optimize {b : RFun} {k : Except Exc Val → RFun} : NoWithRng b → (∀ r, NoWithRng (k r)) → NoWithRng (.optimize b k)

/-- The keys handed out and the sequence in force fit together; without a sequence nothing was handed out twice. -/
def Clean (s : RState) : Prop := s.log.Nodup ∧ ∀ q tl, s.rngs = some q :: tl → PRNGSeq.Inv s.log q

def Cleans {α : Type} (m : M RState α) : Prop := ∀ s, Clean s → Clean (m s).2

theorem Cleans.bind {α β : Type} {m : M RState α} {f : α → M RState β} (h : Cleans m) (h' : ∀ a, Cleans (f a)) : Cleans (m >>- f) := by
  intro s hs
  have h1 := h s hs
  show Clean (M.bind m f s).2
  unfold M.bind
  rcases hm : m s with ⟨_ | a, s'⟩
  · rw [hm] at h1; exact h1
  · rw [hm] at h1; exact h' a s' h1

theorem clean_of {s : RState} {q : PRNGSeq} {tl : List (Option PRNGSeq)} (hr : s.rngs = some q :: tl) (h : PRNGSeq.Inv s.log q) : Clean s := by
  refine ⟨h.1.sublist (List.sublist_append_left _ _), fun q' tl' e => ?_⟩
  rw [hr] at e
  injection e with e _
  injection e with e
  exact e ▸ h

theorem Cleans.nextKey : Cleans nextKey := by
  intro s hs
  rcases e : s.rngs with _ | ⟨_ | q, tl⟩
  · rw [nextKey_nil e]; exact hs
  · rw [nextKey_none e]; exact hs
  · obtain ⟨k, hk, h⟩ := nextKey_some e
    rw [h]
    refine clean_of rfl ?_
    have := (hs.2 q tl e).next
    rw [hk] at this
    exact this

theorem Cleans.nextKeys (n : Int) : Cleans (nextKeys n) := by
  intro s hs
  rcases e : s.rngs with _ | ⟨_ | q, tl⟩
  · rw [nextKeys_fails (seq_nil e)]; exact hs
  · rw [nextKeys_fails (seq_none e)]; exact hs
  · rw [nextKeys_some e]
    exact clean_of rfl ((hs.2 q tl e).take n)

theorem Cleans.maybeNextKey : Cleans maybeNextKey := by
  intro s hs
  rcases e : s.rngs with _ | ⟨_ | q, tl⟩
  · rw [maybe_nil e]; exact hs
  · rw [maybe_none e]; exact hs
  · obtain ⟨k, hk, h⟩ := maybe_some e
    rw [h]
    refine clean_of rfl ?_
    have := (hs.2 q tl e).next
    rw [hk] at this
    exact this

theorem Cleans.reserveKeys (n : Int) : Cleans (reserveKeys n) := by
  intro s hs
  rcases e : s.rngs with _ | ⟨_ | q, tl⟩
  · rw [reserve_fails (seq_nil e)]; exact hs
  · rw [reserve_fails (seq_none e)]; exact hs
  · rw [reserve_some e]
    exact clean_of rfl ((hs.2 q tl e).reserve n)

theorem Cleans.reserveCount (n : Nat) : Cleans (reserveCount n) := by
  intro s hs
  rcases e : s.rngs with _ | ⟨_ | q, tl⟩
  · unfold Optimize.reserveCount
    split
    · rw [bind_error (peek_nil e)]; exact hs
    · exact hs
  · unfold Optimize.reserveCount
    split
    · rw [bind_ok (peek_some e)]; exact hs
    · exact hs
  · rw [reserveCount_some e]
    exact clean_of rfl ((hs.2 q tl e).reserve n)

theorem Cleans.countRngs {α : Type} (m : M RState α) : Cleans (countRngs m) := by
  intro s hs
  rcases e : s.rngs with _ | ⟨r, tl⟩
  · unfold Optimize.countRngs
    rw [bind_error (peek_nil e)]; exact hs
  · unfold Optimize.countRngs
    rw [bind_ok (peek_some e)]
    rcases m { s with hook := s.counts.length :: s.hook, counts := s.counts ++ [0], rngs := [r.map fun q => PRNGSeq.ofState q.internalState] } with ⟨_ | a, s'⟩ <;> exact hs

theorem Cleans.optimize {α : Type} {m : M RState α} (h : Cleans m) : Cleans (optimize m) :=
  Cleans.bind (Cleans.countRngs m) fun n => Cleans.bind (Cleans.reserveCount n) fun _ => h

theorem NoWithRng.cleans {f : RFun} (h : NoWithRng f) : Cleans f.run := by
  induction h with
  | ret v => exact fun s hs => hs
  | raise x => exact fun s hs => hs
  | nextKey _ ih => exact fun s hs => ih _ _ (Cleans.nextKey s hs)
  | nextKeys _ ih => exact fun s hs => ih _ _ (Cleans.nextKeys _ s hs)
  | maybeNextKey _ ih => exact fun s hs => ih _ _ (Cleans.maybeNextKey s hs)
  | reserve _ ih => exact fun s hs => ih _ _ (Cleans.reserveKeys _ s hs)
  | optimize _ _ ih1 ih2 => exact fun s hs => ih2 _ _ (Cleans.optimize ih1 s hs)

/-- C40 The keys handed out are pairwise distinct, also from all keys handed out before and however the function ends, for every function that does not use `with_rng`; it may
catch exceptions, draw keys by any of the functions and use `optimize_rng_use` itself. -/
theorem keys_distinct (f : RFun) (h : NoWithRng f) (key : Key) (before : RFun) (hb : NoWithRng before) : (optimize f.run (before.run (start key)).2).2.log.Nodup := by
  have h0 : Clean (start key) := clean_of rfl (PRNGSeq.Inv.init key)
  exact (Cleans.optimize h.cleans _ (hb.cleans _ h0)).1

example : NoWithRng (.nextKey fun r => .optimize (.nextKeys 3 fun _ => .raise .noRng) fun _ => .nextKey fun _ => .ret .unit) :=
  .nextKey fun _ => .optimize (.nextKeys fun _ => .raise _) fun _ => .nextKey fun _ => .ret _

/-! ### Arbitrary programs -/

/-- A parameter `n` with an initializer that draws a key. -/
def param (n : String) : Prog := .op (.getParam n.toList [] .f32 (some fun _ _ => .draw fun k => .ret ⟨[], .f32, [1]⟩))

/-- `init` with RNG 1 of the function `m`. -/
def initRun (m : M World Val) : M World Val := initM stackMach (.seed 1) m

/-- `apply` with RNG 1 of the function `m`. -/
def applyRun (params : PDict) (m : M World Val) : M World Val := applyM stackMach (some params) none (.seed 1) m

/-- C40 does not hold in general for functions that create parameters: during `init`, once any parameter exists, the counting run treats the parameters as frozen, so that
`optimize_rng_use(fun)` fails although `fun` creates its parameter without problem. -/
theorem init_fails_after_parameter : returned (initRun ((param "w").run stackMach >>- fun _ => (param "v").run stackMach) World.initial).1 = true ∧
    returned (initRun (optimizeM stackMach ((param "w").run stackMach)) World.initial).1 = true ∧
    (initRun ((param "w").run stackMach >>- fun _ => optimizeM stackMach ((param "v").run stackMach)) World.initial).1 = .error .paramMissing :=
  ⟨by decide +kernel, by decide +kernel, by decide +kernel⟩

/-- A module whose `__call__` runs `m`. -/
def moduleCalling (m : M World Val) : M World Val :=
  (Prog.newModule .unit fun id _ => .op (.superInit id none "M".toList)).run stackMach >>- fun v =>
  match v with
  | .mod id => wrapMethod stackMach id Names.sCall .unit fun _ => m
  | v => M.pure v

/-- C40 Nor inside the method of a module: the counting run is not inside the module, so that in `apply` the parameters have other names and are not found. -/
theorem apply_fails_in_method :
    (initRun (moduleCalling (optimizeM stackMach ((param "w").run stackMach))) World.initial).1 = .ok (.pair (.bundle [("m".toList, [("w".toList, ⟨[], .f32, [1]⟩)])]) (.bundle [])) ∧
    returned (applyRun [("m".toList, [("w".toList, ⟨[], .f32, [1]⟩)])] (moduleCalling ((param "w").run stackMach)) World.initial).1 = true ∧
    (applyRun [("m".toList, [("w".toList, ⟨[], .f32, [1]⟩)])] (moduleCalling (optimizeM stackMach ((param "w").run stackMach))) World.initial).1 = .error .paramMissing :=
  ⟨by decide +kernel, by decide +kernel, by decide +kernel⟩

end Verif.Props.OptimizeRng
