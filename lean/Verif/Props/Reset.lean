import Verif.Base.Dict
import Verif.Props.Recurrent
import Verif.Model.Reset

/-!
# `ResetCore` (C56)
-/

set_option linter.unusedVariables false
set_option linter.unusedSectionVars false

namespace Verif.Props.Reset
open Verif.Shapes (Err)
open Verif.Pool (Arr)
open Verif.Conv (indices)
open Verif.Recurrent
open Verif.Props.Recurrent (bind_ok)

variable {K σ α X S O : Type}

/-! ### Specification -/

/-- The pieces of a sequence with reset flags: what comes before the first reset, and the segments that start at the resets. -/
def splitResets : List (α × Bool) → List α × List (List α)
  | [] => ([], [])
  | (a, false) :: l => (a :: (splitResets l).1, (splitResets l).2)
  | (a, true) :: l => ([], (a :: (splitResets l).1) :: (splitResets l).2)

/-- Unrolling a step function from a state. -/
def unroll (f : α → S → O × S) : List α → S → List O × S
  | [], st => ([], st)
  | a :: l, st => ((f a st).1 :: (unroll f l (f a st).2).1, (unroll f l (f a st).2).2)

/-- Unrolling on the segments between resets: the first one from `st`, the others from the initial state `s0`. -/
def segmented (f : α → S → O × S) (s0 st : S) (l : List (α × Bool)) : List O × S :=
  ((unroll f (splitResets l).1 st).1 ++ (splitResets l).2.flatMap fun seg => (unroll f seg s0).1,
    match (splitResets l).2.getLast? with
    | none => (unroll f (splitResets l).1 st).2
    | some seg => (unroll f seg s0).2)

/-- `idx` is a position in an array of that shape. -/
def Valid (shape idx : List Nat) : Prop := List.Forall₂ (· < ·) idx shape

/-- The values of the array at the positions that begin with `p`, in order: batch element `b` for `p = [b]`, everything for `p = []`. -/
def part (p : List Nat) (x : Arr K) : List K := (indices (x.shape.drop p.length)).map fun i => x.val (p ++ i)

/-- The core acts on each part (batch element) by itself as the function `f` does, on inputs with `P`, and keeps the shapes of its state; it may read the Haiku state `s` and change it to `g s`. -/
def ActsAs (core : Core K σ) (P : Nest K → Prop) (pre : List Nat) (shs : List (List Nat)) (f : σ → List (List K) → List (List K) → List (List K) × List (List K)) (g : σ → σ) : Prop :=
  ∀ x st s, P x → shapes st = shs.map (pre ++ ·) → ∃ o st', core x st s = .ok (o, st', g s) ∧ shapes st' = shapes st ∧
    ∀ p, Valid pre p → (o.map (part p), st'.map (part p)) = f s (x.map (part p)) (st.map (part p))

/-- The steps that part `p` goes through: its inputs with the Haiku state at that time, and its reset flag. -/
def steps (g : σ → σ) (p : List Nat) : List (Nest K × Arr Bool) → σ → List ((List (List K) × σ) × Bool)
  | [], _ => []
  | (x, r) :: xs, s => ((x.map (part p), s), r.val p) :: steps g p xs (g s)

/-! ### Lemmas -/

/-- A run with resets is a run on the segments. -/
def resetRun (f : α → S → O × S) (s0 : S) : List (α × Bool) → S → List O × S
  | [], st => ([], st)
  | (a, r) :: l, st =>
    let q := f a (if r then s0 else st)
    (q.1 :: (resetRun f s0 l q.2).1, (resetRun f s0 l q.2).2)

theorem resetRun_eq (f : α → S → O × S) (s0 : S) : ∀ l st, resetRun f s0 l st = segmented f s0 st l
  | [], st => rfl
  | (a, false) :: l, st => by
    show ((f a st).1 :: (resetRun f s0 l (f a st).2).1, (resetRun f s0 l (f a st).2).2) = _
    rw [resetRun_eq f s0 l]
    rfl
  | (a, true) :: l, st => by
    show ((f a s0).1 :: (resetRun f s0 l (f a s0).2).1, (resetRun f s0 l (f a s0).2).2) = _
    rw [resetRun_eq f s0 l]
    unfold segmented
    have hs : splitResets ((a, true) :: l) = ([], (a :: (splitResets l).1) :: (splitResets l).2) := rfl
    rw [hs]
    dsimp only
    rw [List.getLast?_cons]
    cases h : (splitResets l).2.getLast? with
    | none => rfl
    | some seg => rfl

theorem mem_indices {idx : List Nat} : ∀ {shape : List Nat}, idx ∈ indices shape ↔ Valid shape idx := by
  induction idx with
  | nil =>
    intro shape
    cases shape with
    | nil => exact ⟨fun _ => .nil, fun _ => List.mem_singleton.mpr rfl⟩
    | cons n ns =>
      constructor
      · intro h
        obtain ⟨i, _, hi⟩ := List.mem_flatMap.mp h
        obtain ⟨_, _, h⟩ := List.mem_map.mp hi
        cases h
      · intro h
        cases h
  | cons j l ih =>
    intro shape
    cases shape with
    | nil =>
      constructor
      · intro h
        cases List.mem_singleton.mp h
      · intro h
        cases h
    | cons n ns =>
      constructor
      · intro h
        obtain ⟨i, hi, hl⟩ := List.mem_flatMap.mp h
        obtain ⟨l', hl', h⟩ := List.mem_map.mp hl
        cases h
        exact .cons (List.mem_range.mp hi) (ih.mp hl')
      · intro h
        cases h with
        | cons h1 h2 => exact List.mem_flatMap.mpr ⟨j, List.mem_range.mpr h1, List.mem_map.mpr ⟨l, ih.mpr h2, rfl⟩⟩

theorem Valid.length {s i : List Nat} (h : Valid s i) : i.length = s.length := by
  induction h with
  | nil => rfl
  | cons _ _ ih => rw [List.length_cons, List.length_cons, ih]

theorem Valid.append {s i t j : List Nat} (h : Valid s i) (h' : Valid t j) : Valid (s ++ t) (i ++ j) := by
  induction h with
  | nil => exact h'
  | cons h1 _ ih => exact .cons h1 ih

theorem project_valid {s i : List Nat} (h : Valid s i) : project s i = i := by
  unfold project
  rw [h.length, Nat.sub_self, List.drop_zero]
  induction h with
  | nil => rfl
  | cons h1 _ ih =>
    rw [List.zipWith_cons_cons, ih]
    split
    · congr 1
      omega
    · rfl

theorem project_conform {pre p : List Nat} (h : Valid pre p) (j : List Nat) : (project (pre ++ List.replicate j.length 1) (p ++ j)).take pre.length = p := by
  unfold project
  have hl : (p ++ j).length - (pre ++ List.replicate j.length 1).length = 0 := by
    rw [List.length_append, List.length_append, List.length_replicate, h.length, Nat.sub_self]
  rw [hl, List.drop_zero, List.zipWith_append h.length.symm]
  have h1 : (List.zipWith (fun d j => if d = 1 then 0 else j) pre p).length = pre.length := by
    rw [List.length_zipWith, h.length, Nat.min_self]
  rw [List.take_left' h1]
  have := project_valid h
  unfold project at this
  rwa [h.length, Nat.sub_self, List.drop_zero] at this

theorem broadcastRev_self : ∀ s, broadcastRev s s = some s
  | [] => rfl
  | a :: s => by
    unfold broadcastRev
    rw [if_pos rfl, broadcastRev_self s]
    rfl

theorem broadcastRev_ones (u : List Nat) : ∀ t, broadcastRev (List.replicate t.length 1 ++ u) (t ++ u) = some (t ++ u)
  | [] => broadcastRev_self u
  | a :: t => by
    show broadcastRev (1 :: (List.replicate t.length 1 ++ u)) (a :: (t ++ u)) = _
    unfold broadcastRev
    rw [broadcastRev_ones u t]
    split
    · subst_vars
      rfl
    · rw [if_pos rfl]
      rfl

/-- Resetting one leaf. -/
theorem where_part {r : Arr Bool} {x y : Arr K} {pre sh : List Nat} (hr : r.shape = pre) (hx : x.shape = pre ++ sh) (hy : y.shape = pre ++ sh) :
    ∃ c w, validateAndConform r y = .ok c ∧ jnpWhere c x y = .ok w ∧ w.shape = pre ++ sh ∧ ∀ p, Valid pre p → part p w = if r.val p then part p x else part p y := by
  have hk : y.shape.length - r.shape.length = sh.length := by rw [hy, hr, List.length_append]; omega
  refine ⟨⟨pre ++ List.replicate sh.length 1, fun i => r.val (i.take pre.length)⟩, ⟨pre ++ sh, fun i =>
    if r.val ((project (pre ++ List.replicate sh.length 1) i).take pre.length) then x.val (project (pre ++ sh) i) else y.val (project (pre ++ sh) i)⟩, ?_, ?_, rfl, ?_⟩
  · unfold validateAndConform
    rw [hk, hr, hy, if_pos (List.take_left ..).symm]
  · unfold jnpWhere
    have h1 : broadcast (pre ++ List.replicate sh.length 1) (pre ++ sh) = some (pre ++ sh) := by
      unfold broadcast
      rw [List.reverse_append, List.reverse_append, List.reverse_replicate]
      have := broadcastRev_ones pre.reverse sh.reverse
      rw [List.length_reverse] at this
      rw [this]
      show some (List.reverse _) = _
      rw [List.reverse_append, List.reverse_reverse, List.reverse_reverse]
    have h2 : broadcast (pre ++ sh) (pre ++ sh) = some (pre ++ sh) := by
      unfold broadcast
      rw [broadcastRev_self]
      show some (List.reverse _) = _
      rw [List.reverse_reverse]
    dsimp only
    rw [hx, hy, h1]
    dsimp only [Option.bind]
    rw [h2]
  · intro p hp
    unfold part
    rw [hx, hy]
    dsimp only
    have hd : (pre ++ sh).drop p.length = sh := by rw [hp.length, List.drop_left]
    rw [hd]
    have : ∀ i ∈ indices sh, (if r.val ((project (pre ++ List.replicate sh.length 1) (p ++ i)).take pre.length) then x.val (project (pre ++ sh) (p ++ i)) else y.val (project (pre ++ sh) (p ++ i))) =
        if r.val p then x.val (p ++ i) else y.val (p ++ i) := by
      intro i hi
      have hv := mem_indices.mp hi
      have hvv : Valid (pre ++ sh) (p ++ i) := hp.append hv
      rw [← hv.length, project_conform hp, project_valid hvv]
    rw [List.map_congr_left this]
    split <;> rfl

theorem resets {r : Arr Bool} {pre : List Nat} (hr : r.shape = pre) : ∀ (shs : List (List Nat)) (init st : Nest K), shapes init = shs.map (pre ++ ·) → shapes st = shs.map (pre ++ ·) →
    ∃ cs ws, multimap validateAndConform (st.map fun _ => r) st = .ok cs ∧ multimap (fun _ i => (.ok i : Except Err (Arr K))) st init = .ok init ∧
      multimap (fun p s => jnpWhere p.1 p.2 s) (cs.zip init) st = .ok ws ∧ shapes ws = shs.map (pre ++ ·) ∧ ∀ p, Valid pre p → ws.map (part p) = if r.val p then init.map (part p) else st.map (part p)
  | [], init, st, hi, hs => by
    cases List.map_eq_nil_iff.mp hi
    cases List.map_eq_nil_iff.mp hs
    refine ⟨[], [], rfl, rfl, rfl, rfl, fun p hp => ?_⟩
    split <;> rfl
  | sh :: shs, init, st, hi, hs => by
    cases init with
    | nil => cases hi
    | cons x init =>
      cases st with
      | nil => cases hs
      | cons y st =>
        obtain ⟨hx, hi⟩ := List.cons.inj hi
        obtain ⟨hy, hs⟩ := List.cons.inj hs
        obtain ⟨c, w, h1, h2, h3, h4⟩ := where_part hr hx hy
        obtain ⟨cs, ws, e1, e2, e3, e4, e5⟩ := resets hr shs init st hi hs
        refine ⟨c :: cs, w :: ws, ?_, ?_, ?_, ?_, fun p hp => ?_⟩
        · show (validateAndConform r y >>= fun z => multimap validateAndConform (st.map fun _ => r) st >>= fun zs => Except.ok (z :: zs)) = _
          rw [h1, e1]
          rfl
        · show (Except.ok x >>= fun z => multimap (fun _ i => (.ok i : Except Err (Arr K))) st init >>= fun zs => Except.ok (z :: zs)) = _
          rw [e2]
          rfl
        · show (jnpWhere c x y >>= fun z => multimap (fun p s => jnpWhere p.1 p.2 s) (cs.zip init) st >>= fun zs => Except.ok (z :: zs)) = _
          rw [h2, e3]
          rfl
        · show w.shape :: shapes ws = _
          rw [h3, e4]
          rfl
        · rw [List.map_cons, h4 p hp, e5 p hp]
          split <;> rfl

/-! ### C56 -/

/-- A core on one state per batch element: the output is the state, the new state adds the input and the number of the call. -/
def exCore (pre : List Nat) : RNNCore Int Nat where
  call x st s := .ok (st, st.map fun b => ⟨b.shape, fun i => b.val i + (x.map (·.val (i.take pre.length))).sum + s⟩, s + 1)
  initialState
    | none => .ok [⟨[2], fun _ => 100⟩]
    | some n => .ok [⟨[n, 2], fun _ => 100⟩]

/-- What the core does to each part. -/
def exStep (s : Nat) (x st : List (List Int)) : List (List Int) × List (List Int) :=
  (st, st.map fun l => l.map fun v => v + (x.map fun l => l.headD 0).sum + s)


/-- C56 In general: let the core act on every part of a prefix `pre` of the shapes of its state (each element of the batch, or the whole state) by itself as `f` does, let the reset signals have the shape `pre`, and let the
initial state that `ResetCore` asks the core for have the shapes of the state and be `s0` in each part.  Then on every sequence of inputs and reset signals and from every state, each part of the outputs and of the final state is
that of unrolling `f` on the segments between the resets of that part, each started from `s0` (the first from the given state). -/
theorem reset_segments (core : RNNCore K σ) (P : Nest K → Prop) (pre : List Nat) (shs : List (List Nat)) (f : σ → List (List K) → List (List K) → List (List K) × List (List K)) (g : σ → σ)
    (hcore : ActsAs core.call P pre shs f g) (s0 : List (List K))
    (hinit : ∀ x st, P x → shapes st = shs.map (pre ++ ·) → ∃ n i, resetBatch core x st = .ok n ∧ core.initialState n = .ok i ∧ shapes i = shs.map (pre ++ ·) ∧ ∀ p, Valid pre p → i.map (part p) = s0)
    (xs : List (Nest K × Arr Bool)) (hxs : ∀ q ∈ xs, P q.1 ∧ q.2.shape = pre) (st : Nest K) (hst : shapes st = shs.map (pre ++ ·)) (s : σ) :
    ∃ outs st', resetUnroll core (xs.map fun q => (q.1, .leaf q.2)) st s = .ok (outs, st', g^[xs.length] s) ∧ shapes st' = shs.map (pre ++ ·) ∧
      ∀ p, Valid pre p → (outs.map fun o => o.map (part p), st'.map (part p)) = segmented (fun a => f a.2 a.1) s0 (st.map (part p)) (steps g p xs s) := by
  have key : ∀ (xs : List (Nest K × Arr Bool)), (∀ q ∈ xs, P q.1 ∧ q.2.shape = pre) → ∀ st, shapes st = shs.map (pre ++ ·) → ∀ s,
      ∃ outs st', resetUnroll core (xs.map fun q => (q.1, .leaf q.2)) st s = .ok (outs, st', g^[xs.length] s) ∧ shapes st' = shs.map (pre ++ ·) ∧
      ∀ p, Valid pre p → (outs.map fun o => o.map (part p), st'.map (part p)) = resetRun (fun a => f a.2 a.1) s0 (steps g p xs s) (st.map (part p)) := by
    intro xs
    induction xs with
    | nil => exact fun _ st hst s => ⟨[], st, rfl, hst, fun _ _ => rfl⟩
    | cons q xs ih =>
      obtain ⟨x, r⟩ := q
      intro hxs st hst s
      obtain ⟨hP, hr⟩ := hxs (x, r) (List.mem_cons_self ..)
      obtain ⟨n, i, h1, h2, h3, h4⟩ := hinit x st hP hst
      obtain ⟨cs, ws, e1, e2, e3, e4, e5⟩ := resets hr shs i st h3 hst
      obtain ⟨o, st1, c1, c2, c3⟩ := hcore x ws s hP e4
      obtain ⟨outs, st', d1, d2, d3⟩ := ih (fun q hq => hxs q (List.mem_cons_of_mem _ hq)) st1 (c2.trans e4) (g s)
      have hreset : resetState core x (.leaf r) st = .ok ws := by
        show (multimap validateAndConform (st.map fun _ => r) st >>= fun rs => resetBatch core x st >>= fun n => core.initialState n >>= fun init =>
          multimap (fun _ i => (.ok i : Except Err (Arr K))) st init >>= fun init => multimap (fun p s => jnpWhere p.1 p.2 s) (rs.zip init) st) = _
        rw [e1, h1]
        show (core.initialState n >>= fun init =>
          multimap (fun _ i => (.ok i : Except Err (Arr K))) st init >>= fun init => multimap (fun p s => jnpWhere p.1 p.2 s) (cs.zip init) st) = _
        rw [h2]
        show (multimap (fun _ i => (.ok i : Except Err (Arr K))) st i >>= fun init => multimap (fun p s => jnpWhere p.1 p.2 s) (cs.zip init) st) = _
        rw [e2]
        exact e3
      refine ⟨o :: outs, st', ?_, d2, fun p hp => ?_⟩
      · show (resetState core x (.leaf r) st >>= fun st => core.call x st s) >>= (fun a => resetUnroll core (xs.map fun q => (q.1, .leaf q.2)) a.2.1 a.2.2 >>= fun b => Except.ok (a.1 :: b.1, b.2)) = _
        rw [hreset]
        show (core.call x ws s >>= fun a => resetUnroll core (xs.map fun q => (q.1, .leaf q.2)) a.2.1 a.2.2 >>= fun b => Except.ok (a.1 :: b.1, b.2)) = _
        rw [c1]
        show (resetUnroll core (xs.map fun q => (q.1, .leaf q.2)) st1 (g s) >>= fun b => Except.ok (o :: b.1, b.2)) = _
        rw [d1]
        rfl
      · have hw : ws.map (part p) = if r.val p = true then s0 else st.map (part p) := by rw [e5 p hp, h4 p hp]
        have h5 := c3 p hp
        have h6 := d3 p hp
        show (o.map (part p) :: (outs.map fun o => o.map (part p)), st'.map (part p)) =
          ((f s (x.map (part p)) (if r.val p = true then s0 else st.map (part p))).1 :: (resetRun (fun a => f a.2 a.1) s0 (steps g p xs (g s)) (f s (x.map (part p)) (if r.val p = true then s0 else st.map (part p))).2).1,
            (resetRun (fun a => f a.2 a.1) s0 (steps g p xs (g s)) (f s (x.map (part p)) (if r.val p = true then s0 else st.map (part p))).2).2)
        rw [← hw, ← h5, ← h6]
  obtain ⟨outs, st', h1, h2, h3⟩ := key xs hxs st hst s
  refine ⟨outs, st', h1, h2, fun p hp => ?_⟩
  rw [h3 p hp, resetRun_eq]

example (B : Nat) : ActsAs (exCore [B]).call (fun x => ∃ v, x = [⟨[B], v⟩]) [B] [[2]] exStep (· + 1) := by
  rintro x st s ⟨v, rfl⟩ hst
  refine ⟨_, _, rfl, List.map_map, fun p hp => ?_⟩
  cases hp with
  | cons hb hp =>
    cases hp
    refine Prod.ext rfl ?_
    show List.map _ (List.map _ st) = List.map _ (List.map _ st)
    rw [List.map_map, List.map_map]
    refine List.map_congr_left fun y hy => ?_
    show List.map _ _ = List.map _ (List.map _ _)
    rw [List.map_map]
    rfl

/-- C56 For a batch: each element of the batch is unrolled on its own segments.  The core has an initial state `s0` per batch element, and reset signals of shape `[B]`. -/
theorem reset_batched (core : RNNCore K σ) (P : Nest K → Prop) (B : Nat) (hP : ∀ x, P x → batchSize x = .ok B) (shs : List (List Nat)) (f : σ → List (List K) → List (List K) → List (List K) × List (List K)) (g : σ → σ)
    (hcore : ActsAs core.call P [B] shs f g) (s0 : List (List K))
    (hinit : ∀ n, ∃ i, core.initialState (some n) = .ok i ∧ shapes i = shs.map ([n] ++ ·) ∧ ∀ b, b < n → i.map (part [b]) = s0) (hne : shs ≠ [])
    (xs : List (Nest K × Arr Bool)) (hxs : ∀ q ∈ xs, P q.1 ∧ q.2.shape = [B]) (st : Nest K) (hst : shapes st = shs.map ([B] ++ ·)) (s : σ) :
    ∃ outs st', resetUnroll core (xs.map fun q => (q.1, .leaf q.2)) st s = .ok (outs, st', g^[xs.length] s) ∧ shapes st' = shs.map ([B] ++ ·) ∧
      ∀ b, b < B → (outs.map fun o => o.map (part [b]), st'.map (part [b])) = segmented (fun a => f a.2 a.1) s0 (st.map (part [b])) (steps g [b] xs s) := by
  have hi : ∀ x st, P x → shapes st = shs.map ([B] ++ ·) → ∃ n i, resetBatch core x st = .ok n ∧ core.initialState n = .ok i ∧ shapes i = shs.map ([B] ++ ·) ∧
      ∀ p, Valid [B] p → i.map (part p) = s0 := by
    intro x st hx hst
    obtain ⟨i, e1, e2, e3⟩ := hinit B
    obtain ⟨i1, d1, d2, _⟩ := hinit 1
    refine ⟨some B, i, ?_, e1, e2, fun p hp => ?_⟩
    · have hb : isBatched core st = .ok true := by
        unfold isBatched
        rw [if_neg (fun h => hne (by rw [h] at hst; exact List.map_eq_nil_iff.mp hst.symm)), d1]
        show Except.ok _ = Except.ok true
        congr 1
        have : ∀ (shs : List (List Nat)) (i1 st : Nest K), shapes i1 = shs.map ([1] ++ ·) → shapes st = shs.map ([B] ++ ·) → ((i1.zip st).all fun p => decide (p.1.shape.tail = p.2.shape.tail)) = true := by
          intro shs
          induction shs with
          | nil =>
            intro i1 st h1 h2
            cases List.map_eq_nil_iff.mp h1
            rfl
          | cons sh shs ih =>
            intro i1 st h1 h2
            cases i1 with
            | nil => cases h1
            | cons x i1 =>
              cases st with
              | nil => cases h2
              | cons y st =>
                obtain ⟨hx, h1⟩ := List.cons.inj h1
                obtain ⟨hy, h2⟩ := List.cons.inj h2
                show (decide (x.shape.tail = y.shape.tail) && (i1.zip st).all fun p => decide (p.1.shape.tail = p.2.shape.tail)) = true
                rw [hx, hy, ih i1 st h1 h2]
                exact Bool.and_eq_true_iff.mpr ⟨decide_eq_true rfl, rfl⟩
        exact this shs i1 st d2 hst
      unfold resetBatch
      rw [hb]
      show (batchSize x >>= fun n => Except.ok (some n)) = _
      rw [hP x hx]
      rfl
    · cases hp with
      | cons hb hp =>
        cases hp
        exact e3 _ hb
  obtain ⟨outs, st', h1, h2, h3⟩ := reset_segments core _ [B] shs f g hcore s0 hi xs hxs st hst s
  exact ⟨outs, st', h1, h2, fun b hb => h3 [b] (.cons hb .nil)⟩

/-- Two batch elements, three steps; the second element is reset at the second step, the first at the third. -/
def exRun : List (Nest Int × Arr Bool) :=
  [([⟨[2], fun i => i.getD 0 0 + 1⟩], ⟨[2], fun _ => false⟩), ([⟨[2], fun i => i.getD 0 0 + 10⟩], ⟨[2], fun i => i == [1]⟩), ([⟨[2], fun i => i.getD 0 0 + 20⟩], ⟨[2], fun i => i == [0]⟩)]

example : ∀ q ∈ exRun, (∃ v, q.1 = [⟨[2], v⟩]) ∧ q.2.shape = [2] := by
  intro q hq
  cases hq with
  | head => exact ⟨⟨_, rfl⟩, rfl⟩
  | tail _ hq =>
    cases hq with
    | head => exact ⟨⟨_, rfl⟩, rfl⟩
    | tail _ hq =>
      cases hq with
      | head => exact ⟨⟨_, rfl⟩, rfl⟩
      | tail _ hq => cases hq

example :
    (resetUnroll (exCore [2]) (exRun.map fun q => (q.1, .leaf q.2)) [⟨[2, 2], fun i => i.getD 1 0⟩] 0).map (fun r => (r.1.map fun o => o.map (part [1]), r.2.1.map (part [1]), r.2.2)) =
      .ok ([[[0, 1]], [[100, 100]], [[112, 112]]], [[135, 135]], 3) ∧
    segmented (fun a => exStep a.2 a.1) [[100, 100]] [[0, 1]] (steps (· + 1) [1] exRun 0) = ([[[0, 1]], [[100, 100]], [[112, 112]]], [[135, 135]]) :=
  ⟨by decide +kernel, by decide +kernel⟩

/-- C56 Without a batch, with a scalar reset signal: the whole state is reset, the core unrolled on the segments.  One leaf of the state must not be a scalar (see `scalar_state_breaks`). -/
theorem reset_unbatched_partial (core : RNNCore K σ) (shs : List (List Nat)) (f : σ → List (List K) → List (List K) → List (List K) × List (List K)) (g : σ → σ)
    (hcore : ActsAs core.call (fun _ => True) [] shs f g) (s0 : List (List K))
    (hinit : ∃ i, core.initialState none = .ok i ∧ shapes i = shs ∧ i.map (part []) = s0) (hinit1 : ∃ i, core.initialState (some 1) = .ok i ∧ shapes i = shs.map ([1] ++ ·)) (hns : shs = [] ∨ ∃ sh ∈ shs, sh ≠ [])
    (xs : List (Nest K × Arr Bool)) (hxs : ∀ q ∈ xs, q.2.shape = []) (st : Nest K) (hst : shapes st = shs) (s : σ) :
    ∃ outs st', resetUnroll core (xs.map fun q => (q.1, .leaf q.2)) st s = .ok (outs, st', g^[xs.length] s) ∧ shapes st' = shs ∧
      (outs.map fun o => o.map (part []), st'.map (part [])) = segmented (fun a => f a.2 a.1) s0 (st.map (part [])) (steps g [] xs s) := by
  have hid : shs.map (([] : List Nat) ++ ·) = shs := List.map_id _
  have hi : ∀ x st, True → shapes st = shs.map (([] : List Nat) ++ ·) → ∃ n i, resetBatch core x st = .ok n ∧ core.initialState n = .ok i ∧ shapes i = shs.map (([] : List Nat) ++ ·) ∧
      ∀ p, Valid [] p → i.map (part p) = s0 := by
    intro x st hx hst
    obtain ⟨i, e1, e2, e3⟩ := hinit
    obtain ⟨i1, d1, d2⟩ := hinit1
    rw [hid] at hst
    rw [hid]
    refine ⟨none, i, ?_, e1, e2, fun p hp => ?_⟩
    · have hb : isBatched core st = .ok false := by
        unfold isBatched
        by_cases hst0 : st = []
        · rw [if_pos hst0]
        · rw [if_neg hst0, d1]
          show Except.ok _ = Except.ok false
          congr 1
          rcases hns with rfl | hns
          · exact (hst0 (List.map_eq_nil_iff.mp hst)).elim
          have : ∀ (shs : List (List Nat)) (i1 st : Nest K), (∃ sh ∈ shs, sh ≠ []) → shapes i1 = shs.map ([1] ++ ·) → shapes st = shs →
              ((i1.zip st).all fun p => decide (p.1.shape.tail = p.2.shape.tail)) = false := by
            intro shs
            induction shs with
            | nil =>
              rintro i1 st ⟨sh, hsh, _⟩
              cases hsh
            | cons sh shs ih =>
              rintro i1 st ⟨sh', hsh', hne⟩ h1 h2
              cases i1 with
              | nil => cases h1
              | cons x i1 =>
                cases st with
                | nil => cases h2
                | cons y st =>
                  obtain ⟨hx, h1'⟩ := List.cons.inj h1
                  obtain ⟨hy, h2'⟩ := List.cons.inj h2
                  show (decide (x.shape.tail = y.shape.tail) && (i1.zip st).all fun p => decide (p.1.shape.tail = p.2.shape.tail)) = false
                  rw [hx, hy]
                  by_cases hsh : sh = []
                  · subst hsh
                    cases hsh' with
                    | head => exact (hne rfl).elim
                    | tail _ hm => rw [ih i1 st ⟨sh', hm, hne⟩ h1' h2', Bool.and_false]
                  · have : decide (([1] ++ sh).tail = sh.tail) = false := by
                      refine decide_eq_false fun h => ?_
                      have := congrArg List.length h
                      rw [List.length_tail, List.length_tail, List.length_append, List.length_singleton] at this
                      have := List.length_pos_iff.mpr hsh
                      omega
                    rw [this, Bool.false_and]
          exact this shs i1 st hns d2 hst
      unfold resetBatch
      rw [hb]
      rfl
    · cases hp
      exact e3
  obtain ⟨outs, st', h1, h2, h3⟩ := reset_segments core _ [] shs f g hcore s0 hi xs (fun q hq => ⟨trivial, hxs q hq⟩) st (hst.trans hid.symm) s
  exact ⟨outs, st', h1, h2.trans hid, h3 [] .nil⟩

example : (resetUnroll (exCore []) [([⟨[], fun _ => 1⟩], .leaf ⟨[], fun _ => false⟩), ([⟨[], fun _ => 2⟩], .leaf ⟨[], fun _ => true⟩), ([⟨[], fun _ => 3⟩], .leaf ⟨[], fun _ => false⟩)] [⟨[2], fun _ => 7⟩] 0).map
    (fun r => (r.1.map fun o => o.map (part []), r.2.1.map (part []), r.2.2)) = .ok ([[[7, 7]], [[100, 100]], [[103, 103]]], [[108, 108]], 3) := by decide +kernel

/-- A core whose state is one scalar. -/
def scalarCore : RNNCore Int Unit where
  call x st s := .ok (st, st, s)
  initialState
    | none => .ok [⟨[], fun _ => 0⟩]
    | some n => .ok [⟨[n], fun _ => 0⟩]

/-- C56 fails without the condition of `reset_unbatched_partial`: a state of scalars only is taken for a batch.  With inputs without axes `ResetCore` raises, with inputs of shape `[3]` the scalar state becomes one of shape `[3]` — even
without a reset.  The same steps of the core without `ResetCore` keep the scalar. -/
theorem scalar_state_breaks :
    (resetUnroll scalarCore [([⟨[], fun _ => 1⟩], .leaf ⟨[], fun _ => false⟩)] [⟨[], fun _ => 7⟩] ()).map (fun r => shapes r.2.1) = .error .index ∧
    (resetUnroll scalarCore [([⟨[3], fun _ => 1⟩], .leaf ⟨[], fun _ => false⟩)] [⟨[], fun _ => 7⟩] ()).map (fun r => shapes r.2.1) = .ok [[3]] ∧
    (scalarCore.call [⟨[3], fun _ => 1⟩] [⟨[], fun _ => 7⟩] ()).map (fun r => shapes r.2.1) = .ok [[]] := ⟨by decide +kernel, by decide +kernel, by decide +kernel⟩

/-- C56 A reset signal per leaf of the state: each leaf is replaced where its own signal says so, and only there. -/
theorem reset_leafwise (core : RNNCore K σ) (x : Nest K) (leaves : List (Arr Bool × Arr K × Arr K)) (n : Option Nat)
    (hsh : ∀ l ∈ leaves, l.2.1.shape = l.2.2.shape ∧ ∃ sh, l.2.2.shape = l.1.shape ++ sh)
    (hn : resetBatch core x (leaves.map (·.2.2)) = .ok n) (hi : core.initialState n = .ok (leaves.map (·.2.1))) :
    ∃ st', resetState core x (.nest (leaves.map (·.1))) (leaves.map (·.2.2)) = .ok st' ∧ List.Forall₂ (fun l w => w.shape = l.2.2.shape ∧
      ∀ p, Valid l.1.shape p → part p w = if l.1.val p then part p l.2.1 else part p l.2.2) leaves st' := by
  have : ∀ (leaves : List (Arr Bool × Arr K × Arr K)), (∀ l ∈ leaves, l.2.1.shape = l.2.2.shape ∧ ∃ sh, l.2.2.shape = l.1.shape ++ sh) →
      ∃ cs ws, multimap validateAndConform (leaves.map (·.1)) (leaves.map (·.2.2)) = .ok cs ∧ multimap (fun _ i => (.ok i : Except Err (Arr K))) (leaves.map (·.2.2)) (leaves.map (·.2.1)) = .ok (leaves.map (·.2.1)) ∧
        multimap (fun p s => jnpWhere p.1 p.2 s) (cs.zip (leaves.map (·.2.1))) (leaves.map (·.2.2)) = .ok ws ∧ List.Forall₂ (fun l w => w.shape = l.2.2.shape ∧
          ∀ p, Valid l.1.shape p → part p w = if l.1.val p then part p l.2.1 else part p l.2.2) leaves ws := by
    intro leaves
    induction leaves with
    | nil => exact fun _ => ⟨[], [], rfl, rfl, rfl, .nil⟩
    | cons l leaves ih =>
      intro h
      obtain ⟨cs, ws, e1, e2, e3, e4⟩ := ih fun l hl => h l (List.mem_cons_of_mem _ hl)
      obtain ⟨h1, sh, h2⟩ := h l (List.mem_cons_self ..)
      obtain ⟨c, w, d1, d2, d3, d4⟩ := where_part (r := l.1) rfl (h1.trans h2) h2
      refine ⟨c :: cs, w :: ws, ?_, ?_, ?_, .cons ⟨d3.trans h2.symm, d4⟩ e4⟩
      · show (validateAndConform l.1 l.2.2 >>= fun z => multimap validateAndConform (leaves.map (·.1)) (leaves.map (·.2.2)) >>= fun zs => Except.ok (z :: zs)) = _
        rw [d1, e1]
        rfl
      · show (Except.ok l.2.1 >>= fun z => multimap (fun _ i => (.ok i : Except Err (Arr K))) (leaves.map (·.2.2)) (leaves.map (·.2.1)) >>= fun zs => Except.ok (z :: zs)) = _
        rw [e2]
        rfl
      · show (jnpWhere c l.2.1 l.2.2 >>= fun z => multimap (fun p s => jnpWhere p.1 p.2 s) (cs.zip (leaves.map (·.2.1))) (leaves.map (·.2.2)) >>= fun zs => Except.ok (z :: zs)) = _
        rw [d2, e3]
        rfl
  obtain ⟨cs, ws, e1, e2, e3, e4⟩ := this leaves hsh
  refine ⟨ws, ?_, e4⟩
  show (multimap validateAndConform (leaves.map (·.1)) (leaves.map (·.2.2)) >>= fun rs => resetBatch core x (leaves.map (·.2.2)) >>= fun n => core.initialState n >>= fun init =>
    multimap (fun _ i => (.ok i : Except Err (Arr K))) (leaves.map (·.2.2)) init >>= fun init => multimap (fun p s => jnpWhere p.1 p.2 s) (rs.zip init) (leaves.map (·.2.2))) = _
  rw [e1, hn]
  show (core.initialState n >>= fun init =>
    multimap (fun _ i => (.ok i : Except Err (Arr K))) (leaves.map (·.2.2)) init >>= fun init => multimap (fun p s => jnpWhere p.1 p.2 s) (cs.zip init) (leaves.map (·.2.2))) = _
  rw [hi]
  show (multimap (fun _ i => (.ok i : Except Err (Arr K))) (leaves.map (·.2.2)) (leaves.map (·.2.1)) >>= fun init => multimap (fun p s => jnpWhere p.1 p.2 s) (cs.zip init) (leaves.map (·.2.2))) = _
  rw [e2]
  exact e3

/-- A core with two state leaves, of shapes `[B]` and `[B, 2]`. -/
def twoCore : RNNCore Int Unit where
  call x st s := .ok (st, st, s)
  initialState
    | none => .ok [⟨[], fun _ => 100⟩, ⟨[2], fun _ => 200⟩]
    | some n => .ok [⟨[n], fun _ => 100⟩, ⟨[n, 2], fun _ => 200⟩]

example : (resetState twoCore [⟨[2], fun _ => 0⟩] (.nest [⟨[2], fun i => i == [1]⟩, ⟨[2, 2], fun i => i == [0, 1]⟩]) [⟨[2], fun _ => 1⟩, ⟨[2, 2], fun _ => 2⟩]).map (fun r => (shapes r, r.map (part []))) =
    .ok ([[2], [2, 2]], [[1, 100], [2, 200, 2, 2]]) := by decide +kernel

/-- C56 A reset signal whose shape is not a prefix of that of the state is rejected. -/
theorem reset_rejects (core : RNNCore K σ) (x : Nest K) (r : Arr Bool) (y : Arr K) (st : Nest K) (s : σ) (h : ¬ ∃ sh, y.shape = r.shape ++ sh) : resetCall core x (.leaf r) (y :: st) s = .error .value := by
  have : validateAndConform r y = .error .value := by
    unfold validateAndConform
    exact if_neg fun e => h ⟨y.shape.drop r.shape.length, by conv => lhs; rw [← List.take_append_drop r.shape.length y.shape, ← e]⟩
  show ((validateAndConform r y >>= fun z => multimap validateAndConform (st.map fun _ => r) st >>= fun zs => Except.ok (z :: zs)) >>= _) >>= _ = _
  rw [this]
  rfl

example : ¬ ∃ sh, (⟨[2, 4], fun _ => 0⟩ : Arr Int).shape = (⟨[3], fun _ => true⟩ : Arr Bool).shape ++ sh := by
  rintro ⟨sh, h⟩
  cases h

end Verif.Props.Reset
