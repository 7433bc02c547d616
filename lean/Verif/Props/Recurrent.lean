import Mathlib.Algebra.Field.Rat
import Verif.Base.Dict
import Verif.Model.Recurrent

/-!
# Unrolling recurrent cores (C55)
-/

set_option linter.unusedVariables false
set_option linter.unusedSectionVars false

namespace Verif.Props.Recurrent
open Verif.Shapes (Err)
open Verif.Pool (Arr)
open Verif.Recurrent

variable {K σ α β : Type}

/-! ### Specification -/

/-- What `RNNCore.__call__` promises: the next state has the shapes of the previous state.  Only for inputs with `P` and states of the shapes `shs`. -/
def KeepsShapes (core : Core K σ) (P : Nest K → Prop) (shs : List (List Nat)) : Prop := ∀ x st s o st' s', P x → shapes st = shs → core x st s = .ok (o, st', s') → shapes st' = shs

/-- The array is `[T, ...]` if time-major and `[B, T, ...]` otherwise. -/
def HasSteps (timeMajor : Bool) (T : Nat) (x : Arr K) : Prop :=
  match timeMajor with
  | true => ∃ s, x.shape = T :: s
  | false => ∃ b s, x.shape = b :: T :: s

/-! ### Lemmas -/

theorem bind_ok {x : Except Err α} {f : α → Except Err β} {b : β} (h : (x >>= f) = .ok b) : ∃ a, x = .ok a ∧ f a = .ok b := by
  cases x with
  | error e => cases h
  | ok a => exact ⟨a, rfl, h⟩

theorem loop_eq {core : Core K σ} {P : Nest K → Prop} {shs : List (List Nat)} (hc : KeepsShapes core P shs) {tm : Bool} {seq seq' : Nest K} (hP : ∀ t x, seq.mapM (sliceAt tm t) = .ok x → P x)
    (hs : ∀ t, seq.mapM (sliceAt tm t) = seq'.mapM (sliceAt true t)) :
    ∀ (ts : List Nat) (st : Nest K) (outs : List (Nest K)) (s : σ), shapes st = shs → staticLoop core tm seq ts st outs s = (scanLoop core seq' ts st s).map fun q => (outs ++ q.1, q.2)
  | [], st, outs, s, _ => by
    show Except.ok (outs, st, s) = Except.ok (outs ++ [], st, s)
    rw [List.append_nil]
  | t :: ts, st, outs, s, hst => by
    show (seq.mapM (sliceAt tm t) >>= fun inputs => _) = ((seq'.mapM (sliceAt true t) >>= fun inputs => _)).map _
    rw [hs]
    have hp := hP t
    rw [hs] at hp
    cases hi : seq'.mapM (sliceAt true t) with
    | error e => rfl
    | ok inputs =>
      show (core inputs st s >>= fun r => _) = (core inputs st s >>= fun r => _).map _
      cases hr : core inputs st s with
      | error e => rfl
      | ok r =>
        obtain ⟨o, st', s'⟩ := r
        show staticLoop core tm seq ts st' (outs ++ [o]) s' = Except.map _ (if shapes st' ≠ shapes st then _ else _)
        have hst' := hc _ _ _ _ _ _ (hp _ hi) hst hr
        rw [if_neg fun h => h (hst'.trans hst.symm), loop_eq hc hP hs ts _ _ _ hst']
        cases scanLoop core seq' ts st' s' with
        | error e => rfl
        | ok q =>
          show Except.ok (outs ++ [o] ++ q.1, q.2) = Except.ok (outs ++ (o :: q.1), q.2)
          rw [List.append_assoc]
          rfl

/-- All that can be raised is a `ValueError`. -/
def OnlyValue (f : α → Except Err β) : Prop := ∀ a e, f a = .error e → e = .value

theorem mapM_nil (f : α → Except Err β) : ([] : List α).mapM f = .ok [] := rfl

theorem mapM_cons (f : α → Except Err β) (a : α) (l : List α) : (a :: l).mapM f = f a >>= fun b => l.mapM f >>= fun bs => .ok (b :: bs) := by
  rw [List.mapM_cons]
  rfl

theorem mapM_onlyValue {f : α → Except Err β} (hf : OnlyValue f) : ∀ (l : List α) (e : Err), l.mapM f = .error e → e = .value
  | [], e, h => by cases h
  | a :: l, e, h => by
    rw [mapM_cons] at h
    cases ha : f a with
    | error e' =>
      rw [ha] at h
      cases h
      exact hf _ _ ha
    | ok b =>
      rw [ha] at h
      cases hl : l.mapM f with
      | error e' =>
        rw [show (Except.ok b >>= fun b => l.mapM f >>= fun bs => Except.ok (b :: bs)) = (l.mapM f >>= fun bs => Except.ok (b :: bs)) from rfl, hl] at h
        cases h
        exact mapM_onlyValue hf l _ hl
      | ok bs =>
        rw [show (Except.ok b >>= fun b => l.mapM f >>= fun bs => Except.ok (b :: bs)) = (l.mapM f >>= fun bs => Except.ok (b :: bs)) from rfl, hl] at h
        cases h

theorem mapM_bind {γ : Type} {f : α → Except Err β} {g : β → Except Err γ} (hf : OnlyValue f) (hg : OnlyValue g) : ∀ l : List α, (l.mapM f >>= fun bs => bs.mapM g) = l.mapM fun a => f a >>= g
  | [] => rfl
  | a :: l => by
    rw [mapM_cons, mapM_cons, ← mapM_bind hf hg l]
    cases ha : f a with
    | error e => rfl
    | ok b =>
      cases hl : l.mapM f with
      | error e =>
        cases mapM_onlyValue hf l _ hl
        cases hb : g b with
        | error e =>
          cases hg _ _ hb
          show Except.error Err.value = (g b >>= fun c => _)
          rw [hb]
          rfl
        | ok c =>
          show Except.error Err.value = (g b >>= fun c => _)
          rw [hb]
          rfl
      | ok bs => exact mapM_cons g b bs

theorem stack_swap (xs : List (Arr K)) : (stack true xs >>= swapaxes) = stack false xs := by
  cases xs with
  | nil => rfl
  | cons x xs =>
    unfold stack
    dsimp only
    by_cases hc : xs.any (fun y => y.shape != x.shape) = true
    · rw [if_pos hc, if_pos hc]
      rfl
    · rw [if_neg hc, if_neg hc]
      obtain ⟨sh, v⟩ := x
      cases sh with
      | nil => rfl
      | cons b s =>
        show Except.ok _ = Except.ok _
        congr 2
        funext i
        match i with
        | [] => rfl
        | [t] => rfl
        | j :: t :: r => rfl

theorem stack_onlyValue (tm : Bool) : OnlyValue (stack (K := K) tm) := by
  intro xs e h
  cases xs with
  | nil => cases h; rfl
  | cons x xs =>
    unfold stack at h
    dsimp only at h
    split at h
    · cases h; rfl
    · split at h
      · cases h
      · cases h
      · cases h; rfl

theorem swap_onlyValue : OnlyValue (swapaxes (K := K)) := by
  intro x e h
  unfold swapaxes at h
  split at h
  · cases h
  · cases h; rfl

theorem stackNests_swap (outs : List (Nest K)) : (stackNests true outs >>= swapBatchTime) = stackNests false outs := by
  cases outs with
  | nil => rfl
  | cons o os =>
    unfold stackNests swapBatchTime
    dsimp only
    by_cases hc : os.any (fun p => p.length != o.length) = true
    · rw [if_pos hc, if_pos hc]
      rfl
    · rw [if_neg hc, if_neg hc]
      rw [mapM_bind (fun j e h => stack_onlyValue true _ e h) swap_onlyValue]
      congr 1
      funext j
      exact stack_swap _

/-- The array with its first two axes swapped. -/
def swapped (x : Arr K) : Arr K := ⟨match x.shape with | a :: b :: s => b :: a :: s | s => s, fun i => match i with
  | j :: k :: r => x.val (k :: j :: r)
  | i => x.val i⟩

theorem swapaxes_ok {x : Arr K} {T : Nat} (h : HasSteps false T x) : swapaxes x = .ok (swapped x) := by
  obtain ⟨b, s, hx⟩ := h
  obtain ⟨sh, v⟩ := x
  cases hx
  rfl

theorem slice_swapped {x : Arr K} {T : Nat} (h : HasSteps false T x) (t : Nat) : sliceAt false t x = sliceAt true t (swapped x) := by
  obtain ⟨b, s, hx⟩ := h
  obtain ⟨sh, v⟩ := x
  cases hx
  show Except.ok _ = Except.ok _
  congr 2
  funext i
  cases i <;> rfl

theorem mapM_map {γ : Type} (f : β → Except Err γ) (g : α → β) : ∀ l : List α, (l.map g).mapM f = l.mapM fun a => f (g a)
  | [] => rfl
  | a :: l => by rw [List.map_cons, mapM_cons, mapM_cons, mapM_map f g l]

theorem mapM_congr {f g : α → Except Err β} : ∀ l : List α, (∀ a ∈ l, f a = g a) → l.mapM f = l.mapM g
  | [], _ => rfl
  | a :: l, h => by rw [mapM_cons, mapM_cons, h a (List.mem_cons_self ..), mapM_congr l fun a ha => h a (List.mem_cons_of_mem _ ha)]

theorem mapM_ok (g : α → β) : ∀ l : List α, (l.mapM fun a => (.ok (g a) : Except Err β)) = .ok (l.map g)
  | [] => rfl
  | a :: l => by
    rw [mapM_cons, mapM_ok g l]
    rfl

theorem scan_eq [Inhabited K] (core : Core K σ) (seq : Nest K) (init : Nest K) (s : σ) (T : Nat) (hne : seq ≠ []) (hT : 0 < T) (hl : ∀ x ∈ seq, HasSteps true T x) :
    scan core seq init s = scanLoop core seq (List.range T) init s >>= fun r => stackNests true r.1 >>= fun out => .ok (out, r.2.1, r.2.2) := by
  have hns : seq.mapM leading = .ok (seq.map fun _ => T) := by
    rw [← mapM_ok]
    refine mapM_congr _ fun x hx => ?_
    obtain ⟨sh, hs⟩ := hl x hx
    obtain ⟨xs, v⟩ := x
    cases hs
    rfl
  unfold scan
  rw [hns]
  cases seq with
  | nil => exact (hne rfl).elim
  | cons x xs =>
    show (if (xs.map fun _ => T).any (· != T) = true then _ else _) = _
    have hany : ¬ (xs.map fun _ => T).any (· != T) = true := by
      intro h
      obtain ⟨n, hn, hn'⟩ := List.any_eq_true.mp h
      obtain ⟨_, _, rfl⟩ := List.mem_map.mp hn
      simp at hn'
    rw [if_neg hany, if_neg (c := T = 0) (by omega)]

/-! ### C55 -/

/-- C55 `static_unroll` and `dynamic_unroll` agree, batch- or time-major, for every core whose state keeps the shapes of the initial state (as `RNNCore` demands) on inputs like the
slices of the sequence, whatever Haiku state it uses or exceptions it
raises, every initial state and every sequence of at least one step: the same outputs, final state and Haiku state, or the same exception. -/
theorem unrolls_agree [Inhabited K] (core : Core K σ) (seq : Nest K) (init : Nest K) (P : Nest K → Prop) (hc : KeepsShapes core P (shapes init)) (tm : Bool) (s : σ) (T : Nat) (hne : seq ≠ []) (hT : 0 < T)
    (hP : ∀ t x, seq.mapM (sliceAt tm t) = .ok x → P x) (hl : ∀ x ∈ seq, HasSteps tm T x) : dynamicUnroll core seq init tm s = staticUnroll core seq init tm s := by
  have hn : numSteps tm seq = .ok T := by
    cases seq with
    | nil => exact (hne rfl).elim
    | cons x xs =>
      have hx := hl x (List.mem_cons_self ..)
      unfold numSteps
      cases tm with
      | true =>
        obtain ⟨sh, hs⟩ := hx
        dsimp only
        rw [hs]
      | false =>
        obtain ⟨b, sh, hs⟩ := hx
        dsimp only
        rw [hs]
  unfold staticUnroll
  rw [hn]
  show _ = (staticLoop core tm seq (List.range T) init [] s >>= fun r => stackNests tm r.1 >>= fun out => Except.ok (out, r.2.1, r.2.2))
  cases tm with
  | true =>
    show scan core seq init s = _
    rw [scan_eq core seq init s T hne hT hl, loop_eq hc hP (fun _ => rfl) _ _ _ _ rfl]
    cases scanLoop core seq (List.range T) init s with
    | error e => rfl
    | ok r => rfl
  | false =>
    have hsw : swapBatchTime seq = .ok (seq.map swapped) := by
      unfold swapBatchTime
      rw [← mapM_ok]
      exact mapM_congr _ fun x hx => swapaxes_ok (hl x hx)
    show (swapBatchTime seq >>= fun seq => scan core seq init s >>= fun r => swapBatchTime r.1 >>= fun out => Except.ok (out, r.2)) = _
    rw [hsw]
    show (scan core (seq.map swapped) init s >>= fun r => swapBatchTime r.1 >>= fun out => Except.ok (out, r.2)) = _
    have hl' : ∀ x ∈ seq.map swapped, HasSteps true T x := by
      intro y hy
      obtain ⟨x, hx, rfl⟩ := List.mem_map.mp hy
      obtain ⟨b, sh, hs⟩ := hl x hx
      exact ⟨b :: sh, by unfold swapped; rw [hs]⟩
    rw [scan_eq core _ init s T (fun h => hne (List.map_eq_nil_iff.mp h)) hT hl', loop_eq hc hP (seq' := seq.map swapped) (fun t => ?_) _ _ _ _ rfl]
    · cases scanLoop core (seq.map swapped) (List.range T) init s with
      | error e => rfl
      | ok r =>
        show ((stackNests true r.1 >>= fun out => Except.ok (out, r.2.1, r.2.2)) >>= fun r => swapBatchTime r.1 >>= fun out => Except.ok (out, r.2)) =
          (stackNests false ([] ++ r.1) >>= fun out => Except.ok (out, r.2.1, r.2.2))
        rw [List.nil_append, ← stackNests_swap]
        cases stackNests true r.1 with
        | error e => rfl
        | ok out => rfl
    · rw [mapM_map]
      exact mapM_congr _ fun x hx => slice_swapped (hl x hx) t

/-- A core that adds up its inputs and counts its calls in the Haiku state. -/
def exCore : Core Int Nat := fun x st s => .ok (st.map fun b => ⟨b.shape, fun i => b.val i + 10 * (x.map (·.val i)).sum⟩, st.map fun b => ⟨b.shape, fun i => b.val i + (x.map (·.val i)).sum⟩, s + 1)

/-- What a result looks like, at some positions. -/
def shown (r : Except Err (Nest Int × Nest Int × Nat)) (idx : List (List Nat)) : Except Err (List (List Nat × List Int) × List (List Nat × List Int) × Nat) :=
  r.map fun p => (p.1.map fun x => (x.shape, idx.map x.val), p.2.1.map fun x => (x.shape, idx.map x.val), p.2.2)

def exSeq : Nest Int := [⟨[2, 3], fun i => i.getD 0 0 + 2 * i.getD 1 0⟩]

example : KeepsShapes exCore (fun _ => True) [[2]] ∧ exSeq ≠ [] ∧ (∀ x ∈ exSeq, HasSteps false 3 x) :=
  ⟨fun x st s o st' s' _ hs h => by cases h; exact Eq.trans List.map_map hs, (fun h => by cases h), fun x hx => by cases hx with | head => exact ⟨2, [], rfl⟩ | tail _ h => cases h⟩

example : shown (staticUnroll exCore exSeq [⟨[2], fun _ => 100⟩] false 0) [[1, 2], [1]] = .ok ([([2, 3], [154, 110])], [([2], [109, 109])], 3) ∧
    shown (dynamicUnroll exCore exSeq [⟨[2], fun _ => 100⟩] false 0) [[1, 2], [1]] = .ok ([([2, 3], [154, 110])], [([2], [109, 109])], 3) := ⟨by decide +kernel, by decide +kernel⟩

/-- C55 The result in plain words: with at least one step, the outputs are those of calling the core step by step from the initial state. -/
theorem static_steps (core : Core K σ) (tm : Bool) (seq : Nest K) : ∀ (ts : List Nat) (st : Nest K) (outs outs' : List (Nest K)) (st' : Nest K) (s s' : σ),
    staticLoop core tm seq ts st outs s = .ok (outs', st', s') → ∃ (sts : Nat → Nest K) (ss : Nat → σ) (os : List (Nest K)), outs' = outs ++ os ∧ os.length = ts.length ∧ sts 0 = st ∧ ss 0 = s ∧
      sts ts.length = st' ∧ ss ts.length = s' ∧ ∀ (i t : Nat), ts[i]? = some t → ∃ x o, seq.mapM (sliceAt tm t) = .ok x ∧ os[i]? = some o ∧ core x (sts i) (ss i) = .ok (o, sts (i + 1), ss (i + 1))
  | [], st, outs, outs', st', s, s', h => by
    cases h
    exact ⟨fun _ => st, fun _ => s, [], (List.append_nil _).symm, rfl, rfl, rfl, rfl, rfl, (fun i t h => by cases h)⟩
  | t :: ts, st, outs, outs', st', s, s', h => by
    obtain ⟨x, h1, h2⟩ := bind_ok h
    obtain ⟨⟨o, st1, s1⟩, h3, h4⟩ := bind_ok h2
    obtain ⟨sts, ss, os, e1, e2, e3, e4, e5, e6, e7⟩ := static_steps core tm seq ts st1 _ _ _ s1 _ h4
    refine ⟨fun n => match n with | 0 => st | n + 1 => sts n, fun n => match n with | 0 => s | n + 1 => ss n, o :: os, by rw [e1, List.append_assoc]; rfl, by rw [List.length_cons, List.length_cons, e2],
      rfl, rfl, e5, e6, fun i t' hi => ?_⟩
    cases i with
    | zero =>
      cases hi
      refine ⟨x, o, h1, rfl, ?_⟩
      show core x st s = .ok (o, sts 0, ss 0)
      rw [e3, e4]
      exact h3
    | succ i => exact e7 i t' hi

example : (staticLoop exCore true [⟨[2], fun i => i.getD 0 0⟩] [0, 1] [⟨[], fun _ => 5⟩] [] 0).map (fun r => (r.1.map fun n => n.map fun x => x.val [], r.2.1.map fun x => x.val [], r.2.2)) = .ok ([[5], [15]], [6], 2) := by
  decide +kernel

/-- C55 Where the conditions matter: without steps `static_unroll` raises and `dynamic_unroll` does not. -/
theorem no_steps : shown (staticUnroll exCore [⟨[0, 2], fun _ => 0⟩] [⟨[2], fun _ => 100⟩] true 0) [] = .error .type ∧
    shown (dynamicUnroll exCore [⟨[0, 2], fun _ => 0⟩] [⟨[2], fun _ => 100⟩] true 0) [] = .ok ([([0, 2], [])], [([2], [])], 0) := ⟨by decide +kernel, by decide +kernel⟩

/-- C55 Where the conditions matter: a core whose state changes its shape is unrolled by `static_unroll` only. -/
theorem growing_state : (shown (staticUnroll (fun x st s => .ok (x, x ++ st, s)) [⟨[2], fun _ => 0⟩] [] true 0) []).isOk = true ∧
    shown (dynamicUnroll (fun x st s => .ok (x, x ++ st, s)) [⟨[2], fun _ => 0⟩] [] true 0) [] = .error .type := by decide +kernel

/-- C55 Where the conditions matter: if the leaves have different numbers of steps, `static_unroll` takes that of the first. -/
theorem ragged_inputs : (shown (staticUnroll (fun x st s => .ok (x, st, s)) [⟨[1], fun _ => 0⟩, ⟨[2], fun _ => 0⟩] [] true 0) []).isOk = true ∧
    shown (dynamicUnroll (fun x st s => .ok (x, st, s)) [⟨[1], fun _ => 0⟩, ⟨[2], fun _ => 0⟩] [] true 0) [] = .error .value := by decide +kernel

end Verif.Props.Recurrent
