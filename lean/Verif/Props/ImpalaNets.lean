import Verif.Model.ImpalaNets
import Verif.Props.ImpalaActor
import Verif.Props.ImpalaLoss

/-!
# The networks and the agent of `examples/impala`
-/

namespace Verif.Props.ImpalaNets
open Verif.ImpalaActor Verif.ImpalaNets
open Verif.Shapes (Err)
open Verif.Props.ImpalaLoss (Resets)

variable {K O S P F N A E : Type}

/-! ### What is claimed -/

/-- What one entry of a batch has at all times. -/
def column {α : Type} (b : Nat) (x : List (List α)) : List α := x.filterMap (·[b]?)

/-- An array of rows of `B` entries. -/
def Rect {α : Type} (B : Nat) (x : List (List α)) : Prop := ∀ row ∈ x, row.length = B

/-- What `CatchNet` does at one step of one episode. -/
def catchCell (n : Catch K O P N) (p : P) (t : TimeStep K O) (s : S) : N × S := (n.layers p t.observation, s)

/-- What `AtariNet` does at one step of one episode. -/
def atariCell (n : Atari K O S P F N) (p : P) (t : TimeStep K O) (s : S) : N × S :=
  match n.useResnet, n.useLstm, t.stepType with
  | true, false, _ => (n.head p (n.deepTorso p t.observation), s)
  | false, false, _ => (n.head p (n.shallowTorso p t.observation), s)
  | true, true, .first => (n.head p (n.lstm p (n.deepTorso p t.observation) n.initial).1, (n.lstm p (n.deepTorso p t.observation) n.initial).2)
  | false, true, .first => (n.head p (n.lstm p (n.shallowTorso p t.observation) n.initial).1, (n.lstm p (n.shallowTorso p t.observation) n.initial).2)
  | true, true, _ => (n.head p (n.lstm p (n.deepTorso p t.observation) s).1, (n.lstm p (n.deepTorso p t.observation) s).2)
  | false, true, _ => (n.head p (n.lstm p (n.shallowTorso p t.observation) s).1, (n.lstm p (n.shallowTorso p t.observation) s).2)

/-- `u` is the unroll of a batch of which each entry goes through the cell step by step, on its own. -/
def Unrolls [Field K] (u : Unroll K O S P N) (cell : P → TimeStep K O → S → N × S) : Prop :=
  ∀ (B : Nat) (p : P) (x : List (List (TimeStep K O))) (state : List S), Rect B x → state.length = B →
    (u B p x state).1.length = x.length ∧ Rect B (u B p x state).1 ∧ (u B p x state).2.length = B ∧
    ∀ b s, state[b]? = some s → column b (u B p x state).1 = (netUnroll cell p (column b x) s).1 ∧ (u B p x state).2[b]? = some (netUnroll cell p (column b x) s).2

/-! ### Lemmas -/

theorem chunks {α : Type} (B : Nat) : ∀ y : List (List α), Rect B y → ((List.range y.length).map fun t => (y.flatten.drop (t * B)).take B) = y
  | [], _ => rfl
  | row :: y, h => by
    have hr : row.length = B := h row List.mem_cons_self
    have ih := chunks B y fun r hr => h r (List.mem_cons_of_mem _ hr)
    rw [List.length_cons, List.range_succ_eq_map, List.map_cons, List.map_map]
    congr 1
    · rw [Nat.zero_mul, List.drop_zero, List.flatten_cons, ← hr, List.take_left']
      rfl
    · conv => rhs; rw [← ih]
      refine List.map_congr_left fun t _ => ?_
      show (((row :: y).flatten).drop ((t + 1) * B)).take B = _
      rw [List.flatten_cons, Nat.add_mul, Nat.one_mul, Nat.add_comm, ← List.drop_drop, ← hr, List.drop_left']
      rfl

theorem batchApply_map {α β : Type} (f : α → β) (B : Nat) (x : List (List α)) (h : Rect B x) : batchApply (List.map f) B x = x.map (List.map f) := by
  have h2 : Rect B (x.map (List.map f)) := by
    intro row hr
    obtain ⟨r, hm, rfl⟩ := List.mem_map.mp hr
    rw [List.length_map]; exact h r hm
  have e := chunks B _ h2
  rw [List.length_map] at e
  rw [← e]
  show (List.range x.length).map (fun t => ((x.flatten.map f).drop (t * B)).take B) = _
  rw [List.map_flatten]

/-- The rows of a batch one after another, each entry through the cell. -/
def rowUnroll (cell : P → TimeStep K O → S → N × S) (p : P) : List (List (TimeStep K O)) → List S → List (List N) × List S
  | [], state => ([], state)
  | x :: xs, state =>
    let r := (x.zip state).map fun y => cell p y.1 y.2
    let q := rowUnroll cell p xs (r.map Prod.snd)
    (r.map Prod.fst :: q.1, q.2)

theorem rect_cons {α : Type} {B : Nat} {r : List α} {x : List (List α)} (h : Rect B (r :: x)) : r.length = B ∧ Rect B x := ⟨h r List.mem_cons_self, fun q hq => h q (List.mem_cons_of_mem _ hq)⟩

theorem rowUnroll_spec [Field K] (cell : P → TimeStep K O → S → N × S) : Unrolls (fun _ => rowUnroll cell) cell := by
  intro B p x
  induction x with
  | nil => exact fun state _ hs => ⟨rfl, (fun _ hr => by cases hr), hs, fun b s hb => ⟨rfl, hb⟩⟩
  | cons row x ih =>
    intro state hx hs
    obtain ⟨hr, hx'⟩ := rect_cons hx
    have hlen : ((row.zip state).map fun y => cell p y.1 y.2).length = B := by rw [List.length_map, List.length_zip, hr, hs, Nat.min_self]
    obtain ⟨i1, i2, i3, i4⟩ := ih (((row.zip state).map fun y => cell p y.1 y.2).map Prod.snd) hx' (by rw [List.length_map]; exact hlen)
    refine ⟨congrArg (· + 1) i1, ?_, i3, ?_⟩
    · intro q hq
      rcases List.mem_cons.mp hq with rfl | hq
      · rw [List.length_map]; exact hlen
      · exact i2 q hq
    · intro b s hb
      have hbl : b < B := by rw [← hs]; exact (List.getElem?_eq_some_iff.mp hb).1
      obtain ⟨t, ht⟩ : ∃ t, row[b]? = some t := ⟨_, List.getElem?_eq_getElem (by rw [hr]; exact hbl)⟩
      have hz : ((row.zip state).map fun y => cell p y.1 y.2)[b]? = some (cell p t s) := by
        rw [List.getElem?_map, (List.getElem?_zip_eq_some (z := (t, s))).mpr ⟨ht, hb⟩]
        rfl
      obtain ⟨j1, j2⟩ := i4 b (cell p t s).2 (by rw [List.getElem?_map, hz]; rfl)
      have hc : column b (row :: x) = t :: column b x := List.filterMap_cons_some ht
      refine ⟨?_, ?_⟩
      · rw [hc]
        show column b ((((row.zip state).map fun y => cell p y.1 y.2).map Prod.fst) :: _) = (cell p t s).1 :: _
        have hd : ∀ l : List (List N), column b ((((row.zip state).map fun y => cell p y.1 y.2).map Prod.fst) :: l) = (cell p t s).1 :: column b l :=
          fun l => List.filterMap_cons_some (by rw [List.getElem?_map, hz]; rfl)
        rw [hd]
        exact congrArg _ j1
      · rw [hc]; exact j2

theorem unrolls_congr [Field K] {u v : Unroll K O S P N} {cell : P → TimeStep K O → S → N × S} (h : ∀ B p x state, Rect B x → state.length = B → u B p x state = v B p x state) (hv : Unrolls v cell) : Unrolls u cell := by
  intro B p x state hx hs
  rw [h B p x state hx hs]
  exact hv B p x state hx hs

/-- Without a recurrent core, the state passes through. -/
theorem rowUnroll_pass (f : P → TimeStep K O → N) (p : P) (x : List (List (TimeStep K O))) : ∀ state : List S, Rect state.length x →
    rowUnroll (fun p t s => (f p t, s)) p x state = (x.map (List.map (f p)), state) := by
  induction x with
  | nil => intro state _; rfl
  | cons row x ih =>
    intro state hx
    obtain ⟨hr, hx'⟩ := rect_cons hx
    have e1 : ((row.zip state).map fun y => (f p y.1, y.2)).map Prod.snd = state := by
      rw [List.map_map]
      show (row.zip state).map Prod.snd = state
      exact List.map_snd_zip (by omega)
    have e2 : ((row.zip state).map fun y => (f p y.1, y.2)).map Prod.fst = row.map (f p) := by
      rw [List.map_map]
      conv => rhs; rw [← List.map_fst_zip (l₁ := row) (l₂ := state) (by omega), List.map_map]
      rfl
    show (_ :: (rowUnroll _ p x _).1, (rowUnroll _ p x _).2) = _
    rw [e1, e2, ih state hx']
    rfl

theorem core_eq (n : Atari K O S P F N) (p : P) (input : List (F × Bool)) (state : List S) (h : input.length = state.length) :
    n.core p input state = (((input.zip state).map fun x => n.lstm p x.1.1 (if x.1.2 then n.initial else x.2)).map Prod.fst, ((input.zip state).map fun x => n.lstm p x.1.1 (if x.1.2 then n.initial else x.2)).map Prod.snd) := by
  have e : (input.zip ((input.zip ((n.initialState input.length).zip state)).map fun x => if x.1.2 then x.2.1 else x.2.2)).map (fun x => n.lstm p x.1.1 x.2) =
      (input.zip state).map fun x => n.lstm p x.1.1 (if x.1.2 then n.initial else x.2) := by
    induction input generalizing state with
    | nil => rfl
    | cons i input ih =>
      cases state with
      | nil => cases h
      | cons s state =>
        have := ih state (Nat.succ.inj h)
        exact congrArg (n.lstm p i.1 (if i.2 then n.initial else s) :: ·) this
  show (List.map Prod.fst (List.map _ _), List.map Prod.snd (List.map _ _)) = _
  rw [e]

/-- The LSTM of `AtariNet` on one entry, with the torso in front of it. -/
def lstmCell (n : Atari K O S P F N) (torso : P → O → F) (p : P) (t : TimeStep K O) (s : S) : F × S := n.lstm p (torso p t.observation) (if t.stepType = .first then n.initial else s)

theorem dynamicUnroll_eq (n : Atari K O S P F N) (torso : P → O → F) (p : P) (x : List (List (TimeStep K O))) : ∀ state : List S, Rect state.length x →
    n.dynamicUnroll p (x.map fun row => row.map fun t => (torso p t.observation, decide (t.stepType = .first))) state = rowUnroll (lstmCell n torso) p x state := by
  induction x with
  | nil => intro state _; rfl
  | cons row x ih =>
    intro state hx
    obtain ⟨hr, hx'⟩ := rect_cons hx
    have e : ((row.map fun t => (torso p t.observation, decide (t.stepType = .first))).zip state).map (fun x => n.lstm p x.1.1 (if x.1.2 then n.initial else x.2)) = (row.zip state).map fun y => lstmCell n torso p y.1 y.2 := by
      rw [List.zip_map_left, List.map_map]
      refine List.map_congr_left fun y _ => ?_
      simp [lstmCell]
    rw [List.map_cons, Atari.dynamicUnroll, core_eq n p _ _ (by rw [List.length_map, hr]), e]
    show (_ :: (n.dynamicUnroll p _ _).1, (n.dynamicUnroll p _ _).2) = _
    rw [ih]
    · rfl
    · rw [List.length_map, List.length_map, List.length_zip, hr, Nat.min_self]
      exact hx'

theorem rowUnroll_post {M : Type} (cell : P → TimeStep K O → S → M × S) (h : P → M → N) (p : P) (x : List (List (TimeStep K O))) : ∀ state : List S,
    rowUnroll (fun p t s => (h p (cell p t s).1, (cell p t s).2)) p x state = ((rowUnroll cell p x state).1.map (List.map (h p)), (rowUnroll cell p x state).2) := by
  induction x with
  | nil => intro state; rfl
  | cons row x ih =>
    intro state
    simp only [rowUnroll, List.map_map]
    have := ih ((row.zip state).map (Prod.snd ∘ fun y => cell p y.1 y.2))
    show (_ :: (rowUnroll _ p x _).1, (rowUnroll _ p x _).2) = _
    have e : (Prod.snd ∘ fun y : TimeStep K O × S => (h p (cell p y.1 y.2).1, (cell p y.1 y.2).2)) = Prod.snd ∘ fun y => cell p y.1 y.2 := rfl
    rw [e, this]
    simp

theorem map_obs {α : Type} {B : Nat} {x : List (List (TimeStep K O))} (f : TimeStep K O → α) (h : Rect B x) : Rect B (x.map fun row => row.map f) := by
  intro row hr
  obtain ⟨r, hm, rfl⟩ := List.mem_map.mp hr
  rw [List.length_map]; exact h r hm

theorem atari_rows [Field K] (n : Atari K O S P F N) (B : Nat) (p : P) (x : List (List (TimeStep K O))) (state : List S) (hx : Rect B x) (hs : state.length = B) : n.unroll B p x state = rowUnroll (atariCell n) p x state := by
  subst hs
  obtain ⟨deep, shallow, lstm, initial, head, res, useLstm⟩ := n
  have key : ∀ torso : P → O → F,
      batchApply (List.map (torso p)) state.length (x.map fun row => row.map TimeStep.observation) = x.map fun row => row.map fun t => torso p t.observation := by
    intro torso
    rw [batchApply_map _ _ _ (map_obs _ hx), List.map_map]
    refine List.map_congr_left fun row _ => ?_
    exact List.map_map
  cases useLstm with
  | false =>
    have pass : ∀ torso : P → O → F, (batchApply (List.map (head p)) state.length (x.map fun row => row.map fun t => torso p t.observation), state) = rowUnroll (fun p t s => (head p (torso p t.observation), s)) p x state := by
      intro torso
      rw [batchApply_map _ _ _ (map_obs _ hx), rowUnroll_pass (fun p t => head p (torso p t.observation)) p x state hx, List.map_map]
      congr 1
      refine List.map_congr_left fun row _ => ?_
      exact List.map_map
    cases res with
    | true => rw [show atariCell (⟨deep, shallow, lstm, initial, head, true, false⟩ : Atari K O S P F N) = fun p t s => (head p (deep p t.observation), s) from rfl, ← pass deep, ← key deep]; rfl
    | false => rw [show atariCell (⟨deep, shallow, lstm, initial, head, false, false⟩ : Atari K O S P F N) = fun p t s => (head p (shallow p t.observation), s) from rfl, ← pass shallow, ← key shallow]; rfl
  | true =>
    have run : ∀ (torso : P → O → F) (n : Atari K O S P F N), (let r := n.dynamicUnroll p ((batchApply (List.map (torso p)) state.length (x.map fun row => row.map TimeStep.observation)).zipWith List.zip
          (x.map fun row => row.map fun t => decide (t.stepType = .first))) state
        (batchApply (List.map (n.head p)) state.length r.1, r.2)) = rowUnroll (fun p t s => (n.head p (lstmCell n torso p t s).1, (lstmCell n torso p t s).2)) p x state := by
      intro torso n
      have hz : (x.map fun row => row.map fun t => torso p t.observation).zipWith List.zip (x.map fun row => row.map fun t => decide (t.stepType = .first)) = x.map fun row => row.map fun t => (torso p t.observation, decide (t.stepType = .first)) := by
        rw [List.zipWith_map, List.zipWith_self]
        refine List.map_congr_left fun row _ => ?_
        rw [List.zip_map', ]
      rw [key, hz, dynamicUnroll_eq n torso p x state hx, rowUnroll_post]
      show (batchApply _ _ _, _) = _
      rw [batchApply_map]
      exact (rowUnroll_spec (lstmCell n torso) state.length p x state hx rfl).2.1
    cases res with
    | true =>
      rw [show atariCell (⟨deep, shallow, lstm, initial, head, true, true⟩ : Atari K O S P F N) = fun p t s => (head p (lstmCell ⟨deep, shallow, lstm, initial, head, true, true⟩ deep p t s).1, (lstmCell ⟨deep, shallow, lstm, initial, head, true, true⟩ deep p t s).2) from ?_, ← run deep ⟨deep, shallow, lstm, initial, head, true, true⟩]
      · rfl
      · funext p t s
        rcases ht : t.stepType <;> simp [atariCell, lstmCell, ht]
    | false =>
      rw [show atariCell (⟨deep, shallow, lstm, initial, head, false, true⟩ : Atari K O S P F N) = fun p t s => (head p (lstmCell ⟨deep, shallow, lstm, initial, head, false, true⟩ shallow p t s).1, (lstmCell ⟨deep, shallow, lstm, initial, head, false, true⟩ shallow p t s).2) from ?_, ← run shallow ⟨deep, shallow, lstm, initial, head, false, true⟩]
      · rfl
      · funext p t s
        rcases ht : t.stepType <;> simp [atariCell, lstmCell, ht]

theorem filterMap_at {α : Type} (T : Nat) (trajs : List (List α)) (h : ∀ l ∈ trajs, l.length = T) (t : Nat) (ht : t < T) : ∀ b : Nat, (trajs.filterMap (·[t]?))[b]? = (trajs[b]?).bind (·[t]?) := by
  induction trajs with
  | nil => intro b; rfl
  | cons l trajs ih =>
    intro b
    have hl : l.length = T := h l List.mem_cons_self
    rw [List.filterMap_cons_some (f := fun x : List α => x[t]?) (List.getElem?_eq_getElem (by omega : t < l.length))]
    cases b with
    | zero => exact (List.getElem?_eq_getElem (by omega : t < l.length)).symm
    | succ b => exact ih (fun q hq => h q (List.mem_cons_of_mem _ hq)) b

theorem range_getElem {α : Type} : ∀ l : List α, (List.range l.length).filterMap (fun t => l[t]?) = l
  | [] => rfl
  | x :: l => by
    rw [List.length_cons, List.range_succ_eq_map]
    show x :: ((List.range l.length).map Nat.succ).filterMap _ = _
    rw [List.filterMap_map]
    exact congrArg _ (range_getElem l)

theorem column_stackTime {α : Type} (T : Nat) (trajs : List (List α)) (h : ∀ l ∈ trajs, l.length = T) (b : Nat) (l : List α) (hl : trajs[b]? = some l) : column b (stackTime T trajs) = l := by
  have hT : l.length = T := h l (List.mem_of_getElem? hl)
  conv => rhs; rw [← range_getElem l, hT]
  rw [column, stackTime, List.filterMap_map]
  refine List.filterMap_congr fun t ht => ?_
  show (trajs.filterMap (·[t]?))[b]? = _
  rw [filterMap_at T trajs h t (List.mem_range.mp ht), hl]
  rfl

theorem rect_stackTime {α : Type} (T : Nat) (trajs : List (List α)) (h : ∀ l ∈ trajs, l.length = T) : Rect trajs.length (stackTime T trajs) := by
  intro row hr
  obtain ⟨t, ht, rfl⟩ := List.mem_map.mp hr
  have ht := List.mem_range.mp ht
  clear hr
  induction trajs with
  | nil => rfl
  | cons l trajs ih =>
    have hl : l.length = T := h l List.mem_cons_self
    rw [List.filterMap_cons_some (f := fun x : List α => x[t]?) (List.getElem?_eq_getElem (by omega : t < l.length)), List.length_cons, List.length_cons, ih fun q hq => h q (List.mem_cons_of_mem _ hq)]

/-! ### Claims -/

/-- C181: `CatchNet.unroll` on a batch of trajectories does to each of them what the network does step by step on it alone, and the state passes through. -/
theorem catch_unroll [Field K] (n : Catch K O P N) : Unrolls n.unroll (catchCell (S := S) n) :=
  unrolls_congr (v := fun _ => rowUnroll (catchCell n)) (fun B p x state hx hs => by
    subst hs
    show (batchApply (List.map fun t => n.layers p t.observation) _ x, state) = rowUnroll (fun p t s => (n.layers p t.observation, s)) p x state
    rw [batchApply_map _ _ _ hx, rowUnroll_pass (fun p t => n.layers p t.observation) p x state hx]) (rowUnroll_spec _)

/-- C181: `AtariNet.unroll` on a batch of trajectories does to each of them what the network does step by step on it alone: the torso, the LSTM from the state of the step before, or from the initial state where an episode begins, and the head; without the
LSTM the state passes through. -/
theorem atari_unroll [Field K] (n : Atari K O S P F N) : Unrolls n.unroll (atariCell n) := unrolls_congr (v := fun _ => rowUnroll (atariCell n)) (atari_rows n) (rowUnroll_spec _)

/-- C181: `Agent.step` on one time step applies the network once; taking off the dimensions that it added never fails. -/
theorem step_cell [Field K] (u : Unroll K O S P N) (cell : P → TimeStep K O → S → N × S) (hu : Unrolls u cell) (sample : Key → N → A) (key : Key) (p : P) (t : TimeStep K O) (s : S) :
    step u sample key p t s = .ok (agentStep cell sample key p t s) := by
  obtain ⟨h1, h2, h3, h4⟩ := hu 1 p [[t]] [s] (fun r hr => by rw [List.mem_singleton.mp hr]; rfl) rfl
  obtain ⟨j1, j2⟩ := h4 0 s rfl
  generalize ho : u 1 p [[t]] [s] = r at h1 h2 h3 j1 j2
  obtain ⟨out, st⟩ := r
  obtain ⟨row, rfl⟩ := List.length_eq_one_iff.mp (show out.length = 1 from h1)
  obtain ⟨o, rfl⟩ := List.length_eq_one_iff.mp (h2 row List.mem_cons_self)
  obtain ⟨s', rfl⟩ := List.length_eq_one_iff.mp h3
  have e1 : o = (cell p t s).1 := (List.cons.inj (show [o] = [(cell p t s).1] from j1)).1
  have e2 : s' = (cell p t s).2 := Option.some.inj (show some s' = some (cell p t s).2 from j2)
  show ((squeeze2 (u 1 p [[t]] [s]).1 >>= fun netOut => squeeze1 (u 1 p [[t]] [s]).2 >>= fun nextState => .ok ((netOut, sample key netOut), nextState)) : Except Err _) = _
  rw [ho, e1, e2]
  rfl

/-- C181: when the learner unrolls the agent over a stacked batch of trajectories from their first states, with the parameters that the actors had, it gets for each trajectory the outputs that `Agent.step` gave the actor. -/
theorem batch_repeats [Field K] (u : Unroll K O S P N) (cell : P → TimeStep K O → S → N × S) (hu : Unrolls u cell) (sample : Key → N → A) (envStep : E → A → E × TimeStep K O) (U T : Nat) (p : P)
    (runs : List (List Key × E × TimeStep K O × S)) (hT : ∀ r ∈ runs, r.1.length = T) :
    let traj := fun r : List Key × E × TimeStep K O × S => Verif.Props.ImpalaActor.play ⟨agentStep cell sample, Prod.snd, envStep, U⟩ (r.1.map fun k => (k, p)) r.2
    ∀ b r, runs[b]? = some r →
      column b (agentUnroll u runs.length p (stackTime T (runs.map fun r => (traj r).map Transition.timestep)) (runs.map fun r => r.2.2.2)) = (traj r).map fun t => t.agentOut.1 := by
  intro traj b r hb
  have hlen : ∀ (keys : List Key) (e : E × TimeStep K O × S), (Verif.Props.ImpalaActor.play ⟨agentStep cell sample, Prod.snd, envStep, U⟩ (keys.map fun k => (k, p)) e).length = keys.length := by
    intro keys
    induction keys with
    | nil => intro e; rfl
    | cons k keys ih => intro e; exact congrArg (· + 1) (ih _)
  have hl : ∀ l ∈ runs.map fun r => (traj r).map Transition.timestep, l.length = T := by
    intro l hl
    obtain ⟨q, hq, rfl⟩ := List.mem_map.mp hl
    rw [List.length_map, hlen]
    exact hT q hq
  have hrect := rect_stackTime T _ hl
  rw [List.length_map] at hrect
  obtain ⟨h1, -⟩ := (hu runs.length p _ (runs.map fun r => r.2.2.2) hrect (List.length_map _)).2.2.2 b r.2.2.2 (by rw [List.getElem?_map, hb]; rfl)
  rw [agentUnroll, h1, column_stackTime T _ hl b ((traj r).map Transition.timestep) (by rw [List.getElem?_map, hb]; rfl)]
  exact Verif.Props.ImpalaActor.learner_repeats cell sample envStep U r.1 p r.2.1 r.2.2.1 r.2.2.2

/-- C182: no network of the example carries anything over the beginning of an episode into its outputs, with the LSTM or without. -/
theorem nets_forget [Field K] (c : Catch K O P N) (n : Atari K O S P F N) : Resets (catchCell (S := S) c) ∧ Resets (atariCell n) := by
  have pass : ∀ (f : P → TimeStep K O → N) (p : P) (ts : List (TimeStep K O)) (s s' : S), (netUnroll (fun p t s => (f p t, s)) p ts s).1 = (netUnroll (fun p t s => (f p t, s)) p ts s').1 := by
    intro f p ts
    induction ts with
    | nil => intro s s'; rfl
    | cons t ts ih => intro s s'; exact congrArg (_ :: ·) (ih s s')
  refine ⟨fun p t ts s s' _ => pass (fun p t => c.layers p t.observation) p (t :: ts) s s', ?_⟩
  obtain ⟨deep, shallow, lstm, initial, head, res, useLstm⟩ := n
  intro p t ts s s' ht
  cases useLstm with
  | false =>
    cases res with
    | true => exact pass (fun p t => head p (deep p t.observation)) p (t :: ts) s s'
    | false => exact pass (fun p t => head p (shallow p t.observation)) p (t :: ts) s s'
  | true =>
    have e : atariCell (⟨deep, shallow, lstm, initial, head, res, true⟩ : Atari K O S P F N) p t s = atariCell ⟨deep, shallow, lstm, initial, head, res, true⟩ p t s' := by
      cases res <;> simp [atariCell, ht]
    show (_ :: _ : List N) = _ :: _
    rw [e]

/-- C182: in a batch, the outputs of a trajectory from the first step of an episode on are those of the trajectory cut there, whatever state and batch it is unrolled with. -/
theorem episodes_alone [Field K] (u : Unroll K O S P N) (cell : P → TimeStep K O → S → N × S) (hu : Unrolls u cell) (hf : Resets cell) (B B' : Nat) (p : P) (x x' : List (List (TimeStep K O))) (state state' : List S)
    (hx : Rect B x) (hs : state.length = B) (hx' : Rect B' x') (hs' : state'.length = B') (b b' : Nat) (hb : b < B) (hb' : b' < B') (before : List (TimeStep K O)) (t : TimeStep K O) (after : List (TimeStep K O)) (ht : t.stepType = .first)
    (hc : column b x = before ++ t :: after) (hc' : column b' x' = t :: after) : (column b (u B p x state).1).drop before.length = column b' (u B' p x' state').1 := by
  obtain ⟨s, es⟩ : ∃ s, state[b]? = some s := ⟨_, List.getElem?_eq_getElem (by omega)⟩
  obtain ⟨s', es'⟩ : ∃ s, state'[b']? = some s := ⟨_, List.getElem?_eq_getElem (by omega)⟩
  have happ : ∀ (a c : List (TimeStep K O)) (s : S), (netUnroll cell p (a ++ c) s).1 = (netUnroll cell p a s).1 ++ (netUnroll cell p c (netUnroll cell p a s).2).1 := by
    intro a c
    induction a with
    | nil => intro s; rfl
    | cons t a ih => intro s; exact congrArg (_ :: ·) (ih _)
  have hlen : ∀ (a : List (TimeStep K O)) (s : S), (netUnroll cell p a s).1.length = a.length := by
    intro a
    induction a with
    | nil => intro s; rfl
    | cons t a ih => intro s; exact congrArg (· + 1) (ih _)
  rw [((hu B p x state hx hs).2.2.2 b s es).1, ((hu B' p x' state' hx' hs').2.2.2 b' s' es').1, hc, hc', happ, List.drop_left' (hlen before s)]
  exact hf p t after _ _ ht

/-- One call after another, each from the state of the one before. -/
def calls (n : Atari K O S P F N) (p : P) : List (List (TimeStep K O)) → List S → List (List (List N)) × List S
  | [], state => ([], state)
  | x :: xs, state => ((n.call p x state).1 :: (calls n p xs (n.call p x state).2).1, (calls n p xs (n.call p x state).2).2)

/-- C182: calls of `AtariNet` one after another give the outputs and states of its `unroll`, but each output has one more dimension, of size 1, than the core of a recurrent network should give. -/
theorem calls_keep_time [Field K] (n : Atari K O S P F N) (p : P) (B : Nat) (x : List (List (TimeStep K O))) : ∀ (state : List S), Rect B x → state.length = B →
    calls n p x state = ((n.unroll B p x state).1.map fun row => [row], (n.unroll B p x state).2) := by
  have rows : ∀ state : List S, Rect B x → state.length = B → calls n p x state = ((rowUnroll (atariCell n) p x state).1.map fun row => [row], (rowUnroll (atariCell n) p x state).2) := by
    induction x with
    | nil => intro state _ _; rfl
    | cons row x ih =>
      intro state hx hs
      obtain ⟨hr, hx'⟩ := rect_cons hx
      have e : n.call p row state = rowUnroll (atariCell n) p [row] state := atari_rows n row.length p [row] state (fun q hq => by rw [List.mem_singleton.mp hq]) (by omega)
      rw [calls, e]
      show (_ :: (calls n p x _).1, (calls n p x _).2) = _
      rw [ih _ hx']
      · rfl
      · show (((row.zip state).map _).map Prod.snd).length = B
        rw [List.length_map, List.length_map, List.length_zip, hr, hs, Nat.min_self]
  intro state hx hs
  rw [rows state hx hs, atari_rows n B p x state hx hs]

/-! ### Cases -/

/-- A network with sums for layers. -/
def demoNet (useLstm : Bool) : Atari ℚ ℚ ℚ ℚ ℚ ℚ := ⟨fun p o => p * o, fun p o => p + o, fun _ f s => (f + 10 * s, f + s), 0, fun p f => f - p, false, useLstm⟩

/-- A time step. -/
def demoStep (k : StepType) (o : ℚ) : TimeStep ℚ ℚ := ⟨k, some 0, some 1, o⟩

/-- Two trajectories of three steps; an episode begins within the first. -/
def demoBatch : List (List (TimeStep ℚ ℚ)) := [[demoStep .first 1, demoStep .mid 2], [demoStep .last 3, demoStep .mid 4], [demoStep .first 5, demoStep .last 6]]

-- The state is reset for one trajectory only.
example : ((demoNet true).unroll 2 1 demoBatch [7, 8]).1 = [[1, 82], [23, 114], [5, 166]] := by decide +kernel
example : ((demoNet true).unroll 2 1 demoBatch [7, 8]).2 = [6, 23] := by decide +kernel
example : column 0 demoBatch = [demoStep .first 1, demoStep .last 3] ++ demoStep .first 5 :: [] ∧ Rect 2 demoBatch := by
  refine ⟨by decide +kernel, fun r hr => ?_⟩
  simp [demoBatch] at hr
  rcases hr with rfl | rfl | rfl <;> rfl
-- Without the LSTM the states stay.
example : (demoNet false).unroll 2 1 demoBatch [7, 8] = ([[1, 2], [3, 4], [5, 6]], [7, 8]) := by decide +kernel
-- A call has the time dimension in its output.
example : (demoNet true).call 1 [demoStep .first 1, demoStep .mid 2] [7, 8] = ([[1, 82]], [2, 11]) := by decide +kernel
-- One step of the agent.
example : (step (demoNet true).unroll (fun _ n => decide (n < 5)) (.root 0) 1 (demoStep .mid 2) 3).toOption = some ((32, false), 6) := by decide +kernel
example : stackTime 2 [[1, 2], [3, 4], [5, 6]] = [[1, 3, 5], [2, 4, 6]] := by decide
example : (Catch.unroll (⟨fun p o => p + o⟩ : Catch ℚ ℚ ℚ ℚ) 2 1 demoBatch [7, 8]) = ([[2, 3], [4, 5], [6, 7]], [7, 8]) := by decide +kernel

end Verif.Props.ImpalaNets
