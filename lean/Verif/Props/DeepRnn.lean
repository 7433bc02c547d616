import Verif.Base.Dict
import Verif.Props.Recurrent
import Verif.Model.DeepRnn

/-!
# `DeepRNN` (C57)
-/

set_option linter.unusedVariables false
set_option linter.unusedSectionVars false

namespace Verif.Props.DeepRnn
open Verif.Shapes (Err)
open Verif.Pool (Arr)
open Verif.Recurrent (Nest)
open Verif.DeepRnn
open Verif.Props.Recurrent (bind_ok)

variable {K T σ : Type}

/-! ### Specification -/

/-- The number of recurrent layers. -/
def cores (layers : List (Layer K T σ)) : Nat := layers.countP Layer.isCore

/-- Layer `layer` takes `v` to `v'`; if it is recurrent it takes entry `k` of the old states to entry `k` of the new ones. -/
def Takes (state next : List T) (k : Nat) (layer : Layer K T σ) (v : Nest K) (s : σ) (v' : Nest K) (s' : σ) : Prop :=
  match layer with
  | .core call _ => ∃ t t', state[k]? = some t ∧ next[k]? = some t' ∧ call v t s = .ok (v', t', s')
  | .fn f => f v s = .ok (v', s')

/-- All layers of a list one after the other, from `vs 0`, `ss 0`: the recurrent ones use the entries from `k` on, in their order.  `input` says what a layer with a given number gets from its predecessor. -/
def Chain (input : Nat → Nest K → Except Err (Nest K)) (state next : List T) (k : Nat) (layers : List (Layer K T σ)) (vs : Nat → Nest K) (ss : Nat → σ) : Prop :=
  ∀ i layer, layers[i]? = some layer → ∃ v, input i (vs i) = .ok v ∧ Takes state next (k + cores (layers.take i)) layer v (ss i) (vs (i + 1)) (ss (i + 1))

/-! ### Lemmas -/

/-- The outputs of the recurrent layers. -/
def outsOf : List (Layer K T σ) → (Nat → Nest K) → List (Nest K)
  | [], _ => []
  | l :: ls, vs => (if l.isCore then [vs 1] else []) ++ outsOf ls fun i => vs (i + 1)

theorem outsOf_all : ∀ (layers : List (Layer K T σ)) (vs : Nat → Nest K), (∀ l ∈ layers, l.isCore = true) → outsOf layers vs = (List.range layers.length).map fun i => vs (i + 1)
  | [], _, _ => rfl
  | l :: ls, vs, h => by
    rw [outsOf, if_pos (h l (List.mem_cons_self ..)), outsOf_all ls _ fun l hl => h l (List.mem_cons_of_mem _ hl), List.length_cons, List.range_succ_eq_map, List.map_cons, List.map_map]
    rfl

theorem cores_cons (l : Layer K T σ) (ls : List (Layer K T σ)) : cores (l :: ls) = cores ls + if l.isCore then 1 else 0 := List.countP_cons ..

theorem getState_ok {state : List T} {i : Nat} {t : T} : getState state i = .ok t ↔ state[i]? = some t := by
  unfold getState
  split
  · rename_i h
    rw [h]
    exact ⟨fun h => by cases h; rfl, fun h => by cases h; rfl⟩
  · rename_i h
    rw [h]
    exact ⟨(fun h => by cases h), (fun h => by cases h)⟩

theorem step_ok {skip : Bool} {x : Nest K} {state : List T} {idx : Nat} {layer : Layer K T σ} {l l' : Loop K T σ} (h : step skip x state idx layer l = .ok l') :
    ∃ v news, layerInput skip x idx l.current = .ok v ∧ l'.nextStates = l.nextStates ++ news ∧ news.length = (if layer.isCore then 1 else 0) ∧ l'.stateIdx = l.stateIdx + news.length ∧
      l'.outputs = l.outputs ++ (if layer.isCore then [l'.current] else []) ∧ (∀ rest, Takes (state.drop l.stateIdx) (news ++ rest) 0 layer v l.hk l'.current l'.hk) := by
  obtain ⟨v, h1, h2⟩ := bind_ok h
  cases layer with
  | core call init =>
    obtain ⟨t, h3, h4⟩ := bind_ok h2
    obtain ⟨⟨v', t', s'⟩, h5, h6⟩ := bind_ok h4
    cases h6
    refine ⟨v, [t'], h1, rfl, rfl, rfl, rfl, fun rest => ⟨t, t', ?_, rfl, h5⟩⟩
    rw [List.getElem?_drop]
    exact getState_ok.mp h3
  | fn f =>
    obtain ⟨⟨v', s'⟩, h5, h6⟩ := bind_ok h2
    cases h6
    exact ⟨v, [], h1, (List.append_nil _).symm, rfl, rfl, (List.append_nil _).symm, fun _ => h5⟩

theorem takes_shift {state next : List T} {k n : Nat} {layer : Layer K T σ} {v v' : Nest K} {s s' : σ} {news : List T} (hn : news.length = n) (h : Takes (state.drop n) next k layer v s v' s') :
    Takes state (news ++ next) (n + k) layer v s v' s' := by
  cases layer with
  | core call init =>
    obtain ⟨t, t', h1, h2, h3⟩ := h
    refine ⟨t, t', ?_, ?_, h3⟩
    · rwa [List.getElem?_drop] at h1
    · rw [List.getElem?_append_right (by omega), ← h2]
      congr 1
      omega
  | fn f => exact h

theorem loop_ok {skip : Bool} {x : Nest K} : ∀ {layers : List (Layer K T σ)} {state : List T} {idx : Nat} {l l' : Loop K T σ}, loop skip x state idx layers l = .ok l' →
    ∃ (vs : Nat → Nest K) (ss : Nat → σ) (news : List T), vs 0 = l.current ∧ ss 0 = l.hk ∧ vs layers.length = l'.current ∧ ss layers.length = l'.hk ∧ l'.nextStates = l.nextStates ++ news ∧ news.length = cores layers ∧
      l'.outputs = l.outputs ++ outsOf layers vs ∧ Chain (fun i => layerInput skip x (idx + i)) (state.drop l.stateIdx) news 0 layers vs ss
  | [], state, idx, l, l', h => by
    cases h
    exact ⟨fun _ => l.current, fun _ => l.hk, [], rfl, rfl, rfl, rfl, (List.append_nil _).symm, rfl, (List.append_nil _).symm, (fun i layer h => by cases h)⟩
  | layer :: layers, state, idx, l, l', h => by
    obtain ⟨l1, h1, h2⟩ := bind_ok h
    obtain ⟨v, new, a1, a2, a3, a4, a5, a6⟩ := step_ok h1
    obtain ⟨vs, ss, news, b1, b2, b3, b4, b5, b6, b7, b8⟩ := loop_ok h2
    refine ⟨fun n => match n with | 0 => l.current | n + 1 => vs n, fun n => match n with | 0 => l.hk | n + 1 => ss n, new ++ news, rfl, rfl, b3, b4, ?_, ?_, ?_, ?_⟩
    · rw [b5, a2, List.append_assoc]
    · rw [List.length_append, a3, b6, cores_cons]
      exact Nat.add_comm ..
    · rw [b7, a5, List.append_assoc]
      congr 1
      show _ = (if layer.isCore then [vs 0] else []) ++ outsOf layers vs
      rw [b1]
    · intro i layer' hi
      cases i with
      | zero =>
        cases hi
        refine ⟨v, a1, ?_⟩
        show Takes _ _ 0 layer v l.hk (vs 0) (ss 0)
        rw [b1, b2]
        exact a6 news
      | succ i =>
        obtain ⟨v', c1, c2⟩ := b8 i layer' hi
        refine ⟨v', ?_, ?_⟩
        · show layerInput skip x (idx + (i + 1)) (vs i) = _
          rw [← c1]
          congr 1
          omega
        · have : 0 + cores ((layer :: layers).take (i + 1)) = new.length + (0 + cores (layers.take i)) := by rw [List.take_succ_cons, cores_cons, a3]; omega
          rw [this]
          refine takes_shift rfl ?_
          rw [List.drop_drop]
          rwa [a4] at c2

theorem loop_of {skip : Bool} {x : Nest K} {state : List T} : ∀ {layers : List (Layer K T σ)} {idx : Nat} {l : Loop K T σ} {vs : Nat → Nest K} {ss : Nat → σ} {next : List T}, vs 0 = l.current → ss 0 = l.hk →
    l.stateIdx + cores layers ≤ next.length → Chain (fun i => layerInput skip x (idx + i)) state next l.stateIdx layers vs ss →
    loop skip x state idx layers l = .ok ⟨vs layers.length, l.nextStates ++ (next.drop l.stateIdx).take (cores layers), l.outputs ++ outsOf layers vs, l.stateIdx + cores layers, ss layers.length⟩
  | [], idx, l, vs, ss, next, h1, h2, hl, h => by
    show Except.ok l = Except.ok (Loop.mk (vs 0) (l.nextStates ++ List.take 0 _) (l.outputs ++ []) l.stateIdx (ss 0))
    rw [h1, h2, List.take_zero, List.append_nil, List.append_nil]
  | layer :: layers, idx, l, vs, ss, next, h1, h2, hl, h => by
    obtain ⟨v, hv, ht⟩ := h 0 layer rfl
    dsimp only [Nat.add_zero] at hv
    rw [h1] at hv
    have hrest : ∀ k, k = l.stateIdx + (if layer.isCore then 1 else 0) → Chain (fun i => layerInput skip x (idx + 1 + i)) state next k layers (fun i => vs (i + 1)) (fun i => ss (i + 1)) := by
      intro k hk i layer' hi
      obtain ⟨v', c1, c2⟩ := h (i + 1) layer' hi
      refine ⟨v', ?_, ?_⟩
      · show layerInput skip x (idx + 1 + i) (vs (i + 1)) = _
        rw [Nat.add_assoc, Nat.add_comm 1]
        exact c1
      · rw [List.take_succ_cons, cores_cons] at c2
        have : k + cores (layers.take i) = l.stateIdx + (cores (layers.take i) + if layer.isCore then 1 else 0) := by omega
        rw [this]
        exact c2
    rw [cores_cons] at hl
    have ht' : Takes state next l.stateIdx layer v (ss 0) (vs 1) (ss 1) := ht
    cases layer with
    | core call init =>
      obtain ⟨t, t', e1, e2, e3⟩ := ht'
      rw [h2] at e3
      have hs : step skip x state idx (.core call init) l = .ok ⟨vs 1, l.nextStates ++ [t'], l.outputs ++ [vs 1], l.stateIdx + 1, ss 1⟩ := by
        show (layerInput skip x idx l.current >>= fun c => getState state l.stateIdx >>= fun t => call c t l.hk >>= fun r =>
          Except.ok (Loop.mk r.1 (l.nextStates ++ [r.2.1]) (l.outputs ++ [r.1]) (l.stateIdx + 1) r.2.2)) = _
        rw [hv]
        show (getState state l.stateIdx >>= fun t => call v t l.hk >>= fun r => Except.ok (Loop.mk r.1 (l.nextStates ++ [r.2.1]) (l.outputs ++ [r.1]) (l.stateIdx + 1) r.2.2)) = _
        rw [getState_ok.mpr e1]
        show (call v t l.hk >>= fun r => Except.ok (Loop.mk r.1 (l.nextStates ++ [r.2.1]) (l.outputs ++ [r.1]) (l.stateIdx + 1) r.2.2)) = _
        rw [e3]
        rfl
      show (step skip x state idx (.core call init) l >>= fun l => loop skip x state (idx + 1) layers l) = _
      rw [hs]
      refine (loop_of (vs := fun i => vs (i + 1)) (ss := fun i => ss (i + 1)) (next := next) rfl rfl ?_ (hrest _ rfl)).trans ?_
      · exact Nat.le_trans (Nat.le_of_eq (by show l.stateIdx + 1 + _ = l.stateIdx + (_ + 1); omega)) hl
      · have hd : next.drop l.stateIdx = t' :: next.drop (l.stateIdx + 1) := by
          obtain ⟨hlt, hg⟩ := List.getElem?_eq_some_iff.mp e2
          rw [List.drop_eq_getElem_cons hlt, hg]
        have hc : cores (Layer.core call init :: layers) = cores layers + 1 := cores_cons ..
        rw [hd, hc, List.take_succ_cons]
        show Except.ok (Loop.mk _ ((l.nextStates ++ [t']) ++ _) ((l.outputs ++ [vs 1]) ++ _) (l.stateIdx + 1 + _) _) = Except.ok (Loop.mk _ _ (l.outputs ++ ([vs 1] ++ outsOf layers fun i => vs (i + 1))) _ _)
        rw [List.append_assoc, List.append_assoc, Nat.add_assoc, Nat.add_comm 1]
        rfl
    | fn f =>
      have ht'' : f v (ss 0) = .ok (vs 1, ss 1) := ht'
      rw [h2] at ht''
      have hs : step skip x state idx (.fn f) l = .ok { l with current := vs 1, hk := ss 1 } := by
        show (layerInput skip x idx l.current >>= fun c => f c l.hk >>= fun r => Except.ok { l with current := r.1, hk := r.2 }) = _
        rw [hv]
        show (f v l.hk >>= fun r => Except.ok { l with current := r.1, hk := r.2 }) = _
        rw [ht'']
        rfl
      show (step skip x state idx (.fn f) l >>= fun l => loop skip x state (idx + 1) layers l) = _
      rw [hs]
      refine (loop_of (l := { l with current := vs 1, hk := ss 1 }) (vs := fun i => vs (i + 1)) (ss := fun i => ss (i + 1)) (next := next) rfl rfl ?_ (hrest _ rfl)).trans ?_
      · exact hl
      · rfl

/-! ### C57 -/

/-- C57 A `DeepRNN` succeeds exactly when its layers can be applied in order: each layer gets the output of the one before it, the first the inputs; the `k`-th recurrent layer gets entry `k` of the state and gives entry `k` of the new
state, other layers see no state; the new state has one entry per recurrent layer; the output is that of the last layer. -/
theorem deep_rnn (layers : List (Layer K T σ)) (x : Nest K) (state : List T) (s : σ) (out : Nest K) (next : List T) (s' : σ) :
    (deepRNN layers >>= fun d => d.call x state s) = .ok (out, next, s') ↔
      next.length = cores layers ∧ ∃ (vs : Nat → Nest K) (ss : Nat → σ), vs 0 = x ∧ ss 0 = s ∧ vs layers.length = out ∧ ss layers.length = s' ∧ Chain (fun _ v => .ok v) state next 0 layers vs ss := by
  show ((loop false x state 0 layers ⟨x, [], [], 0, s⟩ >>= fun l => Except.ok (l.current, l.nextStates, l.hk)) = _) ↔ _
  constructor
  · intro h
    obtain ⟨l, h1, h2⟩ := bind_ok h
    cases h2
    obtain ⟨vs, ss, news, b1, b2, b3, b4, b5, b6, b7, b8⟩ := loop_ok h1
    rw [b5]
    exact ⟨b6, vs, ss, b1, b2, b3, b4, b8⟩
  · rintro ⟨h1, vs, ss, h2, h3, h4, h5, h6⟩
    rw [loop_of (skip := false) (x := x) (idx := 0) (state := state) (layers := layers) (l := ⟨x, [], [], 0, s⟩) (next := next) h2 h3 (by show 0 + _ ≤ _; omega) h6]
    show Except.ok (vs layers.length, [] ++ (next.drop 0).take _, ss layers.length) = _
    rw [List.drop_zero, ← h1, List.take_length, h4, h5]
    rfl

/-- Adds its state to the inputs and stores the sum; counts its calls. -/
def exCore (k : Int) : Layer Int Int Nat := .core (fun x t s => .ok (x.map fun a => ⟨a.shape, fun i => a.val i + t⟩, t + k, s + 1)) fun _ => .ok k
/-- Doubles the inputs. -/
def exFn : Layer Int Int Nat := .fn fun x s => .ok (x.map fun a => ⟨a.shape, fun i => 2 * a.val i⟩, s)

example : ((deepRNN [exCore 1, exFn, exCore 2]) >>= fun d => d.call [⟨[], fun _ => 5⟩] [100, 1000] 0).map (fun r => (r.1.map fun a => a.val [], r.2)) = .ok ([2 * (5 + 100) + 1000], [101, 1002], 2) := by decide +kernel

/-- C57 With skip connections: the same, with every layer but the first getting the inputs and the output of its predecessor concatenated, and the outputs of all layers concatenated as the output (`concat_nests` says what
that is). -/
theorem deep_rnn_skip (layers : List (Layer K T σ)) (x : Nest K) (state : List T) (s : σ) (out : Nest K) (next : List T) (s' : σ) :
    (deepRNNWithSkipConnections layers >>= fun d => d.call x state s) = .ok (out, next, s') ↔
      (∀ l ∈ layers, l.isCore = true) ∧ next.length = layers.length ∧ ∃ (vs : Nat → Nest K) (ss : Nat → σ), vs 0 = x ∧ ss 0 = s ∧ concatNests ((List.range layers.length).map fun i => vs (i + 1)) = .ok out ∧ ss layers.length = s' ∧
        Chain (fun i v => if i = 0 then .ok v else concatNests [x, v]) state next 0 layers vs ss := by
  have hin : (fun i => layerInput true x (0 + i)) = fun i v => if i = 0 then .ok v else concatNests [x, v] := by
    funext i v
    unfold layerInput
    rw [Nat.zero_add]
    cases i with
    | zero => rfl
    | succ i => rw [if_pos (by simp), if_neg (Nat.succ_ne_zero i)]
  unfold deepRNNWithSkipConnections DeepRNN.make
  by_cases hall : ∀ l ∈ layers, l.isCore = true
  · have hany : layers.any (fun l => !l.isCore) = false := by
      rw [List.any_eq_false]
      intro l hl
      rw [hall l hl]
      exact Bool.false_ne_true
    have hc : cores layers = layers.length := List.countP_eq_length.mpr hall
    rw [hany]
    show ((loop true x state 0 layers ⟨x, [], [], 0, s⟩ >>= fun l => concatNests l.outputs >>= fun out => Except.ok (out, l.nextStates, l.hk)) = _) ↔ _
    constructor
    · intro h
      obtain ⟨l, h1, h2⟩ := bind_ok h
      obtain ⟨o, h3, h4⟩ := bind_ok h2
      cases h4
      obtain ⟨vs, ss, news, b1, b2, b3, b4, b5, b6, b7, b8⟩ := loop_ok h1
      rw [hin] at b8
      refine ⟨hall, ?_, vs, ss, b1, b2, ?_, b4, ?_⟩
      · rw [b5, ← hc]
        exact b6
      · rw [b7, outsOf_all _ _ hall] at h3
        exact h3
      · rw [b5]
        exact b8
    · rintro ⟨_, h1, vs, ss, h2, h3, h4, h5, h6⟩
      rw [← hin] at h6
      rw [loop_of (l := ⟨x, [], [], 0, s⟩) (next := next) h2 h3 (by show 0 + _ ≤ _; omega) h6]
      show (concatNests ([] ++ outsOf layers vs) >>= fun out => Except.ok (out, [] ++ (next.drop 0).take (cores layers), ss layers.length)) = _
      rw [List.nil_append, outsOf_all _ _ hall, h4, List.drop_zero, hc, ← h1, List.take_length, h1, h5]
      rfl
  · have hany : layers.any (fun l => !l.isCore) = true := by
      cases h : layers.any (fun l => !l.isCore) with
      | true => rfl
      | false =>
        refine (hall fun l hl => ?_).elim
        have := List.any_eq_false.mp h l hl
        cases hl' : l.isCore with
        | true => rfl
        | false => rw [hl'] at this; exact (this rfl).elim
    rw [hany]
    constructor
    · intro h
      cases h
    · intro h
      exact (hall h.1).elim

example : ((deepRNNWithSkipConnections [exCore 1, exCore 2]) >>= fun d => d.call [⟨[1], fun _ => 5⟩] [100, 1000] 0).map (fun r => (r.1.map fun a => (a.shape, [[0], [1], [2]].map a.val), r.2)) =
    .ok ([([3], [105, 1005, 1105])], [101, 1002], 2) := by decide +kernel

/-- C57 Layers that are not recurrent are rejected with skip connections, when the module is made. -/
theorem skip_rejects (layers : List (Layer K T σ)) : deepRNNWithSkipConnections layers = .error .value ↔ ∃ l ∈ layers, l.isCore = false := by
  unfold deepRNNWithSkipConnections DeepRNN.make
  cases h : layers.any (fun l => !l.isCore) with
  | true =>
    obtain ⟨l, h1, h2⟩ := List.any_eq_true.mp h
    exact ⟨fun _ => ⟨l, h1, by cases hl : l.isCore with | true => rw [hl] at h2; cases h2 | false => rfl⟩, fun _ => rfl⟩
  | false =>
    constructor
    · intro h
      cases h
    · rintro ⟨l, h1, h2⟩
      exact (List.any_eq_false.mp h l h1 (by rw [h2]; rfl)).elim

example : ∃ l ∈ [exCore 1, exFn], l.isCore = false := ⟨exFn, List.mem_cons_of_mem _ (List.mem_cons_self ..), rfl⟩

/-- C57 With skip connections and no layers the call raises. -/
theorem skip_empty (x : Nest K) (state : List T) (s : σ) : (deepRNNWithSkipConnections ([] : List (Layer K T σ)) >>= fun d => d.call x state s) = .error .type := rfl

/-- C57 The state must have an entry for every recurrent layer. -/
theorem deep_needs_states (layers : List (Layer K T σ)) (skip : Bool) (x : Nest K) (state : List T) (s : σ) (r : Nest K × List T × σ) (h : (DeepRNN.mk layers skip).call x state s = .ok r) : cores layers ≤ state.length := by
  obtain ⟨l, h1, _⟩ := bind_ok h
  obtain ⟨vs, ss, news, b1, b2, b3, b4, b5, b6, b7, b8⟩ := loop_ok h1
  replace b8 : Chain _ state news 0 layers vs ss := b8
  have : ∀ (layers : List (Layer K T σ)) (k : Nat) (vs : Nat → Nest K) (ss : Nat → σ) (input : Nat → Nest K → Except Err (Nest K)), k ≤ state.length → Chain input state news k layers vs ss → k + cores layers ≤ state.length := by
    intro layers
    induction layers with
    | nil => exact fun k vs ss input hk _ => hk
    | cons layer layers ih =>
      intro k vs ss input hk hch
      rw [cores_cons]
      have hk' : k + (if layer.isCore then 1 else 0) ≤ state.length := by
        obtain ⟨v, _, ht⟩ := hch 0 layer rfl
        cases layer with
        | core call init =>
          obtain ⟨t, t', e1, _⟩ := ht
          have := (List.getElem?_eq_some_iff.mp e1).1
          exact this
        | fn f => exact hk
      have := ih (k + (if layer.isCore then 1 else 0)) (fun i => vs (i + 1)) (fun i => ss (i + 1)) (fun i => input (i + 1)) hk' fun i layer' hi => by
        obtain ⟨v, c1, c2⟩ := hch (i + 1) layer' hi
        refine ⟨v, c1, ?_⟩
        rw [List.take_succ_cons, cores_cons, ← Nat.add_assoc, Nat.add_right_comm] at c2
        exact c2
      omega
  have := this layers 0 vs ss _ (Nat.zero_le _) b8
  omega

example : (((deepRNN [exCore 1, exFn, exCore 2]) >>= fun d => d.call [⟨[], fun _ => 5⟩] [100] 0).map fun r => r.2) = .error .index := by decide +kernel

/-- The entry of the recurrent layer `i` in the initial state of the batch. -/
def initEntry (batch : Option Nat) : Layer K T σ → Option (Except Err T)
  | .core _ init => some (init batch)
  | .fn _ => none

/-- C57 The initial state has one entry per recurrent layer, in order: the initial state of that layer. -/
theorem deep_initial_state (d : DeepRNN K T σ) (batch : Option Nat) (ts : List T) : d.initialState batch = .ok ts ↔ d.layers.filterMap (initEntry batch) = ts.map .ok := by
  unfold DeepRNN.initialState
  have : ∀ (layers : List (Layer K T σ)) (ts : List T), initialStates batch layers = .ok ts ↔ layers.filterMap (initEntry batch) = ts.map .ok := by
    intro layers
    induction layers with
    | nil =>
      intro ts
      constructor
      · intro h
        cases h
        rfl
      · intro h
        cases ts with
        | nil => rfl
        | cons t ts => cases h
    | cons layer layers ih =>
      intro ts
      cases layer with
      | core call init =>
        show (init batch >>= fun t => initialStates batch layers >>= fun ts => Except.ok (t :: ts)) = _ ↔ init batch :: layers.filterMap (initEntry batch) = _
        constructor
        · intro h
          obtain ⟨t, h1, h2⟩ := bind_ok h
          obtain ⟨ts', h3, h4⟩ := bind_ok h2
          cases h4
          rw [h1, (ih ts').mp h3]
          rfl
        · intro h
          cases ts with
          | nil => cases h
          | cons t ts =>
            obtain ⟨h1, h2⟩ := List.cons.inj h
            rw [h1, (ih ts).mpr h2]
            rfl
      | fn f => exact ih ts
  exact this d.layers ts

example : (DeepRNN.mk [exCore 1, exFn, exCore 2] false).initialState none = .ok [1, 2] := rfl

/-! ### Concatenation -/

/-- C57 What concatenating along the last axis does: the pieces follow one another. -/
theorem concat_pieces (pre : List Nat) (pieces : List (Nat × (List Nat → K))) (hne : pieces ≠ []) :
    ∃ y, concat (pieces.map fun p => ⟨pre ++ [p.1], p.2⟩) = .ok y ∧ y.shape = pre ++ [(pieces.map (·.1)).sum] ∧
      ∀ before p after, pieces = before ++ p :: after → ∀ (i : List Nat) j, j < p.1 → y.val (i ++ [(before.map (·.1)).sum + j]) = p.2 (i ++ [j]) := by
  cases pieces with
  | nil => exact (hne rfl).elim
  | cons q qs =>
    have hlast : ∀ n, (pre ++ [n]).getLastD 0 = n := fun n => by rw [List.getLastD_eq_getLast?, List.getLast?_append]; rfl
    refine ⟨⟨pre ++ [((q :: qs).map (·.1)).sum], fun i => pick ⟨pre ++ [q.1], q.2⟩ (qs.map fun p => ⟨pre ++ [p.1], p.2⟩) i.dropLast (i.getLastD 0)⟩, ?_, rfl, ?_⟩
    · rw [List.map_cons]
      unfold concat
      dsimp only
      rw [if_neg]
      · rw [List.dropLast_concat, ← List.map_cons (f := fun p : Nat × (List Nat → K) => (⟨pre ++ [p.1], p.2⟩ : Arr K)), List.map_map]
        congr 4
        refine congrArg List.sum (List.map_congr_left fun p _ => ?_)
        exact hlast p.1
      · rintro (h | h)
        · exact (List.append_ne_nil_of_right_ne_nil _ (List.cons_ne_nil _ _)) h
        · obtain ⟨y, hy, h⟩ := List.any_eq_true.mp h
          obtain ⟨p, _, rfl⟩ := List.mem_map.mp hy
          dsimp only at h
          rw [List.dropLast_concat, List.dropLast_concat] at h
          simp at h
    · intro before p after h i j hj
      dsimp only
      rw [List.dropLast_concat, List.getLastD_eq_getLast?, List.getLast?_append]
      show pick _ _ i ((before.map (·.1)).sum + j) = _
      clear hne
      induction before generalizing q qs with
      | nil =>
        obtain ⟨rfl, rfl⟩ := List.cons.inj h
        show pick _ _ i (0 + j) = _
        rw [Nat.zero_add]
        cases qs with
        | nil => rfl
        | cons q' qs =>
          show (if j < (pre ++ [q.1]).getLastD 0 then _ else _) = _
          rw [hlast, if_pos hj]
      | cons b before ih =>
        obtain ⟨rfl, rfl⟩ := List.cons.inj h
        rw [List.map_cons, List.sum_cons]
        have hne : before ++ p :: after ≠ [] := by simp
        change pick _ (List.map _ (before ++ p :: after)) i _ = _
        cases hq : before ++ p :: after with
        | nil => exact (hne hq).elim
        | cons q' qs' =>
          show (if _ < (pre ++ [q.1]).getLastD 0 then _ else pick _ _ i (_ - (pre ++ [q.1]).getLastD 0)) = _
          rw [hlast, if_neg (by omega), Nat.add_assoc, Nat.add_sub_cancel_left]
          exact ih q' qs' hq.symm

example : (concat [⟨[2, 1], fun i => i.sum⟩, (⟨[2, 2], fun i => 10 + i.sum⟩ : Arr Nat)]).map (fun y => (y.shape, [[1, 0], [1, 1], [1, 2]].map y.val)) = .ok ([2, 3], [1, 11, 12]) := by decide +kernel

/-- C57 Nests of the same structure are concatenated leaf by leaf: `a i j` is leaf `j` of nest `i`. -/
theorem concat_nests (a : Nat → Nat → Arr K) (k m : Nat) : concatNests ((List.range (k + 1)).map fun i => (List.range m).map (a i)) = (List.range m).mapM fun j => concat ((List.range (k + 1)).map fun i => a i j) := by
  have hcols : ∀ k (a : Nat → Nat → Arr K), columns ((List.range m).map (a 0)) ((List.range k).map fun i => (List.range m).map (a (i + 1))) = .ok ((List.range m).map fun j => (List.range (k + 1)).map fun i => a i j) := by
    intro k
    induction k with
    | zero =>
      intro a
      show Except.ok (List.map _ (List.map _ _)) = _
      rw [List.map_map]
      rfl
    | succ k ih =>
      intro a
      rw [List.range_succ_eq_map, List.map_cons, List.map_map]
      show (columns ((List.range m).map (a 1)) ((List.range k).map fun i => (List.range m).map (a (i + 1 + 1))) >>= fun cols =>
        if cols.length = ((List.range m).map (a 0)).length then Except.ok (List.zipWith (· :: ·) ((List.range m).map (a 0)) cols) else Except.error Err.value) = _
      rw [ih fun i => a (i + 1)]
      show (if _ then _ else _) = _
      rw [if_pos (by rw [List.length_map, List.length_map]), List.zipWith_map, List.zipWith_self]
      congr 1
      refine List.map_congr_left fun j _ => ?_
      rw [List.range_succ_eq_map (n := k + 1), List.map_cons, List.map_map]
      rfl
  rw [List.range_succ_eq_map, List.map_cons, List.map_map]
  show (columns ((List.range m).map (a 0)) ((List.range k).map fun i => (List.range m).map (a (i + 1))) >>= fun cols => cols.mapM concat) = _
  rw [hcols k a]
  show List.mapM concat _ = _
  rw [Verif.Props.Recurrent.mapM_map, ← List.range_succ_eq_map]

example : (concatNests [[⟨[1], fun _ => 1⟩, ⟨[2], fun _ => 2⟩], [⟨[1], fun _ => 3⟩, (⟨[1], fun _ => 4⟩ : Arr Nat)]]).map (fun n => n.map fun y => (y.shape, [[0], [1], [2]].map y.val)) = .ok [([2], [1, 3, 3]), ([3], [2, 2, 4])] := by
  decide +kernel

/-! ### Unrolling -/

/-- Calling a core on one step after another. -/
def unrollCall {V S σ : Type} (call : V → S → σ → Except Err (V × S × σ)) : List V → S → σ → Except Err (List V × S × σ)
  | [], st, s => .ok ([], st, s)
  | x :: xs, st, s => do
    let a ← call x st s
    let b ← unrollCall call xs a.2.1 a.2.2
    .ok (a.1 :: b.1, b.2)

/-- A layer as a mathematical function: with a state, or without. -/
inductive Fun (K T : Type) where
  | core (f : Nest K → T → Nest K × T)
  | fn (f : Nest K → Nest K)

/-- The layer computes that function and leaves the Haiku state alone. -/
def Computes (layer : Layer K T σ) (f : Fun K T) : Prop :=
  match layer, f with
  | .core call _, .core f => ∀ x t s, call x t s = .ok ((f x t).1, (f x t).2, s)
  | .fn g, .fn f => ∀ x s, g x s = .ok (f x, s)
  | _, _ => False

/-- Running one recurrent layer over a sequence. -/
def runCore (f : Nest K → T → Nest K × T) : List (Nest K) → T → List (Nest K) × T
  | [], t => ([], t)
  | x :: xs, t => ((f x t).1 :: (runCore f xs (f x t).2).1, (runCore f xs (f x t).2).2)

/-- Layer by layer: each layer runs over the whole sequence of outputs of its predecessor, a recurrent one from its own initial state. -/
def layerwise : List (Fun K T) → List (Nest K) → List T → List (Nest K) × List T
  | [], xs, _ => (xs, [])
  | .core f :: fs, xs, t :: ts => ((layerwise fs (runCore f xs t).1 ts).1, (runCore f xs t).2 :: (layerwise fs (runCore f xs t).1 ts).2)
  | .core _ :: _, xs, [] => (xs, [])
  | .fn f :: fs, xs, ts => layerwise fs (xs.map f) ts

/-- One step, on functions. -/
def oneStep : List (Fun K T) → Nest K → List T → Nest K × List T
  | [], x, _ => (x, [])
  | .core f :: fs, x, t :: ts => ((oneStep fs (f x t).1 ts).1, (f x t).2 :: (oneStep fs (f x t).1 ts).2)
  | .core _ :: _, x, [] => (x, [])
  | .fn f :: fs, x, ts => oneStep fs (f x) ts

/-- The number of recurrent layers. -/
def recurrent : List (Fun K T) → Nat
  | [] => 0
  | .core _ :: fs => recurrent fs + 1
  | .fn _ :: fs => recurrent fs

theorem loop_step (x : Nest K) : ∀ (layers : List (Layer K T σ)) (fs : List (Fun K T)) (state : List T) (idx : Nat) (l : Loop K T σ), List.Forall₂ Computes layers fs → l.stateIdx + recurrent fs = state.length →
    ∃ outs n, loop false x state idx layers l = .ok ⟨(oneStep fs l.current (state.drop l.stateIdx)).1, l.nextStates ++ (oneStep fs l.current (state.drop l.stateIdx)).2, outs, n, l.hk⟩
  | [], _, state, idx, l, .nil, hl => ⟨l.outputs, l.stateIdx, by
      show Except.ok l = Except.ok (Loop.mk l.current (l.nextStates ++ []) _ _ _)
      rw [List.append_nil]⟩
  | layer :: layers, _, state, idx, l, .cons (b := f) (l₂ := fs) h hs, hl => by
    cases layer with
    | core call init =>
      cases f with
      | fn f => cases h
      | core f =>
        have hlt : l.stateIdx < state.length := by have : recurrent (Fun.core f :: fs) = recurrent fs + 1 := rfl; omega
        have hd := List.drop_eq_getElem_cons hlt
        have hstep : step false x state idx (.core call init) l = .ok ⟨(f l.current state[l.stateIdx]).1, l.nextStates ++ [(f l.current state[l.stateIdx]).2], l.outputs ++ [(f l.current state[l.stateIdx]).1], l.stateIdx + 1, l.hk⟩ := by
          show (getState state l.stateIdx >>= fun t => call l.current t l.hk >>= fun r => Except.ok (Loop.mk r.1 (l.nextStates ++ [r.2.1]) (l.outputs ++ [r.1]) (l.stateIdx + 1) r.2.2)) = _
          rw [getState_ok.mpr (List.getElem?_eq_getElem hlt)]
          show (call l.current state[l.stateIdx] l.hk >>= fun r => Except.ok (Loop.mk r.1 (l.nextStates ++ [r.2.1]) (l.outputs ++ [r.1]) (l.stateIdx + 1) r.2.2)) = _
          rw [h]
          rfl
        obtain ⟨outs, n, e⟩ := loop_step x layers fs state (idx + 1) ⟨(f l.current state[l.stateIdx]).1, l.nextStates ++ [(f l.current state[l.stateIdx]).2], l.outputs ++ [(f l.current state[l.stateIdx]).1], l.stateIdx + 1, l.hk⟩ hs
          (by show l.stateIdx + 1 + _ = _; have : recurrent (Fun.core f :: fs) = recurrent fs + 1 := rfl; omega)
        refine ⟨outs, n, ?_⟩
        show (step false x state idx (.core call init) l >>= fun l => loop false x state (idx + 1) layers l) = _
        rw [hstep]
        refine e.trans ?_
        rw [hd]
        dsimp only [oneStep]
        rw [List.append_assoc]
        rfl
    | fn g =>
      cases f with
      | core f => cases h
      | fn f =>
        have hstep : step false x state idx (.fn g) l = .ok { l with current := f l.current } := by
          show (g l.current l.hk >>= fun r => Except.ok { l with current := r.1, hk := r.2 }) = _
          rw [h]
          rfl
        obtain ⟨outs, n, e⟩ := loop_step x layers fs state (idx + 1) { l with current := f l.current } hs hl
        refine ⟨outs, n, ?_⟩
        show (step false x state idx (.fn g) l >>= fun l => loop false x state (idx + 1) layers l) = _
        rw [hstep]
        exact e

theorem oneStep_length : ∀ (fs : List (Fun K T)) (x : Nest K) (ts : List T), ts.length = recurrent fs → (oneStep fs x ts).2.length = recurrent fs
  | [], _, _, _ => rfl
  | .core f :: fs, x, [], h => by cases h
  | .core f :: fs, x, t :: ts, h => by
    show (oneStep fs (f x t).1 ts).2.length + 1 = recurrent fs + 1
    rw [oneStep_length fs _ _ (Nat.succ.inj h)]
  | .fn f :: fs, x, ts, h => oneStep_length fs (f x) ts h

/-- The layers step by step. -/
def stepwise (fs : List (Fun K T)) : List (Nest K) → List T → List (Nest K) × List T
  | [], ts => ([], ts)
  | x :: xs, ts => ((oneStep fs x ts).1 :: (stepwise fs xs (oneStep fs x ts).2).1, (stepwise fs xs (oneStep fs x ts).2).2)

theorem stepwise_eq : ∀ (fs : List (Fun K T)) (xs : List (Nest K)) (ts : List T), ts.length = recurrent fs → stepwise fs xs ts = layerwise fs xs ts
  | [], xs, ts, h => by
    cases List.eq_nil_of_length_eq_zero h
    induction xs with
    | nil => rfl
    | cons x xs ih =>
      show (x :: (stepwise [] xs []).1, (stepwise [] xs []).2) = _
      rw [ih]
      rfl
  | .core f :: fs, xs, [], h => by cases h
  | .core f :: fs, xs, t :: ts, h => by
    show _ = ((layerwise fs (runCore f xs t).1 ts).1, (runCore f xs t).2 :: (layerwise fs (runCore f xs t).1 ts).2)
    rw [← stepwise_eq fs _ ts (Nat.succ.inj h)]
    have hts : ts.length = recurrent fs := Nat.succ.inj h
    clear h
    induction xs generalizing t ts with
    | nil => rfl
    | cons x xs ih =>
      show ((oneStep fs (f x t).1 ts).1 :: (stepwise (.core f :: fs) xs ((f x t).2 :: (oneStep fs (f x t).1 ts).2)).1, (stepwise (.core f :: fs) xs ((f x t).2 :: (oneStep fs (f x t).1 ts).2)).2) = _
      rw [ih _ _ (oneStep_length fs _ _ hts)]
      rfl
  | .fn f :: fs, xs, ts, h => by
    show _ = layerwise fs (xs.map f) ts
    rw [← stepwise_eq fs _ ts h]
    clear h
    induction xs generalizing ts with
    | nil => rfl
    | cons x xs ih =>
      show ((oneStep fs (f x) ts).1 :: (stepwise (.fn f :: fs) xs (oneStep fs (f x) ts).2).1, (stepwise (.fn f :: fs) xs (oneStep fs (f x) ts).2).2) = _
      rw [ih]
      rfl

/-- C57 Each recurrent layer sees exactly its own previous state: calling a `DeepRNN` on one step after another is running the layers one after the other over the whole sequence, each from its own entry of the state. -/
theorem deep_layerwise (layers : List (Layer K T σ)) (fs : List (Fun K T)) (h : List.Forall₂ Computes layers fs) (xs : List (Nest K)) (ts : List T) (hts : ts.length = recurrent fs) (s : σ) :
    unrollCall (DeepRNN.mk layers false).call xs ts s = .ok ((layerwise fs xs ts).1, (layerwise fs xs ts).2, s) := by
  rw [← stepwise_eq fs xs ts hts]
  induction xs generalizing ts with
  | nil => rfl
  | cons x xs ih =>
    have hcall : (DeepRNN.mk layers false).call x ts s = .ok ((oneStep fs x ts).1, (oneStep fs x ts).2, s) := by
      obtain ⟨outs, n, e⟩ := loop_step x layers fs ts 0 ⟨x, [], [], 0, s⟩ h ((Nat.zero_add _).trans hts.symm)
      show (loop false x ts 0 layers ⟨x, [], [], 0, s⟩ >>= fun l => Except.ok (l.current, l.nextStates, l.hk)) = _
      rw [e]
      rfl
    show ((DeepRNN.mk layers false).call x ts s >>= fun a => unrollCall (DeepRNN.mk layers false).call xs a.2.1 a.2.2 >>= fun b => Except.ok (a.1 :: b.1, b.2)) = _
    rw [hcall]
    show (unrollCall (DeepRNN.mk layers false).call xs (oneStep fs x ts).2 s >>= fun b => Except.ok ((oneStep fs x ts).1 :: b.1, b.2)) = _
    rw [ih _ (oneStep_length fs x ts hts)]
    rfl

/-- A sum over time, then doubling, then another sum. -/
def exLayers : List (Layer Int Int Unit) :=
  [.core (fun x t s => .ok ([⟨[], fun _ => t⟩], t + (x.map fun a => a.val []).sum, s)) fun _ => .ok 0, .fn fun x s => .ok (x.map fun a => ⟨a.shape, fun i => 2 * a.val i⟩, s),
    .core (fun x t s => .ok ([⟨[], fun _ => t⟩], t + (x.map fun a => a.val []).sum, s)) fun _ => .ok 0]

def exFuns : List (Fun Int Int) :=
  [.core fun x t => ([⟨[], fun _ => t⟩], t + (x.map fun a => a.val []).sum), .fn fun x => x.map fun a => ⟨a.shape, fun i => 2 * a.val i⟩, .core fun x t => ([⟨[], fun _ => t⟩], t + (x.map fun a => a.val []).sum)]

example : List.Forall₂ Computes exLayers exFuns ∧ recurrent exFuns = 2 :=
  ⟨.cons (fun _ _ _ => rfl) (.cons (fun _ _ => rfl) (.cons (fun _ _ _ => rfl) .nil)), rfl⟩

example : (unrollCall (DeepRNN.mk exLayers false).call [[⟨[], fun _ => 1⟩], [⟨[], fun _ => 2⟩], [⟨[], fun _ => 3⟩]] [100, 1000] ()).map (fun r => (r.1.map fun x => x.map fun a => a.val [], r.2)) =
    .ok ([[1000], [1200], [1402]], [106, 1608], ()) := by decide +kernel

end Verif.Props.DeepRnn
