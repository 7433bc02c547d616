import Verif.Model.CharRnn
import Verif.Props.Cores
import Verif.Props.DeepRnn
import Verif.Props.Transformer

/-!
# The character model example: its network and its sampling (C160, C162)
-/

set_option linter.unusedVariables false
set_option linter.unusedSectionVars false

namespace Verif.Props.CharRnn
open Verif.Shapes (Err)
open Verif.Pool (Arr)
open Verif.Mlp (ParamFn MLP Linear)
open Verif.Nd (zip map)
open Verif.Recurrent (Nest Core dynamicUnroll sliceAt scanLoop stackNests shapes)
open Verif.Cores (LSTM lstmCore zeroState)
open Verif.DeepRnn (Layer DeepRNN deepRNN)
open Verif.Props.Reset (Valid)
open Verif.Props.Cores (Has lin vec linear_run lstm_equations lstm_congr lstmHidden lstmCell zip_same lin_congr)
open Verif.Props.Norm (bind_eq bind_err)
open Verif.ResNet (relu)
open Verif.CharRnn

variable {K : Type}

/-! ### Specification -/

/-- The parameters of the network. -/
structure Params (K : Type) where
  w1 : Arr K
  b1 : Arr K
  w2 : Arr K
  b2 : Arr K
  u0 : Arr K
  a0 : Arr K
  u1 : Arr K
  a1 : Arr K

/-- They are the parameters of the modules, with the shapes that these ask for. -/
structure Params.Of (P : Params K) (S : Setting K) (hs : Nat) : Prop where
  w1 : Has S.get "lstm/linear" "w" [128 + hs, 4 * hs] P.w1
  b1 : Has S.get "lstm/linear" "b" [4 * hs] P.b1
  w2 : Has S.get "lstm_1/linear" "w" [hs + hs, 4 * hs] P.w2
  b2 : Has S.get "lstm_1/linear" "b" [4 * hs] P.b2
  u0 : Has S.get "mlp/~/linear_0" "w" [hs, hs] P.u0
  a0 : Has S.get "mlp/~/linear_0" "b" [hs] P.a0
  u1 : Has S.get "mlp/~/linear_1" "w" [hs, 128] P.u1
  a1 : Has S.get "mlp/~/linear_1" "b" [128] P.a1

/-- The state of the two LSTMs for one text. -/
structure State (K : Type) where
  h1 : Nat → K
  c1 : Nat → K
  h2 : Nat → K
  c2 : Nat → K

variable [Field K] [LinearOrder K]

/-- A character as a vector. -/
def hot (c : Nat) : Nat → K := fun k => if c = k then 1 else 0

/-- The state after one more character. -/
def Params.next (P : Params K) (S : Setting K) (hs : Nat) (c : Nat) (s : State K) : State K :=
  let h1 := lstmHidden S.sigmoid S.tanh 128 hs P.w1 P.b1 (hot c) s.h1 s.c1
  let y := fun k => max (h1 k) 0
  ⟨h1, lstmCell S.sigmoid S.tanh 128 hs P.w1 P.b1 (hot c) s.h1 s.c1, lstmHidden S.sigmoid S.tanh hs hs P.w2 P.b2 y s.h2 s.c2, lstmCell S.sigmoid S.tanh hs hs P.w2 P.b2 y s.h2 s.c2⟩

/-- The logits of the next character in a state. -/
def Params.logit (P : Params K) (hs : Nat) (s : State K) (j : Nat) : K := lin hs P.u1 0 (fun k => max (lin hs P.u0 0 s.h2 k + P.a0.val [k]) 0) j + P.a1.val [j]

/-- The state after a text. -/
def Params.after (P : Params K) (S : Setting K) (hs : Nat) (text : List Nat) : State K := text.foldl (fun s c => P.next S hs c s) ⟨fun _ => 0, fun _ => 0, fun _ => 0, fun _ => 0⟩

/-- The logits of the character after a text. -/
def Params.predict (P : Params K) (S : Setting K) (hs : Nat) (text : List Nat) : List K := (List.range 128).map (P.logit hs (P.after S hs text))

/-! ### Lemmas -/

/-- The leaves of the state hold the states of several texts, by batch index. -/
def Holds (p : List Nat) (hs : Nat) (st : Nest K) (f : List Nat → State K) : Prop :=
  ∃ h1 c1 h2 c2, st = [h1, c1, h2, c2] ∧ (h1.shape = p ++ [hs] ∧ c1.shape = p ++ [hs] ∧ h2.shape = p ++ [hs] ∧ c2.shape = p ++ [hs]) ∧
    ∀ q, Valid p q → ∀ j, j < hs → vec h1 q j = (f q).h1 j ∧ vec c1 q j = (f q).c1 j ∧ vec h2 q j = (f q).h2 j ∧ vec c2 q j = (f q).c2 j

theorem name_zero : "mlp/~/" ++ ("linear_" ++ toString 0) = "mlp/~/linear_0" := by decide +kernel

theorem name_one : "mlp/~/" ++ ("linear_" ++ toString 1) = "mlp/~/linear_1" := by decide +kernel

theorem has_under {S : Setting K} {md nm full : String} {s : List Nat} {w : Arr K} (hn : "mlp/~/" ++ md = full) (h : Has S.get full nm s w) : Has (fun md nm => S.get ("mlp/~/" ++ md) nm) md nm s w := by
  subst hn
  exact h

theorem head_run {S : Setting K} {P : Params K} {hs : Nat} (hP : P.Of S hs) {x : Arr K} {p : List Nat} (hx : x.shape = p ++ [hs]) :
    ∃ y, head S hs x = .ok y ∧ y.shape = p ++ [128] ∧ ∀ q j, vec y q j = lin hs P.u1 0 (fun k => max (lin hs P.u0 0 (vec x q) k + P.a0.val [k]) 0) j + P.a1.val [j] := by
  obtain ⟨a, l1, e1, s1, v1⟩ := linear_run (get := fun md nm => S.get ("mlp/~/" ++ md) nm) (l := ⟨"linear_" ++ toString 0, none, some hs, true⟩) hx rfl (has_under name_zero hP.u0) (fun _ => has_under name_zero hP.a0)
  obtain ⟨b, l2, e2, s2, v2⟩ := linear_run (get := fun md nm => S.get ("mlp/~/" ++ md) nm) (l := ⟨"linear_" ++ toString 1, none, some 128, true⟩) (x := relu a) (p := p) s1 rfl (has_under name_one hP.u1) (fun _ => has_under name_one hP.a1)
  refine ⟨b, ?_, s2, fun q j => ?_⟩
  · unfold head MLP.make
    rw [if_neg (by decide)]
    show (MLP.call _ _ _ x none none >>= fun r => Except.ok r.1) = _
    have h : Verif.Mlp.runLayers (fun md nm => S.get ("mlp/~/" ++ md) nm) (fun _ _ _ _ => true) relu false 2 0
        [⟨"linear_" ++ toString 0, none, some hs, true⟩, ⟨"linear_" ++ toString 1, none, some 128, true⟩] none x = .ok (b, [l1, l2]) := by
      unfold Verif.Mlp.runLayers
      rw [bind_eq e1]
      dsimp only
      rw [if_pos (.inl (by decide))]
      show (Verif.Mlp.runLayers _ _ relu false 2 1 _ none (relu a) >>= _) = _
      unfold Verif.Mlp.runLayers
      rw [bind_eq e2]
      rfl
    unfold MLP.call
    dsimp only
    show ((Verif.Mlp.runLayers (fun md nm => S.get ("mlp/~/" ++ md) nm) (fun _ _ _ _ => true) relu false 2 0
        [⟨"linear_" ++ toString 0, none, some hs, true⟩, ⟨"linear_" ++ toString 1, none, some 128, true⟩] none x >>= _) >>= _) = _
    rw [h]
    rfl
  · rw [v2 q j, if_pos rfl]
    congr 1
    refine lin_congr (fun k _ => ?_) j
    show max (vec a q k) 0 = _
    rw [v1 q k, if_pos rfl]

theorem hot_vec [CharZero K] {x : Arr K} {p q : List Nat} {c : Nat} (hx : x.val q = (c : K)) : vec (oneHot 128 x) q = hot c := by
  funext k
  show (if x.val (q ++ [k]).dropLast = (((q ++ [k]).getLastD 0 : Nat) : K) then (1 : K) else 0) = if c = k then 1 else 0
  rw [List.dropLast_concat, List.getLastD_concat, hx]
  by_cases h : c = k
  · rw [if_pos h, if_pos (by rw [h])]
  · rw [if_neg h, if_neg (fun e => h (Nat.cast_injective e))]

theorem loop_cons {T σ : Type} (skip : Bool) (x : Nest K) (state : List T) (idx : Nat) (l : Layer K T σ) (ls : List (Layer K T σ)) (s : Verif.DeepRnn.Loop K T σ) :
    Verif.DeepRnn.loop skip x state idx (l :: ls) s = (Verif.DeepRnn.step skip x state idx l s >>= fun s => Verif.DeepRnn.loop skip x state (idx + 1) ls s) := rfl

/-- The layers one after the other. -/
theorem network_call {f1 f2 : Arr K → Arr K} {g : Arr K → Except Err (Arr K)} {L1 L2 : Nest K → Nest K → Unit → Except Err (Nest K × Nest K × Unit)} {i1 i2 : Option Nat → Except Err (Nest K)} {x h1 c1 h2 c2 h1' c1' h2' c2' y : Arr K}
    (e1 : L1 [f1 x] [h1, c1] () = .ok ([h1'], [h1', c1'], ())) (e2 : L2 [f2 h1'] [h2, c2] () = .ok ([h2'], [h2', c2'], ())) (e3 : (g h2' >>= fun y => Except.ok ([y], ())) = (.ok ([y], ()) : Except Err (Nest K × Unit))) :
    asCore ⟨[fnLayer fun x => .ok (f1 x), .core L1 i1, fnLayer fun x => .ok (f2 x), .core L2 i2, fnLayer g], false⟩ [x] [h1, c1, h2, c2] () = .ok ([y], [h1', c1', h2', c2'], ()) := by
  have a1 : Verif.DeepRnn.step false [x] [[h1, c1], [h2, c2]] 0 (fnLayer fun x => .ok (f1 x)) ⟨[x], [], [], 0, ()⟩ = .ok ⟨[f1 x], [], [], 0, ()⟩ := rfl
  have a2 : Verif.DeepRnn.step false [x] [[h1, c1], [h2, c2]] 1 (.core L1 i1) ⟨[f1 x], [], [], 0, ()⟩ = .ok ⟨[h1'], [[h1', c1']], [[h1']], 1, ()⟩ := by
    show (L1 [f1 x] [h1, c1] () >>= _) = _
    rw [e1]
    rfl
  have a3 : Verif.DeepRnn.step false [x] [[h1, c1], [h2, c2]] 2 (fnLayer fun x => .ok (f2 x)) ⟨[h1'], [[h1', c1']], [[h1']], 1, ()⟩ = .ok ⟨[f2 h1'], [[h1', c1']], [[h1']], 1, ()⟩ := rfl
  have a4 : Verif.DeepRnn.step false [x] [[h1, c1], [h2, c2]] 3 (.core L2 i2) ⟨[f2 h1'], [[h1', c1']], [[h1']], 1, ()⟩ = .ok ⟨[h2'], [[h1', c1'], [h2', c2']], [[h1'], [h2']], 2, ()⟩ := by
    show (L2 [f2 h1'] [h2, c2] () >>= _) = _
    rw [e2]
    rfl
  have a5 : Verif.DeepRnn.step false [x] [[h1, c1], [h2, c2]] 4 (fnLayer g) ⟨[h2'], [[h1', c1'], [h2', c2']], [[h1'], [h2']], 2, ()⟩ = .ok ⟨[y], [[h1', c1'], [h2', c2']], [[h1'], [h2']], 2, ()⟩ := by
    show ((g h2' >>= fun y => Except.ok ([y], ())) >>= _) = _
    rw [e3]
    rfl
  have hl : Verif.DeepRnn.loop false [x] [[h1, c1], [h2, c2]] 0 [fnLayer fun x => .ok (f1 x), .core L1 i1, fnLayer fun x => .ok (f2 x), .core L2 i2, fnLayer g] ⟨[x], [], [], 0, ()⟩ =
      .ok ⟨[y], [[h1', c1'], [h2', c2']], [[h1'], [h2']], 2, ()⟩ := by
    rw [loop_cons, bind_eq a1, loop_cons, bind_eq a2, loop_cons, bind_eq a3, loop_cons, bind_eq a4, loop_cons, bind_eq a5]
    rfl
  show ((Verif.DeepRnn.loop false [x] [[h1, c1], [h2, c2]] 0 [fnLayer fun x => .ok (f1 x), .core L1 i1, fnLayer fun x => .ok (f2 x), .core L2 i2, fnLayer g] ⟨[x], [], [], 0, ()⟩ >>= _) >>= _) = _
  rw [hl]
  rfl

/-- The network. -/
def net (S : Setting K) (hs : Nat) : DeepRNN K (Nest K) Unit :=
  ⟨[fnLayer fun x => .ok (oneHot numChars x), .core (lstmCore S.get S.sigmoid S.tanh ⟨"lstm", hs⟩).call (lstmCore (σ := Unit) S.get S.sigmoid S.tanh ⟨"lstm", hs⟩).initialState, fnLayer fun x => .ok (relu x),
    .core (lstmCore S.get S.sigmoid S.tanh ⟨"lstm_1", hs⟩).call (lstmCore (σ := Unit) S.get S.sigmoid S.tanh ⟨"lstm_1", hs⟩).initialState, fnLayer (head S hs)], false⟩

theorem made (S : Setting K) (hs : Nat) : makeNetwork S hs = .ok (net S hs) := rfl

/-- One step of the network. -/
theorem network_step [CharZero K] {S : Setting K} {P : Params K} {hs : Nat} (hP : P.Of S hs) {p : List Nat} (hp : p.length ≤ 1) {x : Arr K} (hx : x.shape = p) {c : List Nat → Nat} (hc : ∀ q, Valid p q → x.val q = (c q : K))
    {st : Nest K} {f : List Nat → State K} (hst : Holds p hs st f) :
    ∃ y st', asCore (net S hs) [x] st () = .ok ([y], st', ()) ∧ y.shape = p ++ [128] ∧ Holds p hs st' (fun q => P.next S hs (c q) (f q)) ∧
      ∀ q, Valid p q → ∀ j, vec y q j = P.logit hs (P.next S hs (c q) (f q)) j := by
  obtain ⟨h1, c1, h2, c2, rfl, ⟨s1, s2, s3, s4⟩, hv⟩ := hst
  have s0 : (oneHot 128 x).shape = p ++ [128] := by show x.shape ++ [128] = _; rw [hx]
  obtain ⟨h1', c1', e1, t1, t2, r1⟩ := lstm_equations (get := S.get) (sigmoid := S.sigmoid) (tanh := S.tanh) (m := ⟨"lstm", hs⟩) hp s0 s1 s2 hP.w1 hP.b1
  obtain ⟨h2', c2', e2, t3, t4, r2⟩ := lstm_equations (get := S.get) (sigmoid := S.sigmoid) (tanh := S.tanh) (m := ⟨"lstm_1", hs⟩) (x := relu h1') hp t1 s3 s4 hP.w2 hP.b2
  obtain ⟨y, e3, t5, r3⟩ := head_run hP t3
  have k1 : ∀ q, Valid p q → ∀ j, j < hs → vec h1' q j = (P.next S hs (c q) (f q)).h1 j ∧ vec c1' q j = (P.next S hs (c q) (f q)).c1 j := by
    intro q hq j hj
    obtain ⟨a, b⟩ := r1 q hq j hj
    obtain ⟨d, e⟩ := lstm_congr (sigmoid := S.sigmoid) (tanh := S.tanh) (w := P.w1) (b := P.b1) (n := 128) (hs := hs) (x := vec (oneHot 128 x) q) (x' := hot (c q)) (h := vec h1 q) (h' := (f q).h1) (c := vec c1 q) (c' := (f q).c1)
      (fun k _ => by rw [hot_vec (p := p) (hc q hq)]) (fun k hk => (hv q hq k hk).1) (fun k hk => (hv q hq k hk).2.1) hj
    exact ⟨a.trans e, b.trans d⟩
  have k2 : ∀ q, Valid p q → ∀ j, j < hs → vec h2' q j = (P.next S hs (c q) (f q)).h2 j ∧ vec c2' q j = (P.next S hs (c q) (f q)).c2 j := by
    intro q hq j hj
    obtain ⟨a, b⟩ := r2 q hq j hj
    obtain ⟨d, e⟩ := lstm_congr (sigmoid := S.sigmoid) (tanh := S.tanh) (w := P.w2) (b := P.b2) (n := hs) (hs := hs) (x := vec (relu h1') q) (x' := fun k => max ((P.next S hs (c q) (f q)).h1 k) 0)
      (h := vec h2 q) (h' := (f q).h2) (c := vec c2 q) (c' := (f q).c2)
      (fun k hk => by show max (vec h1' q k) 0 = _; rw [(k1 q hq k hk).1]) (fun k hk => (hv q hq k hk).2.2.1) (fun k hk => (hv q hq k hk).2.2.2) hj
    exact ⟨a.trans e, b.trans d⟩
  refine ⟨y, [h1', c1', h2', c2'], ?_, t5, ⟨h1', c1', h2', c2', rfl, ⟨t1, t2, t3, t4⟩, fun q hq j hj => ⟨(k1 q hq j hj).1, (k1 q hq j hj).2, (k2 q hq j hj).1, (k2 q hq j hj).2⟩⟩, fun q hq j => ?_⟩
  · have c1e : (lstmCore (σ := Unit) S.get S.sigmoid S.tanh ⟨"lstm", hs⟩).call [oneHot numChars x] [h1, c1] () = .ok ([h1'], [h1', c1'], ()) := by
      show ((LSTM.call _ _ _ _ (oneHot 128 x) h1 c1) >>= fun r => Except.ok ([r.1], [r.1, r.2], ())) = _
      rw [e1]
      rfl
    have c2e : (lstmCore (σ := Unit) S.get S.sigmoid S.tanh ⟨"lstm_1", hs⟩).call [relu h1'] [h2, c2] () = .ok ([h2'], [h2', c2'], ()) := by
      show ((LSTM.call _ _ _ _ (relu h1') h2 c2) >>= fun r => Except.ok ([r.1], [r.1, r.2], ())) = _
      rw [e2]
      rfl
    have c3e : (head S hs h2' >>= fun y => Except.ok ([y], ())) = (.ok ([y], ()) : Except Err (Nest K × Unit)) := by
      rw [e3]
      rfl
    exact network_call c1e c2e c3e
  · rw [r3 q j]
    unfold Params.logit
    congr 1
    refine lin_congr (fun k _ => ?_) j
    rw [lin_congr (fun i hi => (k2 q hq i hi).1) k]

/-- The first `n` characters of the text with index `q` in a batch. -/
def text (x : Arr Nat) (q : List Nat) (n : Nat) : List Nat := (List.range n).map fun i => x.val (i :: q)

theorem text_succ (x : Arr Nat) (q : List Nat) (n : Nat) : text x q (n + 1) = text x q n ++ [x.val (n :: q)] := by
  unfold text
  rw [List.range_succ, List.map_append]
  rfl

theorem after_snoc (P : Params K) (S : Setting K) (hs : Nat) (l : List Nat) (c : Nat) : P.after S hs (l ++ [c]) = P.next S hs c (P.after S hs l) := by
  unfold Params.after
  rw [List.foldl_append]
  rfl

theorem holds_shapes {p : List Nat} {hs : Nat} {st : Nest K} {f : List Nat → State K} (h : Holds p hs st f) : shapes st = [p ++ [hs], p ++ [hs], p ++ [hs], p ++ [hs]] := by
  obtain ⟨h1, c1, h2, c2, rfl, ⟨s1, s2, s3, s4⟩, _⟩ := h
  show [h1.shape, c1.shape, h2.shape, c2.shape] = _
  rw [s1, s2, s3, s4]

theorem scan_run [CharZero K] {S : Setting K} {P : Params K} {hs : Nat} (hP : P.Of S hs) {p : List Nat} (hp : p.length ≤ 1) {x : Arr Nat} {T : Nat} (hx : x.shape = T :: p) : ∀ (n a : Nat), a + n ≤ T → ∀ st : Nest K,
    Holds p hs st (fun q => P.after S hs (text x q a)) →
    ∃ (ys : Nat → Arr K) (st' : Nest K), scanLoop (asCore (net S hs)) [numbers x] (List.range' a n) st () = .ok ((List.range' a n).map (fun t => [ys t]), st', ()) ∧ (∀ t, (ys t).shape = p ++ [128]) ∧
      Holds p hs st' (fun q => P.after S hs (text x q (a + n))) ∧ ∀ t, a ≤ t → t < a + n → ∀ q, Valid p q → ∀ j, vec (ys t) q j = P.logit hs (P.after S hs (text x q (t + 1))) j
  | 0, a, _, st, h => ⟨fun _ => ⟨p ++ [128], fun _ => 0⟩, st, rfl, fun _ => rfl, h, fun t h1 h2 => by omega⟩
  | n + 1, a, ha, st, h => by
    have hsl : [numbers (K := K) x].mapM (sliceAt true a) = .ok [⟨p, fun i => ((x.val (a :: i) : Nat) : K)⟩] := by
      rw [Verif.Props.Recurrent.mapM_cons]
      have : sliceAt true a (numbers (K := K) x) = .ok ⟨p, fun i => ((x.val (a :: i) : Nat) : K)⟩ := by
        obtain ⟨xs, xv⟩ := x
        cases hx
        show Except.ok (⟨p, fun i => ((xv (min a (T - 1) :: i) : Nat) : K)⟩ : Arr K) = _
        rw [Nat.min_eq_left (by omega)]
      rw [this]
      rfl
    obtain ⟨y, st1, e1, s1, h1, v1⟩ := network_step hP hp (x := ⟨p, fun i => ((x.val (a :: i) : Nat) : K)⟩) rfl (c := fun q => x.val (a :: q)) (fun q _ => rfl) h
    have h1' : Holds p hs st1 (fun q => P.after S hs (text x q (a + 1))) := by
      have : (fun q => P.after S hs (text x q (a + 1))) = fun q => P.next S hs (x.val (a :: q)) (P.after S hs (text x q a)) := funext fun q => by rw [text_succ, after_snoc]
      rw [this]
      exact h1
    obtain ⟨ys, st2, e2, s2, h2, v2⟩ := scan_run hP hp hx n (a + 1) (by omega) st1 h1'
    refine ⟨fun t => if t = a then y else ys t, st2, ?_, fun t => ?_, ?_, fun t ht1 ht2 q hq j => ?_⟩
    · rw [List.range'_succ]
      unfold scanLoop
      rw [bind_eq hsl, bind_eq e1]
      dsimp only
      rw [if_neg (by rw [holds_shapes h1, holds_shapes h]; exact fun h => h rfl), bind_eq e2, List.map_cons, if_pos rfl]
      refine congrArg (fun l => Except.ok ([y] :: l, st2, ())) (List.map_congr_left fun t ht => ?_)
      rw [if_neg]
      rw [List.mem_range'_1] at ht
      omega
    · dsimp only
      split
      · exact s1
      · exact s2 t
    · rw [show a + (n + 1) = a + 1 + n by omega]
      exact h2
    · dsimp only
      by_cases he : t = a
      · rw [if_pos he, v1 q hq j, he, text_succ, after_snoc]
      · rw [if_neg he]
        exact v2 t (by omega) (by omega) q hq j

theorem zeros_hold (S : Setting K) (P : Params K) (hs : Nat) (b : Option Nat) (x : Arr Nat) :
    ∃ init, (net S hs).initialState b = .ok init ∧ Holds b.toList hs init.flatten (fun q => P.after S hs (text x q 0)) :=
  ⟨[[zeroState hs b, zeroState hs b], [zeroState hs b, zeroState hs b]], rfl, zeroState hs b, zeroState hs b, zeroState hs b, zeroState hs b, rfl, ⟨rfl, rfl, rfl, rfl⟩, fun q _ j _ => ⟨rfl, rfl, rfl, rfl⟩⟩

/-- What `unroll` returns: at each position the logits after the text up to and including it. -/
theorem unroll_run [CharZero K] [Inhabited K] {S : Setting K} {P : Params K} {hs : Nat} (hP : P.Of S hs) {b : Option Nat} {x : Arr Nat} {T : Nat} (hT : 0 < T) (hx : x.shape = T :: b.toList) :
    ∃ y st, unroll S hs b x = .ok (y, st) ∧ y.shape = T :: (b.toList ++ [128]) ∧ Holds b.toList hs st (fun q => P.after S hs (text x q T)) ∧
      ∀ t, t < T → ∀ q, Valid b.toList q → ∀ j, y.val (t :: (q ++ [j])) = P.logit hs (P.after S hs (text x q (t + 1))) j := by
  obtain ⟨init, hi, h0⟩ := zeros_hold S P hs b x
  obtain ⟨ys, st, e1, s1, h1, v1⟩ := scan_run hP (by cases b <;> simp) hx T 0 (by omega) init.flatten h0
  obtain ⟨y, e2, hy, _⟩ := Verif.Props.Cores.stack_range true ys T hT _ s1 (by intro h; cases h)
  obtain ⟨hys, hyv⟩ := hy rfl
  refine ⟨y, st, ?_, hys, ?_, fun t ht q hq j => ?_⟩
  · have hd : dynamicUnroll (asCore (net S hs)) [numbers (K := K) x] init.flatten true () = .ok ([y], st, ()) := by
      show Verif.Recurrent.scan _ _ _ _ = _
      rw [Verif.Props.Recurrent.scan_eq _ _ _ _ T (by simp) hT (fun z hz => by
        rw [List.mem_singleton] at hz
        subst hz
        exact ⟨b.toList, hx⟩), List.range_eq_range', bind_eq e1, ← List.range_eq_range', bind_eq e2]
    unfold unroll
    rw [bind_eq (made S hs), bind_eq hi, bind_eq hd]
  · rw [Nat.zero_add] at h1
    exact h1
  · rw [hyv t ht]
    exact v1 t (by omega) (by omega) q hq j

/-! ### C162: sampling -/

/-- The key after `t` splits. -/
def keyAt (k : Key) : Nat → Key
  | 0 => k
  | t + 1 => .child (keyAt k t) 2 0

/-- The key of the token number `t`. -/
def subkey (k : Key) (t : Nat) : Key := .child (keyAt k t) 2 1

/-- Each token is drawn, with its own key, given the context and all tokens before it. -/
def Ancestral (S : Setting K) (P : Params K) (hs : Nat) (key : Key) (context : List Nat) (n : Nat) (tokens : List Nat) : Prop :=
  tokens.length = n ∧ ∀ t, t < n → tokens.getD t 0 = S.categorical (subkey key t) (P.predict S hs (context ++ tokens.take t))

theorem entries_eq {P : Params K} {S : Setting K} {hs : Nat} {txt : List Nat} {y : Arr K} (hs' : y.shape = [128]) (h : ∀ j, y.val [j] = P.logit hs (P.after S hs txt) j) : entries y = P.predict S hs txt := by
  unfold entries Params.predict
  rw [hs']
  exact List.map_congr_left fun j _ => h j

theorem body_run [CharZero K] {S : Setting K} {P : Params K} {hs : Nat} (hP : P.Of S hs) {txt : List Nat} (t : Nat) {v : LoopValues K} (h : Holds [] hs v.state (fun _ => P.after S hs txt)) :
    ∃ st', body S (net S hs) t v = .ok ⟨v.tokens.set (t + 1) (S.categorical (.child v.rngKey 2 1) (P.predict S hs (txt ++ [v.tokens.getD t 0]))), st', .child v.rngKey 2 0⟩ ∧
      Holds [] hs st' (fun _ => P.after S hs (txt ++ [v.tokens.getD t 0])) := by
  obtain ⟨y, st', e, s, hh, hv⟩ := network_step hP (p := []) (by simp) (x := ⟨[], fun _ => ((v.tokens.getD t 0 : Nat) : K)⟩) rfl (c := fun _ => v.tokens.getD t 0) (fun _ _ => rfl) h
  refine ⟨st', ?_, ?_⟩
  · unfold body
    rw [bind_eq e]
    dsimp only
    rw [entries_eq (P := P) (S := S) (hs := hs) (txt := txt ++ [v.tokens.getD t 0]) s (fun j => by rw [after_snoc]; exact hv [] .nil j)]
  · simp only [after_snoc]
    exact hh

theorem loop_run [CharZero K] {S : Setting K} {P : Params K} {hs : Nat} (hP : P.Of S hs) {key : Key} {context : List Nat} {n : Nat} : ∀ (m t : Nat), t + m = n → ∀ v : LoopValues K, v.tokens.length = n →
    (∀ i, i < n → i ≤ t → v.tokens.getD i 0 = S.categorical (subkey key i) (P.predict S hs (context ++ v.tokens.take i))) → v.rngKey = keyAt key (t + 1) →
    Holds [] hs v.state (fun _ => P.after S hs (context ++ v.tokens.take t)) → ∃ v', foriLoop S (net S hs) t m v = .ok v' ∧ Ancestral S P hs key context n v'.tokens
  | 0, t, ht, v, hl, ha, hk, h => ⟨v, rfl, hl, fun i hi => ha i hi (by omega)⟩
  | m + 1, t, ht, v, hl, ha, hk, h => by
    obtain ⟨st', e, h'⟩ := body_run hP t h
    have htake : v.tokens.take t ++ [v.tokens.getD t 0] = v.tokens.take (t + 1) := by
      rw [List.take_add_one, List.getD_eq_getElem?_getD, List.getElem?_eq_getElem (by omega)]
      rfl
    rw [List.append_assoc, htake] at e h'
    obtain ⟨v', e', h''⟩ := loop_run hP (key := key) (context := context) (n := n) m (t + 1) (by omega) ⟨v.tokens.set (t + 1) (S.categorical (.child v.rngKey 2 1) (P.predict S hs (context ++ v.tokens.take (t + 1)))), st', .child v.rngKey 2 0⟩
      (by rw [List.length_set, hl]) (fun i hi hit => by
        dsimp only
        rw [List.take_set_of_le (by omega)]
        by_cases he : i = t + 1
        · subst he
          rw [List.getD_eq_getElem?_getD, List.getElem?_set_self (by omega), hk]
          rfl
        · rw [List.getD_eq_getElem?_getD, List.getElem?_set_ne (by omega), ← List.getD_eq_getElem?_getD]
          exact ha i hi (by omega)) (by rw [hk]; rfl) (by
        dsimp only
        rw [List.take_set_of_le (by omega)]
        exact h')
    refine ⟨v', ?_, h''⟩
    unfold foriLoop
    rw [bind_eq e]
    exact e'

/-- C162: given a context of at least one character, `sample` returns `sample_length` tokens, each drawn from the logits of the network after the context and all tokens before it, each with its own key. -/
theorem sample_ancestral [CharZero K] [Inhabited K] {S : Setting K} {P : Params K} {hs : Nat} (hP : P.Of S hs) (key : Key) {context : Arr Nat} {T : Nat} (hT : 0 < T) (hx : context.shape = [T]) (n : Nat) :
    ∃ tokens, sample S hs key context n = .ok tokens ∧ Ancestral S P hs key (text context [] T) n tokens := by
  obtain ⟨y, st, e1, s1, h1, v1⟩ := unroll_run hP (b := none) hT hx
  have hl : sliceAt true (y.shape.headD 0 - 1) y = .ok ⟨[128], fun i => y.val ((T - 1) :: i)⟩ := by
    obtain ⟨ys, yv⟩ := y
    cases s1
    show Except.ok (⟨[128], fun i => yv (min (T - 1) (T - 1) :: i)⟩ : Arr K) = _
    rw [Nat.min_self]
  have he : entries (⟨[128], fun i => y.val ((T - 1) :: i)⟩ : Arr K) = P.predict S hs (text context [] T) := by
    refine entries_eq rfl fun j => ?_
    have := v1 (T - 1) (by omega) [] .nil j
    rw [show T - 1 + 1 = T by omega] at this
    exact this
  obtain ⟨v', e2, h2⟩ := loop_run hP (key := key) (context := text context [] T) (n := n) n 0 (by omega)
    ⟨(List.replicate n 0).set 0 (S.categorical (.child key 2 1) (P.predict S hs (text context [] T))), st, .child key 2 0⟩ (by rw [List.length_set, List.length_replicate]) (fun i hi h0 => by
      obtain rfl : i = 0 := by omega
      dsimp only
      rw [List.getD_eq_getElem?_getD, List.getElem?_set_self (by rw [List.length_replicate]; exact hi), List.take_zero, List.append_nil]
      rfl) rfl (by
      dsimp only
      rw [List.take_zero, List.append_nil]
      obtain ⟨a1, a2, a3, a4, a5, a6, a7⟩ := h1
      exact ⟨a1, a2, a3, a4, a5, a6, fun q hq => by cases hq; exact a7 [] .nil⟩)
  refine ⟨v'.tokens, ?_, h2⟩
  unfold sample
  rw [if_neg (by rw [hx]; exact fun h => h rfl), bind_eq (made S hs), bind_eq e1]
  dsimp only
  rw [bind_eq hl, he, bind_eq e2]

/-- The number of splits of a key. -/
def depth : Key → Nat
  | .root _ => 0
  | .child k _ _ => depth k + 1

theorem depth_keyAt (k : Key) (t : Nat) : depth (keyAt k t) = depth k + t := by
  induction t with
  | zero => rfl
  | succ t ih =>
    show depth (keyAt k t) + 1 = _
    rw [ih]
    rfl

/-- C162: no two tokens are drawn with the same key. -/
theorem subkeys_distinct (k : Key) : Function.Injective (subkey k) := by
  intro t t' h
  have := congrArg depth h
  show t = t'
  change depth (keyAt k t) + 1 = depth (keyAt k t') + 1 at this
  rw [depth_keyAt, depth_keyAt] at this
  omega

example : subkey (.root 42) 0 = .child (.root 42) 2 1 ∧ subkey (.root 42) 1 = .child (.child (.root 42) 2 0) 2 1 := ⟨rfl, rfl⟩

theorem ancestral_take {S : Setting K} {P : Params K} {hs : Nat} {key : Key} {context : List Nat} {m n : Nat} (hmn : m ≤ n) {l : List Nat} (h : Ancestral S P hs key context n l) : Ancestral S P hs key context m (l.take m) := by
  refine ⟨by rw [List.length_take, h.1]; omega, fun t ht => ?_⟩
  rw [List.take_take, Nat.min_eq_left (by omega), ← h.2 t (by omega), List.getD_eq_getElem?_getD, List.getElem?_take_of_lt ht, List.getD_eq_getElem?_getD]

theorem ancestral_unique {S : Setting K} {P : Params K} {hs : Nat} {key : Key} {context : List Nat} : ∀ {n : Nat} {l l' : List Nat}, Ancestral S P hs key context n l → Ancestral S P hs key context n l' → l = l'
  | 0, l, l', h, h' => by rw [List.eq_nil_of_length_eq_zero h.1, List.eq_nil_of_length_eq_zero h'.1]
  | n + 1, l, l', h, h' => by
    have ih := ancestral_unique (ancestral_take (Nat.le_succ n) h) (ancestral_take (Nat.le_succ n) h')
    have e := h.2 n (by omega)
    rw [ih, ← h'.2 n (by omega)] at e
    have t : ∀ {x : List Nat}, x.length = n + 1 → x = x.take n ++ [x.getD n 0] := by
      intro x hx
      rw [List.getD_eq_getElem?_getD, List.getElem?_eq_getElem (by omega), Option.getD_some, List.take_append_getElem]
      rw [List.take_of_length_le (by omega)]
    rw [t h.1, t h'.1, ih, e]

/-- C162: `sample` returns a list of tokens if and only if each of them is what is drawn, with its own key, given the context and the tokens before it. -/
theorem sample_iff [CharZero K] [Inhabited K] {S : Setting K} {P : Params K} {hs : Nat} (hP : P.Of S hs) (key : Key) {context : Arr Nat} {T : Nat} (hT : 0 < T) (hx : context.shape = [T]) (n : Nat) (tokens : List Nat) :
    sample S hs key context n = .ok tokens ↔ Ancestral S P hs key (text context [] T) n tokens := by
  obtain ⟨l, e, h⟩ := sample_ancestral hP key hT hx n
  refine ⟨fun h' => ?_, fun h' => ?_⟩
  · rw [e] at h'
    cases h'
    exact h
  · rw [e, ancestral_unique h h']

/-- C162: with the same key and context, a shorter sample is the start of a longer one. -/
theorem sample_prefix [CharZero K] [Inhabited K] {S : Setting K} {P : Params K} {hs : Nat} (hP : P.Of S hs) (key : Key) {context : Arr Nat} {T : Nat} (hT : 0 < T) (hx : context.shape = [T]) {m n : Nat} (hmn : m ≤ n) {tokens : List Nat}
    (h : sample S hs key context n = .ok tokens) : sample S hs key context m = .ok (tokens.take m) :=
  (sample_iff hP key hT hx m _).mpr (ancestral_take hmn ((sample_iff hP key hT hx n _).mp h))

/-- C162: if what is drawn is always a class, so is every token, and decoding the sample does not raise. -/
theorem sample_decodes [CharZero K] [Inhabited K] {S : Setting K} {P : Params K} {hs : Nat} (hP : P.Of S hs) (key : Key) {context : Arr Nat} {T : Nat} (hT : 0 < T) (hx : context.shape = [T]) (n : Nat)
    (hc : ∀ k l, l.length ≠ 0 → S.categorical k l < l.length) : ∃ tokens, sample S hs key context n = .ok tokens ∧ (∀ c ∈ tokens, c < 128) ∧ decode tokens = .ok tokens := by
  obtain ⟨l, e, h⟩ := sample_ancestral hP key hT hx n
  have hb : ∀ c ∈ l, c < 128 := by
    intro c hcl
    obtain ⟨t, ht, rfl⟩ := List.getElem_of_mem hcl
    have := h.2 t (by rw [← h.1]; exact ht)
    rw [List.getD_eq_getElem?_getD, List.getElem?_eq_getElem ht, Option.getD_some] at this
    rw [this]
    have hl : (P.predict S hs (text context [] T ++ l.take t)).length = 128 := by unfold Params.predict; rw [List.length_map, List.length_range]
    have := hc (subkey key t) (P.predict S hs (text context [] T ++ l.take t)) (by omega)
    omega
  refine ⟨l, e, hb, ?_⟩
  clear e h
  induction l with
  | nil => rfl
  | cons c l ih =>
    have h1 : (if c < 0x110000 then (.ok c : Except Err Nat) else .error .value) = .ok c := if_pos (by have := hb c (by simp); omega)
    have h2 := ih fun c hc => hb c (by simp [hc])
    unfold decode at h2 ⊢
    rw [Verif.Props.Recurrent.mapM_cons, h1, h2]
    rfl

/-- C162: a context with a batch, or of rank 0, is an `AssertionError`. -/
theorem sample_rejects [Inhabited K] (S : Setting K) (hs : Nat) (key : Key) (context : Arr Nat) (n : Nat) (h : context.shape.length ≠ 1) : sample S hs key context n = .error .assertion := by
  unfold sample
  exact if_pos h

/-! ### Examples -/

/-- Parameters that depend on their names and indices. -/
def demoGet : ParamFn Rat := fun md nm s => .ok ⟨s, fun i => (md.length + nm.length + i.sum : Nat)⟩

/-- Their arrays. -/
def demoParams (hs : Nat) : Params Rat :=
  ⟨⟨[128 + hs, 4 * hs], fun i => ("lstm/linear".length + "w".length + i.sum : Nat)⟩, ⟨[4 * hs], fun i => ("lstm/linear".length + "b".length + i.sum : Nat)⟩,
   ⟨[hs + hs, 4 * hs], fun i => ("lstm_1/linear".length + "w".length + i.sum : Nat)⟩, ⟨[4 * hs], fun i => ("lstm_1/linear".length + "b".length + i.sum : Nat)⟩,
   ⟨[hs, hs], fun i => ("mlp/~/linear_0".length + "w".length + i.sum : Nat)⟩, ⟨[hs], fun i => ("mlp/~/linear_0".length + "b".length + i.sum : Nat)⟩,
   ⟨[hs, 128], fun i => ("mlp/~/linear_1".length + "w".length + i.sum : Nat)⟩, ⟨[128], fun i => ("mlp/~/linear_1".length + "b".length + i.sum : Nat)⟩⟩

/-- Elementary functions that are none, and a choice by the number of splits of the key. -/
def demo : Setting Rat := ⟨demoGet, fun x => x / 2, fun x => x / 3, fun x => x + 1, id, fun k l => depth k % l.length⟩

theorem demo_params (hs : Nat) : (demoParams hs).Of demo hs := ⟨⟨rfl, rfl⟩, ⟨rfl, rfl⟩, ⟨rfl, rfl⟩, ⟨rfl, rfl⟩, ⟨rfl, rfl⟩, ⟨rfl, rfl⟩, ⟨rfl, rfl⟩, ⟨rfl, rfl⟩⟩

example : ∃ tokens, sample demo 3 (.root 42) ⟨[2], fun i => 65 + i.sum⟩ 5 = .ok tokens ∧ (∀ c ∈ tokens, c < 128) ∧ decode tokens = .ok tokens :=
  sample_decodes (demo_params 3) (.root 42) (T := 2) (by decide) rfl 5 fun k l h => Nat.mod_lt _ (Nat.pos_of_ne_zero h)

example (tokens : List Nat) (h : sample demo 3 (.root 42) ⟨[2], fun i => 65 + i.sum⟩ 5 = .ok tokens) : sample demo 3 (.root 42) ⟨[2], fun i => 65 + i.sum⟩ 2 = .ok (tokens.take 2) :=
  sample_prefix (demo_params 3) (.root 42) (T := 2) (by decide) rfl (by decide) h

example : sample demo 3 (.root 42) ⟨[2, 1], fun i => 65 + i.sum⟩ 5 = .error .assertion := sample_rejects _ _ _ _ _ (by decide)

end Verif.Props.CharRnn
