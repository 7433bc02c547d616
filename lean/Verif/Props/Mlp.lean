import Mathlib.Algebra.BigOperators.Ring.Finset
import Mathlib.Algebra.Field.Rat
import Mathlib.Algebra.Order.Field.Rat
import Mathlib.Algebra.Order.Field.Basic
import Mathlib.Tactic.FieldSimp
import Mathlib.Tactic.Ring
import Verif.Base.Dict
import Verif.Props.Conv
import Verif.Props.PRNG
import Verif.Model.Mlp

/-!
# Linear layers, dropout and multi-layer perceptrons (C60, C61, C63)
-/

set_option linter.unusedVariables false
set_option linter.unusedSectionVars false

namespace Verif.Props.Mlp
open Verif.Shapes (Err)
open Verif.Pool (Arr)
open Verif.Mlp
open Verif.Props.Conv (bind_ok)

variable {K : Type} [Field K] [LinearOrder K]

/-! ### Specification -/

/-- `y = x W + b` along the last axis, `n` inputs to `m` outputs. -/
structure Affine (x y w : Arr K) (b : Option (Arr K)) (n m : Nat) : Prop where
  shape : y.shape = x.shape.dropLast ++ [m]
  val : ∀ (idx : List Nat) (j : Nat), y.val (idx ++ [j]) = (∑ k ∈ Finset.range n, x.val (idx ++ [k]) * w.val [k, j]) + (b.map fun b => b.val [j]).getD 0

/-- `z` is the output of the linear layer of that name with `m` outputs, its parameters of the right shapes being those that `get` has. -/
def LayerOut (get : ParamFn K) (name : String) (withBias : Bool) (x : Arr K) (m : Nat) (z : Arr K) : Prop :=
  ∃ n w, x.shape.getLast? = some n ∧ get name "w" [n, m] = .ok w ∧ w.shape = [n, m] ∧
    if withBias then ∃ b, get name "b" [m] = .ok b ∧ b.shape = [m] ∧ Affine x z w (some b) n m else Affine x z w none n m

/-- `d` is `z`, or `z` after dropout with the `i`-th key. -/
def Dropped (bern : Bernoulli K) (drop : Option (K × List Key)) (i : Nat) (z d : Arr K) : Prop :=
  match drop with
  | none => d = z
  | some (rate, keys) => ∃ k, keys[i]? = some k ∧ dropout bern k rate z = .ok d

/-! ### Lemmas -/

theorem getParameter_ok {get : ParamFn K} {md nm : String} {sh : List Nat} {p : Arr K} (h : getParameter get md nm sh = .ok p) : get md nm sh = .ok p ∧ p.shape = sh := by
  obtain ⟨q, h1, h2⟩ := bind_ok h
  split at h2
  · rename_i hs
    cases h2
    exact ⟨h1, hs⟩
  · cases h2

theorem affine_dot (x w : Arr K) (n m : Nat) : Affine x (dot x w n m) w none n m where
  shape := rfl
  val idx j := by
    unfold dot
    dsimp only
    rw [List.dropLast_concat, List.getLastD_concat]
    show _ = _ + 0
    rw [add_zero]

theorem affine_bias (x w b : Arr K) (n m : Nat) : Affine x (addBias (dot x w n m) b) w (some b) n m where
  shape := rfl
  val idx j := by
    unfold addBias dot
    dsimp only
    rw [List.dropLast_concat, List.getLastD_concat]
    rfl

theorem linear_ok {get : ParamFn K} {l l' : Linear} {x z : Arr K} (h : l.call get x = .ok (z, l')) :
    ∃ m, l.outputSize = some m ∧ LayerOut get l.name l.withBias x m z ∧ l' = { l with inputSize := x.shape.getLast? } := by
  obtain ⟨nm, is, os, wb⟩ := l
  unfold Linear.call at h
  dsimp only at h ⊢
  cases hn : x.shape.getLast? with
  | none => rw [hn] at h; cases h
  | some n =>
    cases os with
    | none => rw [hn] at h; cases h
    | some m =>
      rw [hn] at h
      obtain ⟨w, h1, h2⟩ := bind_ok h
      have hw := getParameter_ok h1
      refine ⟨m, rfl, ?_⟩
      unfold LayerOut
      cases wb with
      | true =>
        rw [if_pos rfl] at h2
        obtain ⟨b, h3, h4⟩ := bind_ok h2
        have hb' := getParameter_ok h3
        cases h4
        exact ⟨⟨n, w, hn, hw.1, hw.2, by rw [if_pos rfl]; exact ⟨b, hb'.1, hb'.2, affine_bias x w b n m⟩⟩, rfl⟩
      | false =>
        rw [if_neg (by decide)] at h2
        cases h2
        exact ⟨⟨n, w, hn, hw.1, hw.2, by rw [if_neg (by decide)]; exact affine_dot x w n m⟩, rfl⟩

/-- What the loop computes. -/
theorem run_chain {get : ParamFn K} {bern : Bernoulli K} {act : Arr K → Arr K} {af : Bool} {N : Nat} : ∀ (ls : List Linear) (i : Nat) (rng : Option (K × PRNGSeq)) (x y : Arr K) (ls' : List Linear),
    N = i + ls.length → runLayers get bern act af N i ls rng x = .ok (y, ls') →
    ls'.length = ls.length ∧ ∃ hs : Nat → Arr K, hs 0 = x ∧ hs ls.length = y ∧ ∀ (j : Nat) (l : Linear), ls[j]? = some l →
      ∃ m z, l.outputSize = some m ∧ LayerOut get l.name l.withBias (hs j) m z ∧ ls'[j]? = some { l with inputSize := (hs j).shape.getLast? } ∧
        if i + j + 1 < N ∨ af = true then ∃ d, Dropped bern (rng.map fun r => (r.1, (r.2.nextN ls.length).1)) j z d ∧ hs (j + 1) = act d else hs (j + 1) = z
  | [], i, rng, x, y, ls', _, h => by
    cases h
    exact ⟨rfl, fun _ => x, rfl, rfl, (fun j l hl => by cases hl)⟩
  | l :: ls, i, rng, x, y, ls', hN, h => by
    unfold runLayers at h
    obtain ⟨⟨z, l'⟩, h1, h2⟩ := bind_ok h
    obtain ⟨m, hm, hz, hl'⟩ := linear_ok h1
    dsimp only at h2
    rw [List.length_cons] at hN
    by_cases hc : i + 1 < N ∨ af = true
    · rw [if_pos hc] at h2
      obtain ⟨⟨d, rng'⟩, h3, h4⟩ := bind_ok h2
      dsimp only at h4
      obtain ⟨⟨y', ls''⟩, h5, h6⟩ := bind_ok h4
      cases h6
      obtain ⟨hlen, hs, e0, e1, hrest⟩ := run_chain ls (i + 1) rng' _ _ _ (by omega) h5
      refine ⟨by rw [List.length_cons, List.length_cons, hlen], fun n => match n with | 0 => x | n + 1 => hs n, rfl, e1, fun j l₁ hl₁ => ?_⟩
      have hdrop : Dropped bern (rng.map fun r => (r.1, (r.2.nextN (l :: ls).length).1)) 0 z d ∧
          ∀ j z d, Dropped bern (rng'.map fun r => (r.1, (r.2.nextN ls.length).1)) j z d → Dropped bern (rng.map fun r => (r.1, (r.2.nextN (l :: ls).length).1)) (j + 1) z d := by
        unfold maybeDropout at h3
        cases rng with
        | none =>
          cases h3
          exact ⟨rfl, fun j z d h => h⟩
        | some r =>
          obtain ⟨rate, seq⟩ := r
          dsimp only at h3
          cases hnx : seq.next with
          | mk ko seq' =>
            rw [hnx] at h3
            cases ko with
            | none => cases h3
            | some k =>
              obtain ⟨d', h7, h8⟩ := bind_ok h3
              cases h8
              have hk : (seq.nextN (l :: ls).length).1 = k :: (seq'.nextN ls.length).1 := by
                rw [List.length_cons]
                show (match seq.next with | (some k, s') => let r := s'.nextN ls.length; (k :: r.1, r.2) | (none, s') => ([], s')).1 = _
                rw [hnx]
              show (∃ _, _) ∧ _
              refine ⟨⟨k, by rw [hk]; rfl, h7⟩, fun j z d h => ?_⟩
              obtain ⟨k', hk', hd'⟩ := h
              exact ⟨k', by rw [hk]; exact hk', hd'⟩
      cases j with
      | zero =>
        cases hl₁
        refine ⟨m, z, hm, hz, by rw [hl']; rfl, ?_⟩
        rw [if_pos (by omega)]
        exact ⟨d, hdrop.1, e0⟩
      | succ j =>
        obtain ⟨m₁, z₁, a1, a2, a3, a4⟩ := hrest j l₁ hl₁
        refine ⟨m₁, z₁, a1, a2, a3, ?_⟩
        by_cases hc₁ : i + 1 + j + 1 < N ∨ af = true
        · rw [if_pos hc₁] at a4
          rw [if_pos (hc₁.imp_left fun h => by omega)]
          obtain ⟨d₁, b1, b2⟩ := a4
          exact ⟨d₁, hdrop.2 j z₁ d₁ b1, b2⟩
        · rw [if_neg hc₁] at a4
          rw [if_neg fun h => hc₁ (h.imp_left fun h => by omega)]
          exact a4
    · rw [if_neg hc] at h2
      obtain ⟨⟨y', ls''⟩, h5, h6⟩ := bind_ok h2
      cases h6
      have hnil : ls = [] := List.length_eq_zero_iff.mp (by omega)
      subst hnil
      cases h5
      refine ⟨rfl, fun n => match n with | 0 => x | _ + 1 => z, rfl, rfl, fun j l₁ hl₁ => ?_⟩
      cases j with
      | zero =>
        cases hl₁
        refine ⟨m, z, hm, hz, by rw [hl']; rfl, ?_⟩
        rw [if_neg (by omega)]
      | succ j => cases hl₁

theorem makeLayers_get (wb : Bool) : ∀ (sizes : List (Option Nat)) (i j : Nat), (makeLayers wb i sizes)[j]? = (sizes[j]?).map fun s => ⟨"linear_" ++ toString (i + j), none, s, wb⟩
  | [], i, j => rfl
  | s :: ss, i, 0 => rfl
  | s :: ss, i, j + 1 => by
    show (makeLayers wb (i + 1) ss)[j]? = _
    rw [makeLayers_get wb ss (i + 1) j, Nat.add_right_comm]
    rfl

theorem makeLayers_length (wb : Bool) : ∀ (sizes : List (Option Nat)) (i : Nat), (makeLayers wb i sizes).length = sizes.length
  | [], i => rfl
  | s :: ss, i => congrArg (· + 1) (makeLayers_length wb ss (i + 1))

theorem make_ok {sizes : List (Option Nat)} {wb hb af : Bool} {act : Arr K → Arr K} {nm : String} {m : MLP K} (h : MLP.make sizes wb hb act af nm = .ok m) :
    m = ⟨nm, makeLayers wb 0 sizes, wb, hb, act, af⟩ := by
  unfold MLP.make at h
  split at h
  · cases h
  · exact (Except.ok.inj h).symm

/-- The dropout that the two optional arguments ask for: the rate, and the keys that the sequence of the given key hands out for `n` layers. -/
def dropOf (rate : Option K) (rng : Option Key) (n : Nat) : Option (K × List Key) :=
  match rate, rng with
  | some r, some k => some (r, ((PRNGSeq.ofKey k).nextN n).1)
  | _, _ => none

theorem call_chain {sizes : List Nat} {wb hb af : Bool} {act : Arr K → Arr K} {nm : String} {m m' : MLP K} {get : ParamFn K} {bern : Bernoulli K} {x y : Arr K} {rate : Option K} {rng : Option Key}
    (hm : MLP.make (sizes.map some) wb hb act af nm = .ok m) (h : m.call get bern x rate rng = .ok (y, m')) :
    ∃ hs : Nat → Arr K, hs 0 = x ∧ hs sizes.length = y ∧ (∀ (i : Nat) (s : Nat), sizes[i]? = some s →
      ∃ z, LayerOut get ("linear_" ++ toString i) wb (hs i) s z ∧
        if i + 1 < sizes.length ∨ af = true then ∃ d, Dropped bern (dropOf rate rng sizes.length) i z d ∧ hs (i + 1) = act d else hs (i + 1) = z) ∧
      m' = { m with layers := m'.layers } ∧ m'.layers.map Linear.inputSize = (List.range sizes.length).map fun i => (hs i).shape.getLast? := by
  cases make_ok hm
  have key : ∀ r : Option (K × PRNGSeq), (∃ ls, runLayers get bern act af (makeLayers wb 0 (sizes.map some)).length 0 (makeLayers wb 0 (sizes.map some)) r x = .ok (y, ls) ∧
      m' = ⟨nm, ls, wb, hb, act, af⟩) → (r.map fun r => (r.1, (r.2.nextN sizes.length).1)) = dropOf rate rng sizes.length →
      ∃ hs : Nat → Arr K, hs 0 = x ∧ hs sizes.length = y ∧ (∀ (i : Nat) (s : Nat), sizes[i]? = some s →
      ∃ z, LayerOut get ("linear_" ++ toString i) wb (hs i) s z ∧
        if i + 1 < sizes.length ∨ af = true then ∃ d, Dropped bern (dropOf rate rng sizes.length) i z d ∧ hs (i + 1) = act d else hs (i + 1) = z) ∧
      m' = { (⟨nm, makeLayers wb 0 (sizes.map some), wb, hb, act, af⟩ : MLP K) with layers := m'.layers } ∧
      m'.layers.map Linear.inputSize = (List.range sizes.length).map fun i => (hs i).shape.getLast? := by
    rintro r ⟨ls, hr, rfl⟩ hdrop
    have hlen : (makeLayers wb 0 (sizes.map some)).length = sizes.length := by rw [makeLayers_length, List.length_map]
    obtain ⟨hl, hs, e0, e1, hrest⟩ := run_chain _ 0 r x y ls (by omega) hr
    rw [hlen] at e1 hrest hl
    have hget : ∀ (i s : Nat), sizes[i]? = some s → (makeLayers wb 0 (sizes.map some))[i]? = some ⟨"linear_" ++ toString i, none, some s, wb⟩ := by
      intro i s hi
      rw [makeLayers_get, List.getElem?_map, hi, Nat.zero_add]
      rfl
    refine ⟨hs, e0, e1, fun i s hi => ?_, rfl, ?_⟩
    · obtain ⟨m₁, z, a1, a2, a3, a4⟩ := hrest i _ (hget i s hi)
      cases a1
      refine ⟨z, a2, ?_⟩
      rw [hdrop, Nat.zero_add] at a4
      exact a4
    · refine List.ext_getElem? fun i => ?_
      dsimp only
      rw [List.getElem?_map, List.getElem?_map]
      by_cases hi : i < sizes.length
      · obtain ⟨_, _, _, _, a3, _⟩ := hrest i _ (hget i _ (List.getElem?_eq_getElem hi))
        rw [a3, List.getElem?_range hi]
        rfl
      · rw [List.getElem?_eq_none (by omega), List.getElem?_eq_none (by rw [List.length_range]; omega)]
        rfl
  unfold MLP.call at h
  cases rate with
  | none =>
    cases rng with
    | none =>
      obtain ⟨⟨y', ls⟩, h1, h2⟩ := bind_ok h
      cases h2
      exact key none ⟨ls, h1, rfl⟩ rfl
    | some k => cases h
  | some r =>
    cases rng with
    | none => cases h
    | some k =>
      obtain ⟨⟨y', ls⟩, h1, h2⟩ := bind_ok h
      cases h2
      exact key (some (r, PRNGSeq.ofKey k)) ⟨ls, h1, rfl⟩ rfl

/-! ### C60 -/

/-- C60 A call of an `MLP` (without dropout) applies linear layers `linear_0`, `linear_1`, ... of the given sizes in order: with `hs i` the input of layer `i`, the layer computes `hs i · W + b` from its own
parameters of shapes `[last axis, size]` and `[size]`, and the activation follows every layer but the last, and the last exactly if asked for. -/
theorem mlp_layers (sizes : List Nat) (wb hb af : Bool) (act : Arr K → Arr K) (nm : String) (m m' : MLP K) (get : ParamFn K) (bern : Bernoulli K) (x y : Arr K)
    (hm : MLP.make (sizes.map some) wb hb act af nm = .ok m) (h : m.call get bern x none none = .ok (y, m')) :
    ∃ hs : Nat → Arr K, hs 0 = x ∧ hs sizes.length = y ∧ ∀ (i : Nat) (s : Nat), sizes[i]? = some s →
      ∃ z, LayerOut get ("linear_" ++ toString i) wb (hs i) s z ∧ hs (i + 1) = if i + 1 < sizes.length ∨ af = true then act z else z := by
  obtain ⟨hs, e0, e1, hrest, _⟩ := call_chain hm h
  refine ⟨hs, e0, e1, fun i s hi => ?_⟩
  obtain ⟨z, hz, hd⟩ := hrest i s hi
  refine ⟨z, hz, ?_⟩
  split at hd
  · rename_i hc
    obtain ⟨d, rfl, hd⟩ := hd
    rw [if_pos hc]
    exact hd
  · rename_i hc
    rw [if_neg hc]
    exact hd

/-- Parameters for the examples: `w = j + k`, `b = 10 j`. -/
def exGet : ParamFn ℚ := fun _ p sh => .ok ⟨sh, fun i => if p = "w" then (i.foldl (· + ·) 0 : Nat) else 10 * (i.headD 0 : Nat)⟩

def exAct : Arr ℚ → Arr ℚ := fun x => ⟨x.shape, fun i => x.val i - 1⟩

def exIn : Arr ℚ := ⟨[1, 3], fun i => (i.getD 1 0 : Nat)⟩

/-- What a call returns, on some positions, with the input sizes it records. -/
def shown (r : Except Err (Arr ℚ × MLP ℚ)) (idx : List (List Nat)) : Except Err (List Nat × List ℚ × List (Option Nat)) :=
  r.map fun p => (p.1.shape, idx.map p.1.val, p.2.layers.map Linear.inputSize)

def exMlp (wb af : Bool) : MLP ℚ := ⟨"mlp", makeLayers wb 0 [some 2, some 4], wb, false, exAct, af⟩

example : (MLP.make [some 2, some 4] true false exAct false "mlp").map (fun m => (m.layers, m.activateFinal)) = .ok ((exMlp true false).layers, false) ∧
    shown ((exMlp true false).call exGet (fun _ _ _ _ => true) exIn none none) [[0, 0], [0, 3]] = .ok ([1, 4], [17, 110], [some 3, some 2]) ∧
    shown ((exMlp true true).call exGet (fun _ _ _ _ => true) exIn none none) [[0, 0], [0, 3]] = .ok ([1, 4], [16, 109], [some 3, some 2]) := by decide +kernel

/-- C60 If the parameters are available in the shapes asked for (as in `init`) and the activation keeps shapes, the call succeeds on every input that is not a scalar; the output has the last size, and
the input sizes recorded are the input's own and the sizes of all layers but the last. -/
theorem mlp_succeeds (sizes : List Nat) (wb hb af : Bool) (act : Arr K → Arr K) (nm : String) (m : MLP K) (get : ParamFn K) (bern : Bernoulli K) (x : Arr K) (lead : List Nat) (n : Nat)
    (hm : MLP.make (sizes.map some) wb hb act af nm = .ok m) (hact : ∀ z, (act z).shape = z.shape) (hget : ∀ md p sh, ∃ a, get md p sh = .ok a ∧ a.shape = sh)
    (hx : x.shape = lead ++ [n]) :
    ∃ y m', m.call get bern x none none = .ok (y, m') ∧ y.shape = lead ++ [sizes.getLastD n] ∧ m'.layers.map Linear.inputSize = ((n :: sizes).take sizes.length).map some := by
  cases make_ok hm
  have hp : ∀ md p sh, ∃ a, getParameter get md p sh = .ok a := by
    intro md p sh
    obtain ⟨a, h1, h2⟩ := hget md p sh
    refine ⟨a, ?_⟩
    unfold getParameter
    rw [h1]
    show (if a.shape = sh then _ else _) = _
    rw [if_pos h2]
  have key : ∀ (N : Nat) (sizes : List Nat) (i : Nat) (x : Arr K) (n : Nat), x.shape = lead ++ [n] →
      ∃ y ls, runLayers get bern act af N i (makeLayers wb i (sizes.map some)) none x = .ok (y, ls) ∧ y.shape = lead ++ [sizes.getLastD n] ∧
        ls.map Linear.inputSize = ((n :: sizes).take sizes.length).map some := by
    intro N sizes
    induction sizes with
    | nil => exact fun i x n hx => ⟨x, [], rfl, hx, rfl⟩
    | cons s ss ih =>
      intro i x n hx
      have hlast : x.shape.getLast? = some n := by rw [hx, List.getLast?_concat]
      have hlin : ∃ z, Linear.call get ⟨"linear_" ++ toString i, none, some s, wb⟩ x = .ok (z, ⟨"linear_" ++ toString i, some n, some s, wb⟩) ∧ z.shape = lead ++ [s] := by
        unfold Linear.call
        rw [hlast]
        dsimp only
        obtain ⟨w, hw⟩ := hp ("linear_" ++ toString i) "w" [n, s]
        obtain ⟨b, hb⟩ := hp ("linear_" ++ toString i) "b" [s]
        rw [hw]
        cases wb with
        | true =>
          refine ⟨addBias (dot x w n s) b, ?_, ?_⟩
          · show (getParameter get _ "b" [s] >>= fun b => _) = _
            rw [hb]
            rfl
          · show x.shape.dropLast ++ [s] = _
            rw [hx, List.dropLast_concat]
        | false =>
          refine ⟨dot x w n s, rfl, ?_⟩
          show x.shape.dropLast ++ [s] = _
          rw [hx, List.dropLast_concat]
      obtain ⟨z, hz, hzs⟩ := hlin
      have hgo : ∀ x' : Arr K, x'.shape = lead ++ [s] → ∃ y ls, (runLayers get bern act af N (i + 1) (makeLayers wb (i + 1) (ss.map some)) none x' >>= fun p =>
          (.ok (p.1, (⟨"linear_" ++ toString i, some n, some s, wb⟩ : Linear) :: p.2) : Except Err (Arr K × List Linear))) = .ok (y, ls) ∧
          y.shape = lead ++ [(s :: ss).getLastD n] ∧ ls.map Linear.inputSize = ((n :: s :: ss).take (s :: ss).length).map some := by
        intro x' hx'
        obtain ⟨y, ls, h1, h2, h3⟩ := ih (i + 1) x' s hx'
        refine ⟨y, _ :: ls, by rw [h1]; rfl, ?_, ?_⟩
        · rw [h2]
          cases ss <;> rfl
        · rw [List.map_cons, h3]
          rfl
      by_cases hc : i + 1 < N ∨ af = true
      · obtain ⟨y, ls, h1, h2, h3⟩ := hgo (act z) (by rw [hact, hzs])
        refine ⟨y, ls, ?_, h2, h3⟩
        show (Linear.call get _ x >>= fun p => _) = _
        rw [hz]
        show (if i + 1 < N ∨ af = true then _ else _) = _
        rw [if_pos hc]
        exact h1
      · obtain ⟨y, ls, h1, h2, h3⟩ := hgo z hzs
        refine ⟨y, ls, ?_, h2, h3⟩
        show (Linear.call get _ x >>= fun p => _) = _
        rw [hz]
        show (if i + 1 < N ∨ af = true then _ else _) = _
        rw [if_neg hc]
        exact h1
  obtain ⟨y, ls, h1, h2, h3⟩ := key (makeLayers wb 0 (sizes.map some)).length sizes 0 x n hx
  refine ⟨y, ⟨nm, ls, wb, hb, act, af⟩, ?_, h2, h3⟩
  show (runLayers get bern act af _ 0 _ none x >>= fun p => _) = _
  rw [h1]
  rfl

example : (∀ z, (exAct z).shape = z.shape) ∧ (∀ md p sh, ∃ a, exGet md p sh = .ok a ∧ a.shape = sh) ∧ exIn.shape = [1] ++ [3] := ⟨fun _ => rfl, fun _ _ _ => ⟨_, rfl, rfl⟩, rfl⟩

/-- C60 A scalar input is rejected (if there is a layer at all). -/
theorem mlp_scalar (sizes : List Nat) (hs : sizes ≠ []) (wb hb af : Bool) (act : Arr K → Arr K) (nm : String) (m : MLP K) (get : ParamFn K) (bern : Bernoulli K) (x : Arr K)
    (hm : MLP.make (sizes.map some) wb hb act af nm = .ok m) (hx : x.shape = []) : m.call get bern x none none = .error .value := by
  cases make_ok hm
  cases sizes with
  | nil => exact (hs rfl).elim
  | cons s ss =>
    have : Linear.call get ⟨"linear_" ++ toString 0, none, some s, wb⟩ x = .error .value := by
      unfold Linear.call
      rw [hx]
      rfl
    show ((Linear.call get ⟨"linear_" ++ toString 0, none, some s, wb⟩ x >>= fun p => _) >>= fun p => _) = _
    rw [this]
    rfl

example : shown ((exMlp true false).call exGet (fun _ _ _ _ => true) ⟨[], fun _ => 5⟩ none none) [] = .error .value := by decide +kernel

/-- C60 The reversed `MLP` of one that has been called on `x` with result `y` has the input sizes of its layers in reverse order as layer sizes, i.e. all sizes but the last, reversed, and then the last axis
of `x`; it keeps the bias setting and the activation; and called on `y` it returns an array of the shape of `x`. -/
theorem mlp_reverse (sizes : List Nat) (wb hb af : Bool) (act : Arr K → Arr K) (nm : String) (m m' : MLP K) (get get' : ParamFn K) (bern : Bernoulli K) (x y : Arr K) (lead : List Nat) (n : Nat)
    (hne : sizes ≠ []) (hm : MLP.make (sizes.map some) wb hb act af nm = .ok m) (hact : ∀ z, (act z).shape = z.shape) (hget : ∀ md p sh, ∃ a, get md p sh = .ok a ∧ a.shape = sh)
    (hget' : ∀ md p sh, ∃ a, get' md p sh = .ok a ∧ a.shape = sh)
    (hx : x.shape = lead ++ [n]) (h : m.call get bern x none none = .ok (y, m')) (af' : Option Bool) (nm' : Option String) :
    ∃ r, m'.reverse af' nm' = .ok r ∧ r.layers.map Linear.outputSize = (sizes.dropLast.reverse ++ [n]).map some ∧ r.withBias = wb ∧ r.activateFinal = af'.getD af ∧
      r.name = nm'.getD (nm ++ "_reversed") ∧ ∃ back r', r.call get' bern y none none = .ok (back, r') ∧ back.shape = x.shape := by
  obtain ⟨y', m'', h1, h2, h3⟩ := mlp_succeeds sizes wb hb af act nm m get bern x lead n hm hact hget hx
  have hm' : m' = { m with layers := m'.layers } := (call_chain hm h).choose_spec.2.2.2.1
  rw [h] at h1
  cases h1
  have hmk := make_ok hm
  have hsz : m'.layers.reverse.map Linear.inputSize = (sizes.dropLast.reverse ++ [n]).map some := by
    rw [List.map_reverse, h3, ← List.map_reverse]
    congr 1
    obtain ⟨init, last, rfl⟩ : ∃ init last, sizes = init ++ [last] := ⟨sizes.dropLast, sizes.getLast hne, (List.dropLast_concat_getLast hne).symm⟩
    rw [List.dropLast_concat, List.length_append, List.length_singleton, List.take_succ_cons, List.take_left, List.reverse_cons]
  have hmake : ∀ sz, MLP.make sz wb hb act (af'.getD af) (nm'.getD (nm ++ "_reversed")) = .ok ⟨nm'.getD (nm ++ "_reversed"), makeLayers wb 0 sz, wb, hb, act, af'.getD af⟩ := by
    intro sz
    have hbad : ¬ (wb = false ∧ hb = true) := by
      intro hc
      unfold MLP.make at hm
      rw [if_pos hc] at hm
      cases hm
    unfold MLP.make
    rw [if_neg hbad]
  have hrev : m'.reverse af' nm' = .ok ⟨nm'.getD (nm ++ "_reversed"), makeLayers wb 0 ((sizes.dropLast.reverse ++ [n]).map some), wb, hb, act, af'.getD af⟩ := by
    unfold MLP.reverse
    rw [hsz]
    rw [hm', hmk]
    exact hmake _
  refine ⟨_, hrev, ?_, rfl, rfl, rfl, ?_⟩
  · show (makeLayers wb 0 _).map Linear.outputSize = _
    refine List.ext_getElem? fun i => ?_
    rw [List.getElem?_map, makeLayers_get, Option.map_map]
    generalize ((sizes.dropLast.reverse ++ [n]).map some)[i]? = o
    cases o <;> rfl
  · obtain ⟨back, r', h4, h5, _⟩ := mlp_succeeds (sizes.dropLast.reverse ++ [n]) wb hb (af'.getD af) act _ _ get' bern y lead _ (hmake _) hact hget' h2
    refine ⟨back, r', h4, ?_⟩
    rw [h5, hx, List.getLastD_concat]

example : ((exMlp true false).call exGet (fun _ _ _ _ => true) exIn none none).bind (fun p => (p.2.reverse none none).bind fun r =>
    (shown (r.call exGet (fun _ _ _ _ => true) p.1 none none) []).map fun q => (q, r.layers.map Linear.outputSize, r.name)) =
    .ok (([1, 3], [], [some 4, some 2]), [some 2, some 3], "mlp_reversed") := by decide +kernel

/-- C60 `reverse` of an `MLP` that was never called does not raise (as its documentation says it does), but the `MLP` it returns cannot be called. -/
theorem reverse_too_early (sizes : List Nat) (hs : sizes ≠ []) (wb hb af : Bool) (act : Arr K → Arr K) (nm : String) (m : MLP K) (hm : MLP.make (sizes.map some) wb hb act af nm = .ok m) :
    ∃ r, m.reverse none none = .ok r ∧ ∀ get bern (x : Arr K) rate rng y, r.call get bern x rate rng ≠ .ok y := by
  have hbad : ¬ (wb = false ∧ hb = true) := by
    intro hc
    unfold MLP.make at hm
    rw [if_pos hc] at hm
    cases hm
  cases make_ok hm
  refine ⟨_, if_neg hbad, fun get bern x rate rng y hy => ?_⟩
  have hlen : (makeLayers wb 0 (sizes.map some)).length = sizes.length := by rw [makeLayers_length, List.length_map]
  have hnone : ∀ (s : List (Option Nat)) i, ((makeLayers wb i s).reverse.map Linear.inputSize).head? = if s = [] then none else some none := by
    intro s i
    rw [List.map_reverse, List.head?_reverse, List.getLast?_map]
    have : (makeLayers wb i s).getLast? = (s.getLast?).map fun o => ⟨"linear_" ++ toString (i + (s.length - 1)), none, o, wb⟩ := by
      rw [List.getLast?_eq_getElem?, makeLayers_get, makeLayers_length, List.getLast?_eq_getElem?]
    rw [this]
    cases s with
    | nil => rfl
    | cons a t =>
      rw [List.getLast?_cons]
      rfl
  have hh := hnone (sizes.map some) 0
  rw [if_neg fun e => hs (List.map_eq_nil_iff.mp e)] at hh
  generalize hL : (makeLayers wb 0 (sizes.map some)).reverse.map Linear.inputSize = L at hy hh
  obtain ⟨t, rfl⟩ : ∃ t, L = none :: t := by
    cases L with
    | nil => cases hh
    | cons a t =>
      cases hh
      exact ⟨t, rfl⟩
  have hcall : ∀ z, Linear.call get ⟨"linear_" ++ toString 0, none, none, wb⟩ x ≠ .ok z := by
    intro z hz
    obtain ⟨m, hm, _⟩ := linear_ok (z := z.1) (l' := z.2) hz
    cases hm
  have hrun : ∀ N r z, runLayers get bern act af N 0 (makeLayers wb 0 (none :: t)) r x ≠ .ok z := by
    intro N r z hz
    obtain ⟨p, hp, _⟩ := bind_ok (show (Linear.call get ⟨"linear_" ++ toString 0, none, none, wb⟩ x >>= fun p => _) = .ok z from hz)
    exact hcall _ hp
  unfold MLP.call at hy
  split at hy
  · cases hy
  · cases hy
  · obtain ⟨p, hp, _⟩ := bind_ok hy
    exact hrun _ _ _ hp
  · obtain ⟨p, hp, _⟩ := bind_ok hy
    exact hrun _ _ _ hp

example : ((exMlp true false).reverse none none).map (fun r => r.layers.map Linear.outputSize) = .ok [none, none] := by decide +kernel

/-! ### C61 -/

/-- C61 `dropout` raises unless `0 ≤ rate < 1`. -/
theorem dropout_rejects (bern : Bernoulli K) (k : Key) (rate : K) (x : Arr K) : (∃ y, dropout bern k rate x = .ok y) ↔ 0 ≤ rate ∧ rate < 1 := by
  unfold dropout
  constructor
  · rintro ⟨y, h⟩
    split at h
    · cases h
    · rename_i hc
      exact ⟨le_of_not_gt fun h => hc (Or.inl h), lt_of_not_ge fun h => hc (Or.inr h)⟩
  · rintro ⟨h0, h1⟩
    rw [if_neg fun h => h.elim (fun h => absurd h (not_lt_of_ge h0)) fun h => absurd h (not_le_of_gt h1)]
    split
    · exact ⟨_, rfl⟩
    · exact ⟨_, rfl⟩

/-- C61 With rate 0 it is the identity. -/
theorem dropout_zero [IsStrictOrderedRing K] (bern : Bernoulli K) (k : Key) (x : Arr K) : dropout bern k 0 x = .ok x := by
  unfold dropout
  rw [if_neg fun h => h.elim (fun h => absurd h (lt_irrefl _)) fun h => absurd h (not_le_of_gt zero_lt_one), if_pos rfl]

/-- C61 Otherwise the shape is kept and each element is `x / (1 - rate)` where the mask keeps it, and 0 where it does not. -/
theorem dropout_elements (bern : Bernoulli K) (k : Key) (rate : K) (x y : Arr K) (hr : rate ≠ 0) (h : dropout bern k rate x = .ok y) :
    y.shape = x.shape ∧ ∀ i, (bern k (1 - rate) x.shape i = true → y.val i = x.val i / (1 - rate)) ∧ (bern k (1 - rate) x.shape i = false → y.val i = 0) := by
  unfold dropout at h
  split at h
  · cases h
  · cases h
    refine ⟨rfl, fun i => ⟨fun hk => ?_, fun hk => ?_⟩⟩
    · dsimp only
      rw [hk, if_pos rfl, one_mul]
    · dsimp only
      rw [hk, if_neg (by decide), zero_mul, zero_div]

/-- C61 The mean is kept: for every finite distribution over keys under which each element is kept with probability `1 - rate`, the expected value of each element is the input's. -/
theorem dropout_mean [IsStrictOrderedRing K] (bern : Bernoulli K) (keys : Finset Key) (p : Key → K) (hp : ∑ k ∈ keys, p k = 1) (rate : K) (h0 : 0 ≤ rate) (h1 : rate < 1) (x : Arr K) (i : List Nat)
    (hkeep : ∑ k ∈ keys with bern k (1 - rate) x.shape i = true, p k = 1 - rate) :
    ∃ out : Key → Arr K, (∀ k, dropout bern k rate x = .ok (out k)) ∧ ∑ k ∈ keys, p k * (out k).val i = x.val i := by
  refine ⟨fun k => ((dropout_rejects bern k rate x).mpr ⟨h0, h1⟩).choose, fun k => ((dropout_rejects bern k rate x).mpr ⟨h0, h1⟩).choose_spec, ?_⟩
  have hval : ∀ k, (((dropout_rejects bern k rate x).mpr ⟨h0, h1⟩).choose).val i = if rate = 0 then x.val i else if bern k (1 - rate) x.shape i = true then x.val i / (1 - rate) else 0 := by
    intro k
    have hk := ((dropout_rejects bern k rate x).mpr ⟨h0, h1⟩).choose_spec
    by_cases hr : rate = 0
    · rw [if_pos hr]
      generalize ((dropout_rejects bern k rate x).mpr ⟨h0, h1⟩).choose = y at hk
      subst hr
      rw [dropout_zero] at hk
      cases hk
      rfl
    · rw [if_neg hr]
      have := (dropout_elements bern k rate x _ hr hk).2 i
      split
      · exact this.1 ‹_›
      · exact this.2 (Bool.eq_false_of_not_eq_true ‹_›)
  rw [Finset.sum_congr rfl fun k _ => by rw [hval k]]
  by_cases hr : rate = 0
  · rw [Finset.sum_congr rfl fun k _ => by rw [if_pos hr], ← Finset.sum_mul, hp, one_mul]
  · rw [Finset.sum_congr rfl fun k _ => by rw [if_neg hr, mul_ite, mul_zero], ← Finset.sum_filter, ← Finset.sum_mul, hkeep]
    have : (1 - rate) ≠ 0 := sub_ne_zero.mpr (ne_of_gt h1)
    field_simp

/-- Two keys of which one keeps the element, at rate 1/2. -/
example : (∑ _k ∈ ({Key.root 0, Key.root 1} : Finset Key), (1 / 2 : ℚ)) = 1 ∧
    (∑ k ∈ ({Key.root 0, Key.root 1} : Finset Key) with (fun (k : Key) (_ : ℚ) (_ _ : List Nat) => decide (k = Key.root 0)) k (1 - 1 / 2) [3] [0] = true, (1 / 2 : ℚ)) = 1 - 1 / 2 ∧
    (dropout (fun k _ _ _ => decide (k = Key.root 0)) (Key.root 0) (1 / 2 : ℚ) ⟨[3], fun _ => 7⟩).map (fun y => y.val [0]) = .ok 14 := by
  refine ⟨by decide +kernel, by decide +kernel, by decide +kernel⟩

/-! ### C63: dropout in an MLP -/

/-- C63 The rate and the key have to be given together. -/
theorem mlp_dropout_args (m : MLP K) (get : ParamFn K) (bern : Bernoulli K) (x : Arr K) (rate : Option K) (rng : Option Key) (h : rate.isSome ≠ rng.isSome) :
    m.call get bern x rate rng = .error .value := by
  cases rate <;> cases rng
  · exact (h rfl).elim
  · rfl
  · rfl
  · exact (h rfl).elim

example : (some (1 / 2 : ℚ)).isSome ≠ (none : Option Key).isSome := by decide

/-- C63 With dropout, the output of layer `i` is dropped out, with the `i`-th of pairwise different keys, before each activation and nowhere else: a last layer that is not activated is not dropped out. -/
theorem mlp_dropout (sizes : List Nat) (wb hb af : Bool) (act : Arr K → Arr K) (nm : String) (m m' : MLP K) (get : ParamFn K) (bern : Bernoulli K) (x y : Arr K) (rate : K) (key : Key)
    (hm : MLP.make (sizes.map some) wb hb act af nm = .ok m) (h : m.call get bern x (some rate) (some key) = .ok (y, m')) :
    ∃ keys : List Key, keys.Nodup ∧ key ∉ keys ∧ ∃ hs : Nat → Arr K, hs 0 = x ∧ hs sizes.length = y ∧ ∀ (i : Nat) (s : Nat), sizes[i]? = some s →
      ∃ z, LayerOut get ("linear_" ++ toString i) wb (hs i) s z ∧
        if i + 1 < sizes.length ∨ af = true then ∃ k d, keys[i]? = some k ∧ dropout bern k rate z = .ok d ∧ hs (i + 1) = act d else hs (i + 1) = z := by
  obtain ⟨hs, e0, e1, hrest, _⟩ := call_chain hm h
  have hrun : ∀ (n : Nat) (s : PRNGSeq), ((s.nextN n).1 = (SeqOp.run s (List.replicate n .next)).1) := by
    intro n
    induction n with
    | zero => exact fun _ => rfl
    | succ n ih =>
      intro s
      obtain ⟨k, s', hk⟩ := PRNGSeq.next_eq s
      rw [List.replicate_succ]
      show (match s.next with | (some k, s') => let r := s'.nextN n; (k :: r.1, r.2) | (none, s') => ([], s')).1 = s.next.1.toList ++ (SeqOp.run s.next.2 (List.replicate n .next)).1
      rw [hk]
      dsimp only
      rw [ih]
      rfl
  refine ⟨((PRNGSeq.ofKey key).nextN sizes.length).1, ?_, ?_, hs, e0, e1, fun i s hi => ?_⟩
  · rw [hrun]
    exact Verif.Props.PRNG.keys_never_repeat key _
  · rw [hrun]
    exact Verif.Props.PRNG.held_key_never_handed_out key [] _
  · obtain ⟨z, hz, hd⟩ := hrest i s hi
    refine ⟨z, hz, ?_⟩
    split at hd
    · rename_i hc
      obtain ⟨d, ⟨k, hk, hdk⟩, hd⟩ := hd
      rw [if_pos hc]
      exact ⟨k, d, hk, hdk, hd⟩
    · rename_i hc
      rw [if_neg hc]
      exact hd

/-- A mask that keeps what the first key says, and everything for other keys. -/
example : shown ((exMlp true false).call exGet (fun k _ _ i => decide (k ≠ Key.child (.root 3) 2 1 ∨ i = [0, 1])) exIn (some (1 / 2)) (some (.root 3))) [[0, 0], [0, 3]] =
    .ok ([1, 4], [35, 167], [some 3, some 2]) := by decide +kernel

end Verif.Props.Mlp
