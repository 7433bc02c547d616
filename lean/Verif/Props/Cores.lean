import Mathlib.Algebra.Order.Field.Basic
import Mathlib.Tactic.Linarith
import Mathlib.Tactic.Ring
import Mathlib.Tactic.NormNum
import Mathlib.Algebra.Order.Ring.Rat
import Verif.Base.Dict
import Mathlib.Analysis.Complex.Trigonometric
import Verif.Model.Cores
import Verif.Props.Mlp
import Verif.Props.Norm
import Verif.Props.Recurrent
import Verif.Props.Reset
import Verif.Lemmas.Reshape

/-!
# Recurrent cores (C84, C85, C86, C87)
-/

set_option linter.unusedVariables false
set_option linter.unusedSectionVars false

namespace Verif.Props.Cores
open Verif.Shapes (Err)
open Verif.Pool (Arr)
open Verif.Mlp (ParamFn getParameter Linear dot addBias)
open Verif.Recurrent
open Verif.Props.Reset (Valid part ActsAs)
open Verif.Props.Norm (bind_eq bind_err)
open Verif.Props.Conv (bind_ok)
open Verif.Nd (zip map broadcastTo BroadcastsTo)
open Verif.Cores

variable {K σ : Type}

/-! ### Specification -/

/-- The vector at a position of the leading axes. -/
def vec (x : Arr K) (q : List Nat) : Nat → K := fun k => x.val (q ++ [k])

/-- `(W x)_j` where the entries of `x` belong to the rows of the matrix from `row` on. -/
def lin [AddCommMonoid K] [Mul K] (n : Nat) (w : Arr K) (row : Nat) (x : Nat → K) (j : Nat) : K := ∑ k ∈ Finset.range n, x k * w.val [row + k, j]

/-- The parameter of that module and name, with that shape. -/
def Has (get : ParamFn K) (module name : String) (shape : List Nat) (p : Arr K) : Prop := get module name shape = .ok p ∧ p.shape = shape

/-- The pre-activation of gate `j` of an LSTM with `n` inputs: `W_i x + W_h h + b`. -/
def lstmPre [Field K] (n hs : Nat) (w b : Arr K) (x h : Nat → K) (j : Nat) : K := lin n w 0 x j + lin hs w n h j + b.val [j]

/-- `c_t` as documented: `f_t c_{t-1} + i_t g_t`, where 1 is added to the bias of the forget gate. -/
def lstmCell [Field K] (sigmoid tanh : K → K) (n hs : Nat) (w b : Arr K) (x h c : Nat → K) (j : Nat) : K :=
  let pre := lstmPre n hs w b x h
  let i := sigmoid (pre j)
  let g := tanh (pre (hs + j))
  let f := sigmoid (pre (2 * hs + j) + 1)
  f * c j + i * g

/-- `h_t` as documented: `o_t tanh(c_t)`. -/
def lstmHidden [Field K] (sigmoid tanh : K → K) (n hs : Nat) (w b : Arr K) (x h c : Nat → K) (j : Nat) : K :=
  sigmoid (lstmPre n hs w b x h (3 * hs + j)) * tanh (lstmCell sigmoid tanh n hs w b x h c j)

/-- `h_t` of a GRU as documented. -/
def gruNext [Field K] (sigmoid tanh : K → K) (n hs : Nat) (wi wh b : Arr K) (x h : Nat → K) (j : Nat) : K :=
  let z := sigmoid (lin n wi 0 x j + lin hs wh 0 h j + b.val [j])
  let r := fun k => sigmoid (lin n wi 0 x (hs + k) + lin hs wh 0 h (hs + k) + b.val [hs + k])
  let a := tanh (lin n wi 0 x (2 * hs + j) + lin hs wh 0 (fun k => r k * h k) (2 * hs + j) + b.val [2 * hs + j])
  (1 - z) * h j + z * a

/-- `h_t` of a vanilla RNN as documented. -/
def rnnNext [Field K] [LinearOrder K] (n hs : Nat) (wi bi wh : Arr K) (bh : Option (Arr K)) (x h : Nat → K) (j : Nat) : K :=
  max (lin n wi 0 x j + bi.val [j] + (lin hs wh 0 h j + (bh.map fun b => b.val [j]).getD 0)) 0

/-! ### Lemmas -/

theorem zip_same {f : K → K → K} {x y : Arr K} {s : List Nat} (hx : x.shape = s) (hy : y.shape = s) :
    ∃ z, zip f x y = .ok z ∧ z.shape = s ∧ ∀ i, Valid s i → z.val i = f (x.val i) (y.val i) := by
  subst hx
  obtain ⟨z, h1, h2, h3⟩ := Verif.Props.Norm.zip_at (f := f) (x := x) (y := y) (by rw [hy]; exact Verif.Nd.broadcasts_refl _)
  exact ⟨z, h1, h2, fun i hi => by rw [h3 i hi, Verif.Props.Norm.spread_self (by rw [hy]; exact hi)]⟩

theorem valid_snoc {p q : List Nat} {n j : Nat} (hq : Valid p q) (hj : j < n) : Valid (p ++ [n]) (q ++ [j]) := hq.append (.cons hj .nil)

theorem has_get {get : ParamFn K} {md nm : String} {s : List Nat} {p : Arr K} (h : Has get md nm s p) : getParameter get md nm s = .ok p := by
  unfold getParameter
  rw [bind_eq h.1, if_pos h.2]

theorem get_has {get : ParamFn K} {md nm : String} {s : List Nat} {p : Arr K} (h : getParameter get md nm s = .ok p) : Has get md nm s p := by
  unfold getParameter at h
  obtain ⟨q, h1, h2⟩ := bind_ok h
  by_cases hs : q.shape = s
  · rw [if_pos hs] at h2
    cases h2
    exact ⟨h1, hs⟩
  · rw [if_neg hs] at h2
    cases h2

theorem linear_run [Field K] {get : ParamFn K} {l : Linear} {x w b : Arr K} {p : List Nat} {n m : Nat} (hx : x.shape = p ++ [n]) (ho : l.outputSize = some m)
    (hw : Has get l.name "w" [n, m] w) (hb : l.withBias = true → Has get l.name "b" [m] b) :
    ∃ y l', l.call get x = .ok (y, l') ∧ y.shape = p ++ [m] ∧ ∀ q j, vec y q j = lin n w 0 (vec x q) j + if l.withBias then b.val [j] else 0 := by
  obtain ⟨nm, is, os, wb⟩ := l
  dsimp only at ho hw hb ⊢
  subst ho
  unfold Linear.call
  dsimp only
  rw [hx, List.getLast?_concat]
  dsimp only
  rw [bind_eq (has_get hw)]
  have hd : ∀ q j, (dot x w n m).val (q ++ [j]) = lin n w 0 (vec x q) j := by
    intro q j
    unfold dot lin vec
    dsimp only
    rw [List.dropLast_concat, List.getLastD_concat]
    refine Finset.sum_congr rfl fun k _ => ?_
    rw [Nat.zero_add]
  have hds : (dot x w n m).shape = p ++ [m] := by
    show x.shape.dropLast ++ [m] = _
    rw [hx, List.dropLast_concat]
  cases wb with
  | true =>
    rw [if_pos rfl, bind_eq (has_get (hb rfl))]
    refine ⟨_, _, rfl, hds, fun q j => ?_⟩
    show (dot x w n m).val (q ++ [j]) + b.val [(q ++ [j]).getLastD 0] = _
    rw [hd, List.getLastD_concat, if_pos rfl]
  | false =>
    rw [if_neg (by decide)]
    refine ⟨_, _, rfl, hds, fun q j => ?_⟩
    show (dot x w n m).val (q ++ [j]) = _
    rw [hd, if_neg (by decide), add_zero]

theorem concat_run {x y : Arr K} {p : List Nat} {n m : Nat} (hx : x.shape = p ++ [n]) (hy : y.shape = p ++ [m]) :
    ∃ z, concatLast x y = .ok z ∧ z.shape = p ++ [n + m] ∧ ∀ q k, vec z q k = if k < n then vec x q k else vec y q (k - n) := by
  unfold concatLast
  rw [hx, hy, List.getLast?_concat, List.getLast?_concat]
  dsimp only
  rw [List.dropLast_concat, List.dropLast_concat, if_pos rfl]
  refine ⟨_, rfl, rfl, fun q k => ?_⟩
  unfold vec
  dsimp only
  rw [List.dropLast_concat, List.getLastD_concat]

theorem lin_concat [Field K] {n m : Nat} {w : Arr K} {z x y : Nat → K} (h : ∀ k, z k = if k < n then x k else y (k - n)) (j : Nat) : lin (n + m) w 0 z j = lin n w 0 x j + lin m w n y j := by
  unfold lin
  rw [Finset.sum_range_add]
  congr 1
  · refine Finset.sum_congr rfl fun k hk => ?_
    rw [h, if_pos (Finset.mem_range.mp hk)]
  · refine Finset.sum_congr rfl fun k hk => ?_
    rw [h, if_neg (by omega), Nat.add_sub_cancel_left, Nat.zero_add]

theorem columns_vec (a n : Nat) (x : Arr K) (q : List Nat) (j : Nat) : vec (columns a n x) q j = vec x q (a + j) := by
  unfold vec columns
  dsimp only
  rw [List.dropLast_concat, List.getLastD_concat]

theorem columns_shape (a : Nat) {n m : Nat} {x : Arr K} {p : List Nat} (h : x.shape = p ++ [m]) : (columns a n x).shape = p ++ [n] := by
  show x.shape.dropLast ++ [n] = _
  rw [h, List.dropLast_concat]

/-- C84 An LSTM on inputs `[n]` or `[B, n]` and a state of the documented shapes computes, for each batch element, the documented gates, cell and hidden state; its parameters are those of its linear layer.
The columns of the weights belong to the gates `i`, `g`, `f`, `o` in this order, and the rows to the inputs and then the hidden state. -/
theorem lstm_equations [Field K] {get : ParamFn K} {sigmoid tanh : K → K} {m : LSTM} {p : List Nat} {n : Nat} {x h c w b : Arr K} (hp : p.length ≤ 1) (hx : x.shape = p ++ [n])
    (hh : h.shape = p ++ [m.hiddenSize]) (hc : c.shape = p ++ [m.hiddenSize]) (hw : Has get (m.name ++ "/linear") "w" [n + m.hiddenSize, 4 * m.hiddenSize] w)
    (hb : Has get (m.name ++ "/linear") "b" [4 * m.hiddenSize] b) :
    ∃ h' c', m.call get sigmoid tanh x h c = .ok (h', c') ∧ h'.shape = p ++ [m.hiddenSize] ∧ c'.shape = p ++ [m.hiddenSize] ∧ ∀ q, Valid p q → ∀ j < m.hiddenSize,
      vec h' q j = lstmHidden sigmoid tanh n m.hiddenSize w b (vec x q) (vec h q) (vec c q) j ∧ vec c' q j = lstmCell sigmoid tanh n m.hiddenSize w b (vec x q) (vec h q) (vec c q) j := by
  unfold LSTM.call
  rw [if_neg (by rw [hx]; simp; omega)]
  obtain ⟨xh, h1, s1, v1⟩ := concat_run hx hh
  rw [bind_eq h1]
  obtain ⟨gd, l', h2, s2, v2⟩ := linear_run (l := ⟨m.name ++ "/linear", none, some (4 * m.hiddenSize), true⟩) (b := b) s1 rfl hw (fun _ => hb)
  rw [bind_eq h2]
  dsimp only
  have pre : ∀ q j, vec gd q j = lstmPre n m.hiddenSize w b (vec x q) (vec h q) j := by
    intro q j
    rw [v2, lin_concat (v1 q), if_pos rfl]
    rfl
  obtain ⟨fc, h3, s3, v3⟩ := zip_same (f := (· * ·)) (x := map (fun v => sigmoid (v + 1)) (columns (2 * m.hiddenSize) m.hiddenSize gd)) (y := c) (columns_shape (2 * m.hiddenSize) s2) hc
  obtain ⟨ig, h4, s4, v4⟩ := zip_same (f := (· * ·)) (x := map sigmoid (columns 0 m.hiddenSize gd)) (y := map tanh (columns m.hiddenSize m.hiddenSize gd)) (columns_shape 0 s2) (columns_shape m.hiddenSize s2)
  obtain ⟨c', h5, s5, v5⟩ := zip_same (f := (· + ·)) s3 s4
  obtain ⟨h', h6, s6, v6⟩ := zip_same (f := (· * ·)) (x := map sigmoid (columns (3 * m.hiddenSize) m.hiddenSize gd)) (y := map tanh c') (columns_shape (3 * m.hiddenSize) s2) s5
  rw [bind_eq h3, bind_eq h4, bind_eq h5, bind_eq h6]
  refine ⟨h', c', rfl, s6, s5, fun q hq j hj => ?_⟩
  have hv := valid_snoc (n := m.hiddenSize) hq hj
  have cc : vec c' q j = lstmCell sigmoid tanh n m.hiddenSize w b (vec x q) (vec h q) (vec c q) j := by
    show c'.val _ = _
    rw [v5 _ hv, v3 _ hv, v4 _ hv]
    show sigmoid (vec (columns _ _ gd) q j + 1) * vec c q j + sigmoid (vec (columns _ _ gd) q j) * tanh (vec (columns _ _ gd) q j) = _
    rw [columns_vec, columns_vec, columns_vec, pre, pre, pre, Nat.zero_add]
    rfl
  refine ⟨?_, cc⟩
  show h'.val _ = _
  rw [v6 _ hv]
  show sigmoid (vec (columns _ _ gd) q j) * tanh (vec c' q j) = _
  rw [columns_vec, pre, cc]
  rfl

/-- What a successful LSTM call on states of the documented shapes had. -/
theorem lstm_inv [Field K] {get : ParamFn K} {sigmoid tanh : K → K} {m : LSTM} {p : List Nat} {x h c h' c' : Arr K} (hh : h.shape = p ++ [m.hiddenSize])
    (hr : m.call get sigmoid tanh x h c = .ok (h', c')) :
    ∃ n w b, p.length ≤ 1 ∧ x.shape = p ++ [n] ∧ Has get (m.name ++ "/linear") "w" [n + m.hiddenSize, 4 * m.hiddenSize] w ∧ Has get (m.name ++ "/linear") "b" [4 * m.hiddenSize] b := by
  unfold LSTM.call at hr
  by_cases h0 : 2 < x.shape.length ∨ x.shape = []
  · rw [if_pos h0] at hr
    cases hr
  rw [if_neg h0] at hr
  obtain ⟨xh, h1, hr⟩ := bind_ok hr
  obtain ⟨⟨gd, l'⟩, h2, hr⟩ := bind_ok hr
  clear hr
  obtain ⟨r, n, hxn⟩ : ∃ r n, x.shape = r ++ [n] := by
    rcases List.eq_nil_or_concat x.shape with e | ⟨r, n, e⟩
    · exact (h0 (.inr e)).elim
    · exact ⟨r, n, by rw [e, List.concat_eq_append]⟩
  unfold concatLast at h1
  rw [hxn, hh, List.getLast?_concat, List.getLast?_concat] at h1
  dsimp only at h1
  rw [List.dropLast_concat, List.dropLast_concat] at h1
  by_cases he : r = p
  · subst he
    rw [if_pos rfl] at h1
    cases h1
    unfold Linear.call at h2
    dsimp only at h2
    rw [List.getLast?_concat] at h2
    dsimp only at h2
    obtain ⟨w, hw, h2⟩ := bind_ok h2
    rw [if_pos rfl] at h2
    obtain ⟨b, hb, h2⟩ := bind_ok h2
    refine ⟨n, w, b, ?_, hxn, get_has hw, get_has hb⟩
    have : ¬ 2 < x.shape.length := fun hl => h0 (.inl hl)
    rw [hxn, List.length_append] at this
    simp at this
    omega
  · rw [if_neg he] at h1
    cases h1

theorem dot_run [Field K] (x w : Arr K) {p : List Nat} {n : Nat} (m : Nat) (hx : x.shape = p ++ [n]) : ∃ y, matmul x w n m = .ok y ∧ y.shape = p ++ [m] ∧ ∀ q j, vec y q j = lin n w 0 (vec x q) j := by
  unfold matmul
  rw [if_pos (by rw [hx, List.getLast?_concat])]
  refine ⟨_, rfl, ?_, fun q j => ?_⟩
  · show x.shape.dropLast ++ [m] = _
    rw [hx, List.dropLast_concat]
  · unfold vec dot lin
    dsimp only
    rw [List.dropLast_concat, List.getLastD_concat]
    refine Finset.sum_congr rfl fun k _ => ?_
    rw [Nat.zero_add]

theorem bias_broadcast (b : Arr K) {p : List Nat} {n : Nat} (hb : b.shape = [n]) : ∃ z, broadcastTo b (p ++ [n]) = .ok z ∧ z.shape = p ++ [n] ∧ ∀ q, ∀ j < n, vec z q j = b.val [j] := by
  obtain ⟨z, h1, h2, h3⟩ := Verif.Props.Norm.broadcastTo_at (x := b) (s := p ++ [n]) ⟨p, [n], rfl, by rw [hb]; exact .cons (.inr rfl) .nil⟩
  refine ⟨z, h1, h2, fun q j hj => ?_⟩
  show z.val _ = _
  rw [h3]
  unfold Verif.Props.Norm.spread
  rw [hb]
  have : (q ++ [j]).length - [n].length = q.length := by rw [List.length_append]; simp
  rw [this, List.drop_left]
  show b.val [if n = 1 then 0 else j] = _
  by_cases hn : n = 1
  · rw [if_pos hn]
    have : j = 0 := by omega
    rw [this]
  · rw [if_neg hn]

theorem lin_congr [AddCommMonoid K] [Mul K] {n : Nat} {w : Arr K} {r : Nat} {x y : Nat → K} (h : ∀ k < n, x k = y k) (j : Nat) : lin n w r x j = lin n w r y j :=
  Finset.sum_congr rfl fun k hk => by rw [h k (Finset.mem_range.mp hk)]

theorem lin_columns [AddCommMonoid K] [Mul K] (n : Nat) (w : Arr K) (a c r : Nat) (x : Nat → K) (j : Nat) : lin n (columns a c w) r x j = lin n w r x (a + j) :=
  Finset.sum_congr rfl fun k _ => by
    show x k * vec (columns a c w) [r + k] j = x k * vec w [r + k] (a + j)
    rw [columns_vec]

/-- C84 A GRU on inputs `[n]` or `[B, n]` and a state of the documented shape computes, for each batch element, the documented next state. -/
theorem gru_equations [Field K] {get : ParamFn K} {sigmoid tanh : K → K} {m : GRU} {p : List Nat} {n : Nat} {x h wi wh b : Arr K} (hp : p.length ≤ 1) (hx : x.shape = p ++ [n])
    (hh : h.shape = p ++ [m.hiddenSize]) (hwi : Has get m.name "w_i" [n, 3 * m.hiddenSize] wi) (hwh : Has get m.name "w_h" [m.hiddenSize, 3 * m.hiddenSize] wh)
    (hb : Has get m.name "b" [3 * m.hiddenSize] b) :
    ∃ h', m.call get sigmoid tanh x h = .ok h' ∧ h'.shape = p ++ [m.hiddenSize] ∧ ∀ q, Valid p q → ∀ j < m.hiddenSize,
      vec h' q j = gruNext sigmoid tanh n m.hiddenSize wi wh b (vec x q) (vec h q) j := by
  unfold GRU.call
  rw [if_neg (by rw [hx, List.length_append]; show ¬ (p.length + 1 ≠ 1 ∧ p.length + 1 ≠ 2); omega)]
  dsimp only
  have hn : x.shape.getLastD 0 = n := by rw [hx, List.getLastD_concat]
  rw [hn, bind_eq (has_get hwi), bind_eq (has_get hwh), bind_eq (has_get hb)]
  obtain ⟨gx, h1, s1, v1⟩ := dot_run x wi (3 * m.hiddenSize) hx
  obtain ⟨zh, h2, s2, v2⟩ := dot_run h (columns 0 (2 * m.hiddenSize) wh) (2 * m.hiddenSize) hh
  rw [bind_eq h1, bind_eq h2]
  obtain ⟨zr, h3, s3, v3⟩ := zip_same (f := (· + ·)) (x := columns 0 (2 * m.hiddenSize) gx) (y := zh) (columns_shape 0 s1) s2
  obtain ⟨bz, h4, s4, v4⟩ := bias_broadcast (p := p) (columns 0 (2 * m.hiddenSize) b) (n := 2 * m.hiddenSize) (columns_shape (p := []) 0 hb.2)
  obtain ⟨zr', h5, s5, v5⟩ := zip_same (f := (· + ·)) (x := zr) (y := bz) s3 s4
  rw [bind_eq h3, s2, bind_eq h4, bind_eq h5]
  obtain ⟨rh, h6, s6, v6⟩ := zip_same (f := (· * ·)) (x := columns m.hiddenSize m.hiddenSize (map sigmoid zr')) (y := h) (columns_shape m.hiddenSize (show (map sigmoid zr').shape = _ from s5)) hh
  obtain ⟨ah, h7, s7, v7⟩ := dot_run rh (columns (2 * m.hiddenSize) m.hiddenSize wh) m.hiddenSize s6
  rw [bind_eq h6, bind_eq h7]
  obtain ⟨a, h8, s8, v8⟩ := zip_same (f := (· + ·)) (x := columns (2 * m.hiddenSize) m.hiddenSize gx) (y := ah) (columns_shape (2 * m.hiddenSize) s1) s7
  obtain ⟨ba, h9, s9, v9⟩ := bias_broadcast (p := p) (columns (2 * m.hiddenSize) m.hiddenSize b) (n := m.hiddenSize) (columns_shape (p := []) _ hb.2)
  obtain ⟨a', h10, s10, v10⟩ := zip_same (f := (· + ·)) (x := a) (y := ba) s8 s9
  rw [bind_eq h8, s7, bind_eq h9, bind_eq h10]
  obtain ⟨zh', h11, s11, v11⟩ := zip_same (f := (· * ·)) (x := map (1 - ·) (columns 0 m.hiddenSize (map sigmoid zr'))) (y := h) (columns_shape 0 (show (map sigmoid zr').shape = _ from s5)) hh
  obtain ⟨za, h12, s12, v12⟩ := zip_same (f := (· * ·)) (x := columns 0 m.hiddenSize (map sigmoid zr')) (y := map tanh a') (columns_shape 0 (show (map sigmoid zr').shape = _ from s5)) s10
  obtain ⟨h', h13, s13, v13⟩ := zip_same (f := (· + ·)) s11 s12
  rw [bind_eq h11, bind_eq h12]
  refine ⟨h', h13, s13, fun q hq j hj => ?_⟩
  have bcol : ∀ (a c : Nat) (j : Nat), (columns a c b).val [j] = b.val [a + j] := fun a c j => columns_vec a c b [] j
  have zrv : ∀ k < 2 * m.hiddenSize, vec zr' q k = lin n wi 0 (vec x q) k + lin m.hiddenSize wh 0 (vec h q) k + b.val [k] := by
    intro k hk
    have hv := valid_snoc (n := 2 * m.hiddenSize) hq hk
    show zr'.val _ = _
    rw [v5 _ hv, v3 _ hv]
    show vec (columns _ _ gx) q k + vec zh q k + vec bz q k = _
    rw [columns_vec, v1, v2, lin_columns, v4 q k hk, bcol, Nat.zero_add]
  have hv := valid_snoc (n := m.hiddenSize) hq hj
  have av : vec a' q j = lin n wi 0 (vec x q) (2 * m.hiddenSize + j) + lin m.hiddenSize wh 0 (fun k => sigmoid (lin n wi 0 (vec x q) (m.hiddenSize + k) +
      lin m.hiddenSize wh 0 (vec h q) (m.hiddenSize + k) + b.val [m.hiddenSize + k]) * vec h q k) (2 * m.hiddenSize + j) + b.val [2 * m.hiddenSize + j] := by
    show a'.val _ = _
    rw [v10 _ hv, v8 _ hv]
    show vec (columns _ _ gx) q j + vec ah q j + vec ba q j = _
    rw [columns_vec, v1, v7, lin_columns, v9 q j hj, bcol]
    congr 2
    refine lin_congr (fun k hk => ?_) _
    show rh.val _ = _
    rw [v6 _ (valid_snoc hq hk)]
    show vec (columns _ _ (map sigmoid zr')) q k * vec h q k = _
    rw [columns_vec]
    show sigmoid (vec zr' q (m.hiddenSize + k)) * vec h q k = _
    rw [zrv _ (by omega)]
  show h'.val _ = _
  rw [v13 _ hv, v11 _ hv, v12 _ hv]
  show (1 - vec (columns _ _ (map sigmoid zr')) q j) * vec h q j + vec (columns _ _ (map sigmoid zr')) q j * tanh (vec a' q j) = _
  rw [columns_vec, Nat.zero_add]
  show (1 - sigmoid (vec zr' q j)) * vec h q j + sigmoid (vec zr' q j) * tanh (vec a' q j) = _
  rw [zrv j (by omega), av]
  rfl

/-- C84 A vanilla RNN on inputs and a state with equal leading axes computes the documented next state; the second bias is only used with `double_bias`. -/
theorem rnn_equations [Field K] [LinearOrder K] {get : ParamFn K} {m : VanillaRNN} {p : List Nat} {n : Nat} {x h wi bi wh bh : Arr K} (hx : x.shape = p ++ [n]) (hh : h.shape = p ++ [m.hiddenSize])
    (hwi : Has get (m.name ++ "/linear") "w" [n, m.hiddenSize] wi) (hbi : Has get (m.name ++ "/linear") "b" [m.hiddenSize] bi)
    (hwh : Has get (m.name ++ "/linear_1") "w" [m.hiddenSize, m.hiddenSize] wh) (hbh : m.doubleBias = true → Has get (m.name ++ "/linear_1") "b" [m.hiddenSize] bh) :
    ∃ h', m.call get x h = .ok h' ∧ h'.shape = p ++ [m.hiddenSize] ∧ ∀ q, Valid p q → ∀ j < m.hiddenSize,
      vec h' q j = rnnNext n m.hiddenSize wi bi wh (if m.doubleBias then some bh else none) (vec x q) (vec h q) j := by
  unfold VanillaRNN.call
  obtain ⟨a, l1, h1, s1, v1⟩ := linear_run (l := ⟨m.name ++ "/linear", none, some m.hiddenSize, true⟩) (b := bi) hx rfl hwi (fun _ => hbi)
  obtain ⟨b, l2, h2, s2, v2⟩ := linear_run (l := ⟨m.name ++ "/linear_1", none, some m.hiddenSize, m.doubleBias⟩) (b := bh) hh rfl hwh hbh
  rw [bind_eq h1]
  dsimp only
  rw [bind_eq h2]
  dsimp only
  obtain ⟨s, h3, s3, v3⟩ := zip_same (f := (· + ·)) s1 s2
  rw [bind_eq h3]
  refine ⟨_, rfl, s3, fun q hq j hj => ?_⟩
  show max (s.val (q ++ [j])) 0 = _
  rw [v3 _ (valid_snoc hq hj)]
  show max (vec a q j + vec b q j) 0 = _
  rw [v1, v2]
  dsimp only
  rw [if_pos rfl]
  cases m.doubleBias <;> rfl

/-! ### C84: what is rejected -/

/-- C84 An LSTM rejects scalars and inputs of more than two axes, a GRU too. -/
theorem rank_rejected [Field K] (get : ParamFn K) (sigmoid tanh : K → K) (l : LSTM) (g : GRU) (x h c : Arr K) (hx : x.shape = [] ∨ 2 < x.shape.length) :
    l.call get sigmoid tanh x h c = .error .value ∧ g.call get sigmoid tanh x h = .error .value := by
  refine ⟨if_pos hx.symm, if_pos ?_⟩
  rcases hx with hx | hx
  · rw [hx]
    exact ⟨by decide, by decide⟩
  · exact ⟨by omega, by omega⟩

/-- C84 An LSTM rejects a hidden state whose leading axes are not those of the inputs. -/
theorem lstm_batch_rejected [Field K] (get : ParamFn K) (sigmoid tanh : K → K) (m : LSTM) (p p' : List Nat) (n k : Nat) (x h c : Arr K) (hx : x.shape = p ++ [n]) (hh : h.shape = p' ++ [k])
    (hp : p ≠ p') : ∃ e, m.call get sigmoid tanh x h c = .error e := by
  unfold LSTM.call
  by_cases h0 : 2 < x.shape.length ∨ x.shape = []
  · exact ⟨_, if_pos h0⟩
  · refine ⟨.type, ?_⟩
    rw [if_neg h0]
    refine bind_err ?_
    unfold concatLast
    rw [hx, hh, List.getLast?_concat, List.getLast?_concat]
    dsimp only
    rw [List.dropLast_concat, List.dropLast_concat, if_neg hp]

/-! ### C85 -/

/-- Batch element `b` of an array. -/
def element (b : Nat) (x : Arr K) : Arr K := ⟨x.shape.tail, fun i => x.val (b :: i)⟩

/-- C85 Each batch element goes through an LSTM as if it were alone. -/
theorem lstm_batch [Field K] (get : ParamFn K) (sigmoid tanh : K → K) (m : LSTM) (B : Nat) (x h c h' c' : Arr K) (hh : h.shape = [B, m.hiddenSize]) (hc : c.shape = [B, m.hiddenSize])
    (hr : m.call get sigmoid tanh x h c = .ok (h', c')) :
    h'.shape = [B, m.hiddenSize] ∧ c'.shape = [B, m.hiddenSize] ∧ ∀ b < B, ∃ h₁ c₁, m.call get sigmoid tanh (element b x) (element b h) (element b c) = .ok (h₁, c₁) ∧
      h₁.shape = [m.hiddenSize] ∧ c₁.shape = [m.hiddenSize] ∧ ∀ j < m.hiddenSize, h'.val [b, j] = h₁.val [j] ∧ c'.val [b, j] = c₁.val [j] := by
  obtain ⟨n, w, bi, _, hx, hw, hb⟩ := lstm_inv (p := [B]) hh hr
  obtain ⟨h₂, c₂, e, s1, s2, v⟩ := lstm_equations (p := [B]) (sigmoid := sigmoid) (tanh := tanh) (Nat.le_refl 1) hx hh hc hw hb
  rw [hr] at e
  cases e
  refine ⟨s1, s2, fun b hb' => ?_⟩
  obtain ⟨h₁, c₁, e, t1, t2, u⟩ := lstm_equations (p := []) (sigmoid := sigmoid) (tanh := tanh) (x := element b x) (h := element b h) (c := element b c) (by decide)
    (show x.shape.tail = _ by rw [hx]; rfl) (show h.shape.tail = _ by rw [hh]; rfl) (show c.shape.tail = _ by rw [hc]; rfl) hw hb
  refine ⟨h₁, c₁, e, t1, t2, fun j hj => ?_⟩
  obtain ⟨a1, a2⟩ := v [b] (.cons hb' .nil) j hj
  obtain ⟨b1, b2⟩ := u [] .nil j hj
  exact ⟨a1.trans b1.symm, a2.trans b2.symm⟩

/-- What a successful GRU call had. -/
theorem gru_inv [Field K] {get : ParamFn K} {sigmoid tanh : K → K} {m : GRU} {p : List Nat} {n : Nat} {x h h' : Arr K} (hx : x.shape = p ++ [n])
    (hr : m.call get sigmoid tanh x h = .ok h') :
    ∃ wi wh b, p.length ≤ 1 ∧ Has get m.name "w_i" [n, 3 * m.hiddenSize] wi ∧ Has get m.name "w_h" [m.hiddenSize, 3 * m.hiddenSize] wh ∧ Has get m.name "b" [3 * m.hiddenSize] b := by
  unfold GRU.call at hr
  by_cases h0 : x.shape.length ≠ 1 ∧ x.shape.length ≠ 2
  · rw [if_pos h0] at hr
    cases hr
  rw [if_neg h0] at hr
  dsimp only at hr
  have hn : x.shape.getLastD 0 = n := by rw [hx, List.getLastD_concat]
  rw [hn] at hr
  obtain ⟨wi, h1, hr⟩ := bind_ok hr
  obtain ⟨wh, h2, hr⟩ := bind_ok hr
  obtain ⟨b, h3, hr⟩ := bind_ok hr
  refine ⟨wi, wh, b, ?_, get_has h1, get_has h2, get_has h3⟩
  rw [hx, List.length_append] at h0
  have h0 : ¬ (p.length + 1 ≠ 1 ∧ p.length + 1 ≠ 2) := h0
  omega

/-- C85 Each batch element goes through a GRU as if it were alone. -/
theorem gru_batch [Field K] (get : ParamFn K) (sigmoid tanh : K → K) (m : GRU) (B n : Nat) (x h h' : Arr K) (hx : x.shape = [B, n]) (hh : h.shape = [B, m.hiddenSize])
    (hr : m.call get sigmoid tanh x h = .ok h') :
    h'.shape = [B, m.hiddenSize] ∧ ∀ b < B, ∃ h₁, m.call get sigmoid tanh (element b x) (element b h) = .ok h₁ ∧ h₁.shape = [m.hiddenSize] ∧ ∀ j < m.hiddenSize, h'.val [b, j] = h₁.val [j] := by
  obtain ⟨wi, wh, bi, _, hwi, hwh, hb⟩ := gru_inv (p := [B]) hx hr
  obtain ⟨h₂, e, s1, v⟩ := gru_equations (p := [B]) (sigmoid := sigmoid) (tanh := tanh) (Nat.le_refl 1) hx hh hwi hwh hb
  rw [hr] at e
  cases e
  refine ⟨s1, fun b hb' => ?_⟩
  obtain ⟨h₁, e, t1, u⟩ := gru_equations (p := []) (sigmoid := sigmoid) (tanh := tanh) (x := element b x) (h := element b h) (by decide)
    (show x.shape.tail = _ by rw [hx]; rfl) (show h.shape.tail = _ by rw [hh]; rfl) hwi hwh hb
  exact ⟨h₁, e, t1, fun j hj => (v [b] (.cons hb' .nil) j hj).trans (u [] .nil j hj).symm⟩

theorem linear_inv [Field K] {get : ParamFn K} {l l' : Linear} {x y : Arr K} {p : List Nat} {n m : Nat} (hx : x.shape = p ++ [n]) (ho : l.outputSize = some m) (hr : l.call get x = .ok (y, l')) :
    ∃ w, Has get l.name "w" [n, m] w ∧ ∃ b, l.withBias = true → Has get l.name "b" [m] b := by
  obtain ⟨nm, is, os, wb⟩ := l
  dsimp only at ho ⊢
  subst ho
  unfold Linear.call at hr
  dsimp only at hr
  rw [hx, List.getLast?_concat] at hr
  dsimp only at hr
  obtain ⟨w, hw, hr⟩ := bind_ok hr
  refine ⟨w, get_has hw, ?_⟩
  cases wb with
  | false => exact ⟨w, fun h => by cases h⟩
  | true =>
    rw [if_pos rfl] at hr
    obtain ⟨b, hb, _⟩ := bind_ok hr
    exact ⟨b, fun _ => get_has hb⟩

/-- What a successful call of a vanilla RNN had. -/
theorem rnn_inv [Field K] [LinearOrder K] {get : ParamFn K} {m : VanillaRNN} {p p' : List Nat} {n : Nat} {x h h' : Arr K} (hx : x.shape = p ++ [n]) (hh : h.shape = p' ++ [m.hiddenSize])
    (hr : m.call get x h = .ok h') :
    ∃ wi bi wh bh, Has get (m.name ++ "/linear") "w" [n, m.hiddenSize] wi ∧ Has get (m.name ++ "/linear") "b" [m.hiddenSize] bi ∧
      Has get (m.name ++ "/linear_1") "w" [m.hiddenSize, m.hiddenSize] wh ∧ (m.doubleBias = true → Has get (m.name ++ "/linear_1") "b" [m.hiddenSize] bh) := by
  unfold VanillaRNN.call at hr
  obtain ⟨⟨a, l1⟩, h1, hr⟩ := bind_ok hr
  obtain ⟨⟨b, l2⟩, h2, hr⟩ := bind_ok hr
  obtain ⟨wi, hwi, bi, hbi⟩ := linear_inv hx rfl h1
  obtain ⟨wh, hwh, bh, hbh⟩ := linear_inv hh rfl h2
  exact ⟨wi, bi, wh, bh, hwi, hbi rfl, hwh, hbh⟩

/-- C85 Each batch element goes through a vanilla RNN as if it were alone. -/
theorem rnn_batch [Field K] [LinearOrder K] (get : ParamFn K) (m : VanillaRNN) (B : Nat) (p : List Nat) (n : Nat) (x h h' : Arr K) (hx : x.shape = B :: p ++ [n]) (hh : h.shape = B :: p ++ [m.hiddenSize])
    (hr : m.call get x h = .ok h') :
    h'.shape = B :: p ++ [m.hiddenSize] ∧ ∀ b < B, ∃ h₁, m.call get (element b x) (element b h) = .ok h₁ ∧ h₁.shape = p ++ [m.hiddenSize] ∧
      ∀ q, Valid p q → ∀ j < m.hiddenSize, h'.val (b :: (q ++ [j])) = h₁.val (q ++ [j]) := by
  obtain ⟨wi, bi, wh, bh, hwi, hbi, hwh, hbh⟩ := rnn_inv (p := B :: p) (p' := B :: p) hx hh hr
  obtain ⟨h₂, e, s1, v⟩ := rnn_equations (p := B :: p) hx hh hwi hbi hwh hbh
  rw [hr] at e
  cases e
  refine ⟨s1, fun b hb' => ?_⟩
  obtain ⟨h₁, e, t1, u⟩ := rnn_equations (p := p) (x := element b x) (h := element b h)
    (show x.shape.tail = _ by rw [hx]; rfl) (show h.shape.tail = _ by rw [hh]; rfl) hwi hbi hwh hbh
  exact ⟨h₁, e, t1, fun q hq j hj => (v (b :: q) (.cons hb' hq) j hj).trans (u q hq j hj).symm⟩

/-! ### C86 -/

/-- An invariant of the states and a property of the outputs of `static_unroll`. -/
theorem static_inv {core : Core K σ} {tm : Bool} {seq : Nest K} {P : Nest K → Prop} {I : Nat → Nest K → Prop} {O : Nest K → Prop}
    (hP : ∀ t x, seq.mapM (sliceAt tm t) = .ok x → P x) (hstep : ∀ t x st s o st' s', P x → I t st → core x st s = .ok (o, st', s') → I (t + 1) st' ∧ O o) :
    ∀ (ts : List Nat) (t : Nat) (st : Nest K) (outs outs' : List (Nest K)) (st' : Nest K) (s s' : σ), I t st → (∀ o ∈ outs, O o) → staticLoop core tm seq ts st outs s = .ok (outs', st', s') →
      I (t + ts.length) st' ∧ ∀ o ∈ outs', O o
  | [], t, st, outs, outs', st', s, s', hi, ho, h => by
    cases h
    exact ⟨hi, ho⟩
  | a :: ts, t, st, outs, outs', st', s, s', hi, ho, h => by
    obtain ⟨x, h1, h⟩ := bind_ok h
    obtain ⟨⟨o, st1, s1⟩, h2, h⟩ := bind_ok h
    obtain ⟨hi', ho'⟩ := hstep t x st s o st1 s1 (hP a x h1) hi h2
    obtain ⟨r1, r2⟩ := static_inv hP hstep ts (t + 1) st1 _ _ _ s1 _ hi' (fun q hq => by
      rcases List.mem_append.mp hq with h | h
      · exact ho q h
      · rw [List.mem_singleton.mp h]; exact ho') h
    refine ⟨?_, r2⟩
    rw [List.length_cons, Nat.add_comm ts.length, ← Nat.add_assoc]
    exact r1

/-- Every element of stacked arrays is an element of one of them. -/
theorem stack_mem {tm : Bool} {xs : List (Arr K)} {y : Arr K} (h : stack tm xs = .ok y) {i : List Nat} (hi : Valid y.shape i) : ∃ x ∈ xs, ∃ i', Valid x.shape i' ∧ y.val i = x.val i' := by
  cases xs with
  | nil => cases h
  | cons x xs =>
    unfold stack at h
    dsimp only at h
    by_cases hs : xs.any (fun y => y.shape != x.shape) = true
    · rw [if_pos hs] at h
      cases h
    rw [if_neg hs] at h
    have same : ∀ z ∈ x :: xs, z.shape = x.shape := by
      intro z hz
      rcases List.mem_cons.mp hz with rfl | hz
      · rfl
      · refine Classical.byContradiction fun hn => hs ?_
        rw [List.any_eq_true]
        exact ⟨z, hz, by simpa using hn⟩
    have pick : ∀ t, t < xs.length + 1 → (x :: xs).getD t x ∈ x :: xs := by
      intro t ht
      rw [List.getD_eq_getElem?_getD, List.getElem?_eq_getElem (by rw [List.length_cons]; exact ht), Option.getD_some]
      exact List.getElem_mem _
    cases tm with
    | true =>
      cases h
      rcases hi with _ | ⟨ht, hr⟩
      rename_i t r
      exact ⟨_, pick t ht, r, by rw [same _ (pick t ht)]; exact hr, rfl⟩
    | false =>
      cases hx : x.shape with
      | nil => rw [hx] at h; cases h
      | cons b s =>
        rw [hx] at h
        cases h
        rcases hi with _ | ⟨hb, hr⟩
        rcases hr with _ | ⟨ht, hr⟩
        rename_i j t r
        exact ⟨_, pick t ht, j :: r, by rw [same _ (pick t ht), hx]; exact .cons hb hr, rfl⟩

theorem mapM_mem {α β : Type} {f : α → Except Err β} : ∀ {l : List α} {r : List β}, l.mapM f = .ok r → ∀ y ∈ r, ∃ a ∈ l, f a = .ok y
  | [], r, h, y, hy => by
    cases h
    cases hy
  | a :: l, r, h, y, hy => by
    rw [Verif.Props.Recurrent.mapM_cons] at h
    obtain ⟨b, h1, h⟩ := bind_ok h
    obtain ⟨bs, h2, h⟩ := bind_ok h
    cases h
    rcases List.mem_cons.mp hy with rfl | hy
    · exact ⟨a, List.mem_cons_self .., h1⟩
    · obtain ⟨c, hc, e⟩ := mapM_mem h2 y hy
      exact ⟨c, List.mem_cons_of_mem _ hc, e⟩

/-- What holds of all elements of all outputs holds of all elements of the stacked outputs. -/
theorem stackNests_all {tm : Bool} {outs : List (Nest K)} {out : Nest K} {P : K → Prop} (h : stackNests tm outs = .ok out) (hP : ∀ o ∈ outs, ∀ y ∈ o, ∀ i, Valid y.shape i → P (y.val i)) :
    ∀ y ∈ out, ∀ i, Valid y.shape i → P (y.val i) := by
  intro y hy i hi
  cases outs with
  | nil => cases h
  | cons o os =>
    unfold stackNests at h
    dsimp only at h
    by_cases hl : os.any (fun p => p.length != o.length) = true
    · rw [if_pos hl] at h
      cases h
    rw [if_neg hl] at h
    obtain ⟨j, _, e⟩ := mapM_mem h y hy
    obtain ⟨x, hx, i', hi', ev⟩ := stack_mem e hi
    obtain ⟨o', ho', e'⟩ := List.mem_filterMap.mp hx
    rw [ev]
    exact hP o' ho' x (List.mem_of_getElem? e') i' hi'

theorem static_unroll_inv {core : Core K σ} {tm : Bool} {seq init out st' : Nest K} {s s' : σ} {P : Nest K → Prop} {I : Nat → Nest K → Prop} {Q : K → Prop}
    (hP : ∀ t x, seq.mapM (sliceAt tm t) = .ok x → P x)
    (hstep : ∀ t x st s o st' s', P x → I t st → core x st s = .ok (o, st', s') → I (t + 1) st' ∧ ∀ y ∈ o, ∀ i, Valid y.shape i → Q (y.val i)) (h0 : I 0 init)
    (h : staticUnroll core seq init tm s = .ok (out, st', s')) : ∃ T, numSteps tm seq = .ok T ∧ I T st' ∧ ∀ y ∈ out, ∀ i, Valid y.shape i → Q (y.val i) := by
  unfold staticUnroll at h
  obtain ⟨T, h1, h⟩ := bind_ok h
  obtain ⟨⟨outs, st1, s1⟩, h2, h⟩ := bind_ok h
  obtain ⟨out', h3, h⟩ := bind_ok h
  cases h
  obtain ⟨r1, r2⟩ := static_inv (O := fun o => ∀ y ∈ o, ∀ i, Valid y.shape i → Q (y.val i)) hP hstep (List.range T) 0 init [] _ _ s _ h0 (fun o ho => by cases ho) h2
  rw [List.length_range, Nat.zero_add] at r1
  exact ⟨T, h1, r1, stackNests_all h3 r2⟩

theorem valid_vec {p : List Nat} {n : Nat} {i : List Nat} (h : Valid (p ++ [n]) i) : ∃ q j, i = q ++ [j] ∧ Valid p q ∧ j < n := by
  obtain ⟨q, r, e, hq, hr⟩ := Verif.Nd.valid_append_inv h
  rcases hr with _ | ⟨hj, hr⟩
  cases hr
  exact ⟨q, _, e, hq, hj⟩

/-- The elements are at most `M` in absolute value. -/
def Bounded [Field K] [LinearOrder K] (M : K) (x : Arr K) : Prop := ∀ i, Valid x.shape i → |x.val i| ≤ M

/-- What the logistic function and the hyperbolic tangent satisfy. -/
structure Squash [Field K] [LinearOrder K] (sigmoid tanh : K → K) : Prop where
  nonneg : ∀ v, 0 ≤ sigmoid v
  le_one : ∀ v, sigmoid v ≤ 1
  abs_le : ∀ v, |tanh v| ≤ 1

theorem lstm_step_bounded [Field K] [LinearOrder K] [IsStrictOrderedRing K] {get : ParamFn K} {sigmoid tanh : K → K} (hq : Squash sigmoid tanh) {m : LSTM} {p : List Nat} {x h c h' c' : Arr K}
    (hh : h.shape = p ++ [m.hiddenSize]) (hc : c.shape = p ++ [m.hiddenSize]) {M : K} (hM : Bounded M c) (hr : m.call get sigmoid tanh x h c = .ok (h', c')) :
    h'.shape = p ++ [m.hiddenSize] ∧ c'.shape = p ++ [m.hiddenSize] ∧ Bounded 1 h' ∧ Bounded (M + 1) c' := by
  obtain ⟨n, w, bi, hp, hx, hw, hb⟩ := lstm_inv hh hr
  obtain ⟨h₂, c₂, e, s1, s2, v⟩ := lstm_equations (sigmoid := sigmoid) (tanh := tanh) hp hx hh hc hw hb
  rw [hr] at e
  cases e
  refine ⟨s1, s2, fun i hi => ?_, fun i hi => ?_⟩
  · rw [s1] at hi
    obtain ⟨q, j, rfl, hv, hj⟩ := valid_vec hi
    have := (v q hv j hj).1
    unfold vec at this
    rw [this]
    unfold lstmHidden
    rw [abs_mul]
    exact mul_le_one₀ (by rw [abs_of_nonneg (hq.nonneg _)]; exact hq.le_one _) (abs_nonneg _) (hq.abs_le _)
  · rw [s2] at hi
    obtain ⟨q, j, rfl, hv, hj⟩ := valid_vec hi
    have := (v q hv j hj).2
    unfold vec at this
    rw [this]
    unfold lstmCell
    dsimp only
    have hcM : |c.val (q ++ [j])| ≤ M := hM _ (by rw [hc]; exact hi)
    refine (abs_add_le _ _).trans (add_le_add ?_ ?_)
    · rw [abs_mul, abs_of_nonneg (hq.nonneg _)]
      exact (mul_le_of_le_one_left (abs_nonneg _) (hq.le_one _)).trans hcM
    · rw [abs_mul]
      exact mul_le_one₀ (by rw [abs_of_nonneg (hq.nonneg _)]; exact hq.le_one _) (abs_nonneg _) (hq.abs_le _)

theorem lstm_core_inv [Field K] {get : ParamFn K} {sigmoid tanh : K → K} {m : LSTM} {x st o st' : Nest K} {s s' : σ} (h : m.core get sigmoid tanh x st s = .ok (o, st', s')) :
    ∃ x₀ h₀ c₀ h₁ c₁, x = [x₀] ∧ st = [h₀, c₀] ∧ m.call get sigmoid tanh x₀ h₀ c₀ = .ok (h₁, c₁) ∧ o = [h₁] ∧ st' = [h₁, c₁] ∧ s' = s := by
  unfold LSTM.core at h
  split at h
  · rename_i x₀ h₀ c₀
    obtain ⟨⟨h₁, c₁⟩, h1, h⟩ := bind_ok h
    cases h
    exact ⟨x₀, h₀, c₀, h₁, c₁, rfl, rfl, h1, rfl, rfl, rfl⟩
  · cases h

/-- C86 However long an LSTM is unrolled, its outputs are at most 1 in absolute value and its cell state grows by at most 1 in each step, for all parameters and inputs. -/
theorem lstm_bounded [Field K] [LinearOrder K] [IsStrictOrderedRing K] (get : ParamFn K) (sigmoid tanh : K → K) (hq : Squash sigmoid tanh) (m : LSTM) (p : List Nat) (h c : Arr K)
    (hh : h.shape = p ++ [m.hiddenSize]) (hc : c.shape = p ++ [m.hiddenSize]) (M : K) (hM : Bounded M c) (tm : Bool) (seq : Nest K) (s : σ) (out st' : Nest K) (s' : σ)
    (hr : staticUnroll (m.core get sigmoid tanh) seq [h, c] tm s = .ok (out, st', s')) :
    ∃ T h' c', numSteps tm seq = .ok T ∧ st' = [h', c'] ∧ h'.shape = h.shape ∧ c'.shape = c.shape ∧ Bounded (M + T) c' ∧ (0 < T → Bounded 1 h') ∧ ∀ y ∈ out, Bounded 1 y := by
  obtain ⟨T, h1, h2, h3⟩ := static_unroll_inv (P := fun _ => True)
    (I := fun t st => ∃ h' c', st = [h', c'] ∧ h'.shape = h.shape ∧ c'.shape = c.shape ∧ Bounded (M + t) c' ∧ (0 < t → Bounded 1 h')) (Q := fun v => |v| ≤ 1)
    (fun _ _ _ => trivial) (fun t x st s o st' s' _ hi hs => by
      obtain ⟨x₀, h₀, c₀, h₁, c₁, rfl, rfl, hcall, rfl, rfl, rfl⟩ := lstm_core_inv hs
      obtain ⟨_, _, e, e1, e2, e3, _⟩ := hi
      cases e
      obtain ⟨r1, r2, r3, r4⟩ := lstm_step_bounded hq (e1.trans hh) (e2.trans hc) e3 hcall
      refine ⟨⟨h₁, c₁, rfl, r1.trans hh.symm, r2.trans hc.symm, ?_, fun _ => r3⟩, fun y hy => ?_⟩
      · rw [Nat.cast_add, Nat.cast_one, ← add_assoc]
        exact r4
      · rw [List.mem_singleton.mp hy]
        exact r3) ⟨h, c, rfl, rfl, rfl, by rw [Nat.cast_zero, add_zero]; exact hM, fun h => absurd h (by decide)⟩ hr
  obtain ⟨h', c', e1, e2, e3, e4, e5⟩ := h2
  exact ⟨T, h', c', h1, e1, e2, e3, e4, e5, h3⟩

theorem gru_step_bounded [Field K] [LinearOrder K] [IsStrictOrderedRing K] {get : ParamFn K} {sigmoid tanh : K → K} (hq : Squash sigmoid tanh) {m : GRU} {p : List Nat} {n : Nat} {x h h' : Arr K}
    (hx : x.shape = p ++ [n]) (hh : h.shape = p ++ [m.hiddenSize]) {M : K} (h1M : 1 ≤ M) (hM : Bounded M h) (hr : m.call get sigmoid tanh x h = .ok h') :
    h'.shape = p ++ [m.hiddenSize] ∧ Bounded M h' := by
  obtain ⟨wi, wh, bi, hp, hwi, hwh, hb⟩ := gru_inv hx hr
  obtain ⟨h₂, e, s1, v⟩ := gru_equations (sigmoid := sigmoid) (tanh := tanh) hp hx hh hwi hwh hb
  rw [hr] at e
  cases e
  refine ⟨s1, fun i hi => ?_⟩
  rw [s1] at hi
  obtain ⟨q, j, rfl, hv, hj⟩ := valid_vec hi
  have := v q hv j hj
  unfold vec at this
  rw [this]
  unfold gruNext
  dsimp only
  have hhM : |h.val (q ++ [j])| ≤ M := hM _ (by rw [hh]; exact hi)
  have key : ∀ z a b : K, 0 ≤ z → z ≤ 1 → |a| ≤ M → |b| ≤ M → |(1 - z) * a + z * b| ≤ M := by
    intro z a b h0 h1 ha hb
    refine (abs_add_le _ _).trans ?_
    rw [abs_mul, abs_mul, abs_of_nonneg h0, abs_of_nonneg (sub_nonneg.mpr h1)]
    calc (1 - z) * |a| + z * |b| ≤ (1 - z) * M + z * M := add_le_add (mul_le_mul_of_nonneg_left ha (sub_nonneg.mpr h1)) (mul_le_mul_of_nonneg_left hb h0)
      _ = M := by ring
  exact key _ _ _ (hq.nonneg _) (hq.le_one _) hhM ((hq.abs_le _).trans h1M)

theorem core1_inv {f : Arr K → Arr K → Except Err (Arr K)} {x st o st' : Nest K} {s s' : σ} (h : core1 f x st s = .ok (o, st', s')) :
    ∃ x₀ h₀ h₁, x = [x₀] ∧ st = [h₀] ∧ f x₀ h₀ = .ok h₁ ∧ o = [h₁] ∧ st' = [h₁] ∧ s' = s := by
  unfold core1 at h
  split at h
  · rename_i x₀ h₀
    obtain ⟨h₁, h1, h⟩ := bind_ok h
    cases h
    exact ⟨x₀, h₀, h₁, rfl, rfl, h1, rfl, rfl, rfl⟩
  · cases h

/-- An array of `T` inputs of shape `p ++ [n]`. -/
def Steps (tm : Bool) (T : Nat) (p : List Nat) (n : Nat) (x : Arr K) : Prop :=
  match tm, p with
  | true, p => x.shape = T :: (p ++ [n])
  | false, B :: p => x.shape = B :: T :: (p ++ [n])
  | false, [] => False

theorem steps_slice {tm : Bool} {T : Nat} {p : List Nat} {n : Nat} {x : Arr K} (hx : Steps tm T p n x) (t : Nat) (y : Nest K) (h : [x].mapM (sliceAt tm t) = .ok y) :
    ∃ z, y = [z] ∧ z.shape = p ++ [n] := by
  rw [Verif.Props.Recurrent.mapM_cons] at h
  obtain ⟨z, h1, h⟩ := bind_ok h
  cases h
  refine ⟨z, rfl, ?_⟩
  unfold sliceAt at h1
  cases tm with
  | true =>
    have hx : x.shape = T :: (p ++ [n]) := hx
    rw [hx] at h1
    cases h1
    rfl
  | false =>
    cases p with
    | nil => exact hx.elim
    | cons B p =>
      have hx : x.shape = B :: T :: (p ++ [n]) := hx
      rw [hx] at h1
      cases h1
      rfl

theorem steps_num {tm : Bool} {T : Nat} {p : List Nat} {n : Nat} {x : Arr K} (hx : Steps tm T p n x) : Verif.Props.Recurrent.HasSteps tm T x := by
  cases tm with
  | true => exact ⟨_, hx⟩
  | false =>
    cases p with
    | nil => exact hx.elim
    | cons B p => exact ⟨_, _, hx⟩

/-- C86 However long a GRU is unrolled, its state and outputs stay within every bound `M ≥ 1` on the initial state. -/
theorem gru_bounded [Field K] [LinearOrder K] [IsStrictOrderedRing K] (get : ParamFn K) (sigmoid tanh : K → K) (hq : Squash sigmoid tanh) (m : GRU) (p : List Nat) (n : Nat) (h : Arr K)
    (hh : h.shape = p ++ [m.hiddenSize]) (M : K) (h1M : 1 ≤ M) (hM : Bounded M h) (tm : Bool) (T : Nat) (x : Arr K) (hx : Steps tm T p n x) (s : σ) (out st' : Nest K) (s' : σ)
    (hr : staticUnroll (core1 (m.call get sigmoid tanh)) [x] [h] tm s = .ok (out, st', s')) :
    ∃ h', st' = [h'] ∧ h'.shape = h.shape ∧ Bounded M h' ∧ ∀ y ∈ out, Bounded M y := by
  obtain ⟨T', h1, h2, h3⟩ := static_unroll_inv (P := fun y => ∃ z, y = [z] ∧ z.shape = p ++ [n])
    (I := fun t st => ∃ h', st = [h'] ∧ h'.shape = h.shape ∧ Bounded M h') (Q := fun v => |v| ≤ M)
    (steps_slice hx) (fun t x st s o st' s' hp hi hs => by
      obtain ⟨x₀, h₀, h₁, rfl, rfl, hcall, rfl, rfl, rfl⟩ := core1_inv hs
      obtain ⟨_, e, e1, e2⟩ := hi
      cases e
      obtain ⟨z, e, ez⟩ := hp
      cases e
      obtain ⟨r1, r2⟩ := gru_step_bounded hq ez (e1.trans hh) h1M e2 hcall
      refine ⟨⟨h₁, rfl, r1.trans hh.symm, r2⟩, fun y hy => ?_⟩
      rw [List.mem_singleton.mp hy]
      exact r2) ⟨h, rfl, rfl, hM⟩ hr
  obtain ⟨h', e1, e2, e3⟩ := h2
  exact ⟨h', e1, e2, e3, h3⟩

/-- C86 The outputs of a vanilla RNN are never negative, nor is its state after a step. -/
theorem rnn_nonneg [Field K] [LinearOrder K] (get : ParamFn K) (m : VanillaRNN) (tm : Bool) (seq init : Nest K) (s : σ) (out st' : Nest K) (s' : σ)
    (hr : staticUnroll (core1 (m.call get)) seq init tm s = .ok (out, st', s')) :
    ∃ T, numSteps tm seq = .ok T ∧ (0 < T → ∀ h ∈ st', ∀ i, Valid h.shape i → 0 ≤ h.val i) ∧ ∀ y ∈ out, ∀ i, Valid y.shape i → 0 ≤ y.val i := by
  obtain ⟨T, h1, h2, h3⟩ := static_unroll_inv (P := fun _ => True) (I := fun t st => 0 < t → ∀ h ∈ st, ∀ i, Valid h.shape i → 0 ≤ h.val i) (Q := fun v => 0 ≤ v)
    (fun _ _ _ => trivial) (fun t x st s o st' s' _ hi hs => by
      obtain ⟨x₀, h₀, h₁, rfl, rfl, hcall, rfl, rfl, rfl⟩ := core1_inv hs
      have pos : ∀ i, 0 ≤ h₁.val i := by
        unfold VanillaRNN.call at hcall
        obtain ⟨⟨a, l1⟩, _, hcall⟩ := bind_ok hcall
        obtain ⟨⟨b, l2⟩, _, hcall⟩ := bind_ok hcall
        obtain ⟨c, _, hcall⟩ := bind_ok hcall
        cases hcall
        exact fun i => le_max_right _ _
      exact ⟨fun _ h hh i _ => by rw [List.mem_singleton.mp hh]; exact pos i, fun h hh i _ => by rw [List.mem_singleton.mp hh]; exact pos i⟩) (fun h => absurd h (by decide)) hr
  exact ⟨T, h1, h2, h3⟩

/-- The hypotheses hold for the logistic function and the hyperbolic tangent of the reals. -/
theorem real_squash : Squash (fun v : ℝ => (1 + Real.exp (-v))⁻¹) Real.tanh where
  nonneg v := inv_nonneg.mpr (by have := Real.exp_pos (-v); linarith)
  le_one v := inv_le_one_of_one_le₀ (by have := Real.exp_pos (-v); linarith)
  abs_le v := by
    have h1 := Real.sinh_lt_cosh v
    have h2 := Real.sinh_lt_cosh (-v)
    rw [Real.sinh_neg, Real.cosh_neg] at h2
    rw [Real.tanh_eq_sinh_div_cosh, abs_div, abs_of_pos (Real.cosh_pos v), div_le_one (Real.cosh_pos v), abs_le]
    exact ⟨by linarith, h1.le⟩

/-! ### C87 -/

/-- C87 The state of an LSTM keeps its shapes, on any inputs. -/
theorem lstm_keeps [Field K] (get : ParamFn K) (sigmoid tanh : K → K) (m : LSTM) (p : List Nat) (P : Nest K → Prop) :
    Verif.Props.Recurrent.KeepsShapes (σ := σ) (m.core get sigmoid tanh) P [p ++ [m.hiddenSize], p ++ [m.hiddenSize]] := by
  intro x st s o st' s' _ hst hr
  obtain ⟨x₀, h₀, c₀, h₁, c₁, rfl, rfl, hcall, rfl, rfl, rfl⟩ := lstm_core_inv hr
  injection hst with hh hst
  injection hst with hc _
  obtain ⟨n, w, bi, hp, hx, hw, hb⟩ := lstm_inv hh hcall
  obtain ⟨h₂, c₂, e, s1, s2, v⟩ := lstm_equations (sigmoid := sigmoid) (tanh := tanh) hp hx hh hc hw hb
  rw [hcall] at e
  cases e
  show [h₁.shape, c₁.shape] = _
  rw [s1, s2]

/-- C87 So `static_unroll` and `dynamic_unroll` of an LSTM agree from every state of the documented shapes. -/
theorem lstm_unrolls_agree [Field K] [Inhabited K] (get : ParamFn K) (sigmoid tanh : K → K) (m : LSTM) (p : List Nat) (h c : Arr K) (hh : h.shape = p ++ [m.hiddenSize])
    (hc : c.shape = p ++ [m.hiddenSize]) (tm : Bool) (T : Nat) (hT : 0 < T) (x : Arr K) (hx : Verif.Props.Recurrent.HasSteps tm T x) (s : σ) :
    dynamicUnroll (m.core get sigmoid tanh) [x] [h, c] tm s = staticUnroll (m.core get sigmoid tanh) [x] [h, c] tm s := by
  refine Verif.Props.Recurrent.unrolls_agree _ _ _ (fun _ => True) ?_ tm s T (fun h => by cases h) hT (fun _ _ _ => trivial) fun y hy => ?_
  · have e : shapes [h, c] = [p ++ [m.hiddenSize], p ++ [m.hiddenSize]] := by
      show [h.shape, c.shape] = _
      rw [hh, hc]
    rw [e]
    exact lstm_keeps get sigmoid tanh m p _
  · rw [List.mem_singleton.mp hy]
    exact hx

/-- C87 The state of a GRU keeps its shape if the inputs have its leading axes. -/
theorem gru_keeps_partial [Field K] (get : ParamFn K) (sigmoid tanh : K → K) (m : GRU) (p : List Nat) (n : Nat) :
    Verif.Props.Recurrent.KeepsShapes (σ := σ) (core1 (m.call get sigmoid tanh)) (fun y => ∃ z, y = [z] ∧ z.shape = p ++ [n]) [p ++ [m.hiddenSize]] := by
  intro x st s o st' s' hp hst hr
  obtain ⟨x₀, h₀, h₁, rfl, rfl, hcall, rfl, rfl, rfl⟩ := core1_inv hr
  injection hst with hh _
  obtain ⟨z, e, hx⟩ := hp
  cases e
  obtain ⟨wi, wh, bi, hp, hwi, hwh, hb⟩ := gru_inv hx hcall
  obtain ⟨h₂, e, s1, v⟩ := gru_equations (sigmoid := sigmoid) (tanh := tanh) hp hx hh hwi hwh hb
  rw [hcall] at e
  cases e
  show [h₁.shape] = _
  rw [s1]

/-- C87 The state of a vanilla RNN keeps its shape if the inputs have its leading axes. -/
theorem rnn_keeps_partial [Field K] [LinearOrder K] (get : ParamFn K) (m : VanillaRNN) (p : List Nat) (n : Nat) :
    Verif.Props.Recurrent.KeepsShapes (σ := σ) (core1 (m.call get)) (fun y => ∃ z, y = [z] ∧ z.shape = p ++ [n]) [p ++ [m.hiddenSize]] := by
  intro x st s o st' s' hp hst hr
  obtain ⟨x₀, h₀, h₁, rfl, rfl, hcall, rfl, rfl, rfl⟩ := core1_inv hr
  injection hst with hh _
  obtain ⟨z, e, hx⟩ := hp
  cases e
  obtain ⟨wi, bi, wh, bh, hwi, hbi, hwh, hbh⟩ := rnn_inv hx hh hcall
  obtain ⟨h₂, e, s1, v⟩ := rnn_equations hx hh hwi hbi hwh hbh
  rw [hcall] at e
  cases e
  show [h₁.shape] = _
  rw [s1]

/-- C87 `static_unroll` and `dynamic_unroll` agree for a GRU and for a vanilla RNN if the initial state has the leading axes of the inputs.
What is missing is a state with other leading axes: see `unbatched_state_grows`. -/
theorem unrolls_agree_partial [Field K] [LinearOrder K] [Inhabited K] (get : ParamFn K) (sigmoid tanh : K → K) (g : GRU) (v : VanillaRNN) (p : List Nat) (n : Nat) (tm : Bool) (T : Nat) (hT : 0 < T) (x : Arr K)
    (hx : Steps tm T p n x) (h : Arr K) (s : σ) :
    (h.shape = p ++ [g.hiddenSize] → dynamicUnroll (core1 (g.call get sigmoid tanh)) [x] [h] tm s = staticUnroll (core1 (g.call get sigmoid tanh)) [x] [h] tm s) ∧
    (h.shape = p ++ [v.hiddenSize] → dynamicUnroll (core1 (v.call get)) [x] [h] tm s = staticUnroll (core1 (v.call get)) [x] [h] tm s) := by
  have hs : ∀ y ∈ [x], Verif.Props.Recurrent.HasSteps tm T y := fun y hy => by rw [List.mem_singleton.mp hy]; exact steps_num hx
  refine ⟨fun hh => ?_, fun hh => ?_⟩
  · refine Verif.Props.Recurrent.unrolls_agree _ _ _ (fun y => ∃ z, y = [z] ∧ z.shape = p ++ [n]) ?_ tm s T (fun h => by cases h) hT (steps_slice hx) hs
    have e : shapes [h] = [p ++ [g.hiddenSize]] := congrArg (fun a => [a]) hh
    rw [e]
    exact gru_keeps_partial get sigmoid tanh g p n
  · refine Verif.Props.Recurrent.unrolls_agree _ _ _ (fun y => ∃ z, y = [z] ∧ z.shape = p ++ [n]) ?_ tm s T (fun h => by cases h) hT (steps_slice hx) hs
    have e : shapes [h] = [p ++ [v.hiddenSize]] := congrArg (fun a => [a]) hh
    rw [e]
    exact rnn_keeps_partial get v p n


/-! ### `ResetCore` around these cores -/

/-- The documented step of an LSTM on lists. -/
def lstmStep [Field K] (sigmoid tanh : K → K) (n hs : Nat) (w b : Arr K) (xs st : List (List K)) : List (List K) × List (List K) :=
  let x := fun k => (xs.getD 0 []).getD k 0
  let h := fun k => (st.getD 0 []).getD k 0
  let c := fun k => (st.getD 1 []).getD k 0
  let h' := (List.range hs).map (lstmHidden sigmoid tanh n hs w b x h c)
  ([h'], [h', (List.range hs).map (lstmCell sigmoid tanh n hs w b x h c)])

/-- The documented step of a GRU on lists. -/
def gruStep [Field K] (sigmoid tanh : K → K) (n hs : Nat) (wi wh b : Arr K) (xs st : List (List K)) : List (List K) × List (List K) :=
  let h' := (List.range hs).map (gruNext sigmoid tanh n hs wi wh b (fun k => (xs.getD 0 []).getD k 0) (fun k => (st.getD 0 []).getD k 0))
  ([h'], [h'])

theorem part_vec {x : Arr K} {p q : List Nat} {n : Nat} (hx : x.shape = p ++ [n]) (hq : Valid p q) : part q x = (List.range n).map (vec x q) := by
  unfold part vec
  rw [hx, hq.length, List.drop_left]
  unfold Verif.Conv.indices Verif.Conv.indices
  rw [List.map_flatMap]
  exact List.map_eq_flatMap.symm

theorem part_get [Zero K] {x : Arr K} {p q : List Nat} {n : Nat} (hx : x.shape = p ++ [n]) (hq : Valid p q) {k : Nat} (hk : k < n) : (part q x).getD k 0 = vec x q k := by
  rw [part_vec hx hq, List.getD_eq_getElem?_getD, List.getElem?_map, List.getElem?_range hk]
  rfl

theorem lstm_congr [Field K] {sigmoid tanh : K → K} {n hs : Nat} {w b : Arr K} {x x' h h' c c' : Nat → K} (hx : ∀ k < n, x k = x' k) (hh : ∀ k < hs, h k = h' k) (hc : ∀ k < hs, c k = c' k) {j : Nat}
    (hj : j < hs) : lstmCell sigmoid tanh n hs w b x h c j = lstmCell sigmoid tanh n hs w b x' h' c' j ∧ lstmHidden sigmoid tanh n hs w b x h c j = lstmHidden sigmoid tanh n hs w b x' h' c' j := by
  have pre : ∀ i, lstmPre n hs w b x h i = lstmPre n hs w b x' h' i := fun i => by
    unfold lstmPre
    rw [lin_congr hx, lin_congr hh]
  have hcell : lstmCell sigmoid tanh n hs w b x h c j = lstmCell sigmoid tanh n hs w b x' h' c' j := by
    unfold lstmCell
    dsimp only
    rw [pre, pre, pre, hc j hj]
  refine ⟨hcell, ?_⟩
  unfold lstmHidden
  rw [pre, hcell]

theorem gru_congr [Field K] {sigmoid tanh : K → K} {n hs : Nat} {wi wh b : Arr K} {x x' h h' : Nat → K} (hx : ∀ k < n, x k = x' k) (hh : ∀ k < hs, h k = h' k) {j : Nat} (hj : j < hs) :
    gruNext sigmoid tanh n hs wi wh b x h j = gruNext sigmoid tanh n hs wi wh b x' h' j := by
  unfold gruNext
  dsimp only
  have hr : ∀ k < hs, sigmoid (lin n wi 0 x (hs + k) + lin hs wh 0 h (hs + k) + b.val [hs + k]) * h k = sigmoid (lin n wi 0 x' (hs + k) + lin hs wh 0 h' (hs + k) + b.val [hs + k]) * h' k := fun k hk => by
    rw [lin_congr hx, lin_congr hh, hh k hk]
  rw [lin_congr hx j, lin_congr hh j, hh j hj, lin_congr hx (2 * hs + j), lin_congr hr (2 * hs + j)]

/-- C85 An LSTM acts on each batch element by itself, as documented. -/
theorem lstm_acts [Field K] (get : ParamFn K) (sigmoid tanh : K → K) (m : LSTM) (B n : Nat) (w b : Arr K) (hw : Has get (m.name ++ "/linear") "w" [n + m.hiddenSize, 4 * m.hiddenSize] w)
    (hb : Has get (m.name ++ "/linear") "b" [4 * m.hiddenSize] b) :
    ActsAs (σ := σ) (m.core get sigmoid tanh) (fun x => shapes x = [[B, n]]) [B] [[m.hiddenSize], [m.hiddenSize]] (fun _ => lstmStep sigmoid tanh n m.hiddenSize w b) id := by
  intro x st s hx hst
  obtain ⟨x₀, rfl⟩ : ∃ x₀, x = [x₀] := by
    exact List.length_eq_one_iff.mp (by have := congrArg List.length hx; simpa [shapes] using this)
  obtain ⟨h₀, c₀, rfl⟩ : ∃ h₀ c₀, st = [h₀, c₀] := by
    exact List.length_eq_two.mp (by have := congrArg List.length hst; simpa [shapes] using this)
  injection hx with hx _
  injection hst with hh hst
  injection hst with hc _
  obtain ⟨h', c', e, s1, s2, v⟩ := lstm_equations (sigmoid := sigmoid) (tanh := tanh) (p := [B]) (Nat.le_refl 1) hx hh hc hw hb
  refine ⟨[h'], [h', c'], ?_, ?_, fun p hp => ?_⟩
  · unfold LSTM.core
    dsimp only
    rw [bind_eq e]
    rfl
  · show [h'.shape, c'.shape] = [h₀.shape, c₀.shape]
    rw [s1, s2, hh, hc]
  · have e1 : part p h' = (List.range m.hiddenSize).map (lstmHidden sigmoid tanh n m.hiddenSize w b (fun k => (part p x₀).getD k 0) (fun k => (part p h₀).getD k 0) (fun k => (part p c₀).getD k 0)) := by
      rw [part_vec s1 hp]
      refine List.map_congr_left fun j hj => ?_
      have hj := List.mem_range.mp hj
      rw [(v p hp j hj).1]
      exact (lstm_congr (fun k hk => (part_get hx hp hk).symm) (fun k hk => (part_get hh hp hk).symm) (fun k hk => (part_get hc hp hk).symm) hj).2
    have e2 : part p c' = (List.range m.hiddenSize).map (lstmCell sigmoid tanh n m.hiddenSize w b (fun k => (part p x₀).getD k 0) (fun k => (part p h₀).getD k 0) (fun k => (part p c₀).getD k 0)) := by
      rw [part_vec s2 hp]
      refine List.map_congr_left fun j hj => ?_
      have hj := List.mem_range.mp hj
      rw [(v p hp j hj).2]
      exact (lstm_congr (fun k hk => (part_get hx hp hk).symm) (fun k hk => (part_get hh hp hk).symm) (fun k hk => (part_get hc hp hk).symm) hj).1
    show ([part p h'], [part p h', part p c']) = _
    rw [e1, e2]
    rfl

/-- C85 A GRU acts on each batch element by itself, as documented. -/
theorem gru_acts [Field K] (get : ParamFn K) (sigmoid tanh : K → K) (m : GRU) (B n : Nat) (wi wh b : Arr K) (hwi : Has get m.name "w_i" [n, 3 * m.hiddenSize] wi)
    (hwh : Has get m.name "w_h" [m.hiddenSize, 3 * m.hiddenSize] wh) (hb : Has get m.name "b" [3 * m.hiddenSize] b) :
    ActsAs (σ := σ) (core1 (m.call get sigmoid tanh)) (fun x => shapes x = [[B, n]]) [B] [[m.hiddenSize]] (fun _ => gruStep sigmoid tanh n m.hiddenSize wi wh b) id := by
  intro x st s hx hst
  obtain ⟨x₀, rfl⟩ : ∃ x₀, x = [x₀] := by
    exact List.length_eq_one_iff.mp (by have := congrArg List.length hx; simpa [shapes] using this)
  obtain ⟨h₀, rfl⟩ : ∃ h₀, st = [h₀] := by
    exact List.length_eq_one_iff.mp (by have := congrArg List.length hst; simpa [shapes] using this)
  injection hx with hx _
  injection hst with hh _
  obtain ⟨h', e, s1, v⟩ := gru_equations (sigmoid := sigmoid) (tanh := tanh) (p := [B]) (Nat.le_refl 1) hx hh hwi hwh hb
  refine ⟨[h'], [h'], ?_, ?_, fun p hp => ?_⟩
  · unfold core1
    dsimp only
    rw [bind_eq e]
    rfl
  · show [h'.shape] = [h₀.shape]
    rw [s1, hh]
  · have e1 : part p h' = (List.range m.hiddenSize).map (gruNext sigmoid tanh n m.hiddenSize wi wh b (fun k => (part p x₀).getD k 0) (fun k => (part p h₀).getD k 0)) := by
      rw [part_vec s1 hp]
      refine List.map_congr_left fun j hj => ?_
      have hj := List.mem_range.mp hj
      rw [v p hp j hj]
      exact gru_congr (fun k hk => (part_get hx hp hk).symm) (fun k hk => (part_get hh hp hk).symm) hj
    show ([part p h'], [part p h']) = _
    rw [e1]
    rfl

theorem zero_part [Zero K] (hs B b : Nat) (hb : b < B) : part [b] (zeroState hs (some B) : Arr K) = List.replicate hs 0 := by
  rw [part_vec (p := [B]) (n := hs) rfl (.cons hb .nil)]
  show (List.range hs).map (fun _ => (0 : K)) = _
  rw [List.map_const', List.length_range]

theorem batch_ok {B n : Nat} {x : Nest K} (h : shapes x = [[B, n]]) : batchSize x = .ok B := by
  match x, h with
  | [⟨_, v⟩], h =>
    cases h
    rfl

/-- C56, C85 `ResetCore` around an LSTM: each batch element goes through the documented LSTM on the segments between its resets, each from the zero state (the first from the given state). -/
theorem lstm_resets [Field K] (get : ParamFn K) (sigmoid tanh : K → K) (m : LSTM) (B n : Nat) (w b : Arr K) (hw : Has get (m.name ++ "/linear") "w" [n + m.hiddenSize, 4 * m.hiddenSize] w)
    (hb : Has get (m.name ++ "/linear") "b" [4 * m.hiddenSize] b) (xs : List (Nest K × Arr Bool)) (hxs : ∀ q ∈ xs, shapes q.1 = [[B, n]] ∧ q.2.shape = [B]) (st : Nest K)
    (hst : shapes st = [[B, m.hiddenSize], [B, m.hiddenSize]]) (s : σ) :
    ∃ outs st' s', resetUnroll (lstmCore get sigmoid tanh m) (xs.map fun q => (q.1, .leaf q.2)) st s = .ok (outs, st', s') ∧ shapes st' = shapes st ∧ ∀ p < B,
      (outs.map fun o => o.map (part [p]), st'.map (part [p])) =
        Verif.Props.Reset.segmented (fun a => lstmStep sigmoid tanh n m.hiddenSize w b a.1) [List.replicate m.hiddenSize 0, List.replicate m.hiddenSize 0] (st.map (part [p])) (Verif.Props.Reset.steps id [p] xs s) := by
  obtain ⟨outs, st', h1, h2, h3⟩ := Verif.Props.Reset.reset_batched (lstmCore get sigmoid tanh m) _ B (fun x hx => batch_ok hx) [[m.hiddenSize], [m.hiddenSize]] _ id
    (lstm_acts get sigmoid tanh m B n w b hw hb) [List.replicate m.hiddenSize 0, List.replicate m.hiddenSize 0]
    (fun k => ⟨_, rfl, rfl, fun p hp => by
      show [part [p] (zeroState m.hiddenSize (some k)), part [p] (zeroState m.hiddenSize (some k))] = _
      rw [zero_part _ _ _ hp]⟩) (fun h => by cases h) xs hxs st hst s
  exact ⟨outs, st', _, h1, h2.trans hst.symm, h3⟩

/-- C56, C85 `ResetCore` around a GRU: each batch element goes through the documented GRU on the segments between its resets, each from the zero state (the first from the given state). -/
theorem gru_resets [Field K] (get : ParamFn K) (sigmoid tanh : K → K) (m : GRU) (B n : Nat) (wi wh b : Arr K) (hwi : Has get m.name "w_i" [n, 3 * m.hiddenSize] wi)
    (hwh : Has get m.name "w_h" [m.hiddenSize, 3 * m.hiddenSize] wh) (hb : Has get m.name "b" [3 * m.hiddenSize] b) (xs : List (Nest K × Arr Bool))
    (hxs : ∀ q ∈ xs, shapes q.1 = [[B, n]] ∧ q.2.shape = [B]) (st : Nest K) (hst : shapes st = [[B, m.hiddenSize]]) (s : σ) :
    ∃ outs st' s', resetUnroll (gruCore get sigmoid tanh m) (xs.map fun q => (q.1, .leaf q.2)) st s = .ok (outs, st', s') ∧ shapes st' = shapes st ∧ ∀ p < B,
      (outs.map fun o => o.map (part [p]), st'.map (part [p])) =
        Verif.Props.Reset.segmented (fun a => gruStep sigmoid tanh n m.hiddenSize wi wh b a.1) [List.replicate m.hiddenSize 0] (st.map (part [p])) (Verif.Props.Reset.steps id [p] xs s) := by
  obtain ⟨outs, st', h1, h2, h3⟩ := Verif.Props.Reset.reset_batched (gruCore get sigmoid tanh m) _ B (fun x hx => batch_ok hx) [[m.hiddenSize]] _ id
    (gru_acts get sigmoid tanh m B n wi wh b hwi hwh hb) [List.replicate m.hiddenSize 0]
    (fun k => ⟨_, rfl, rfl, fun p hp => by
      show [part [p] (zeroState m.hiddenSize (some k))] = _
      rw [zero_part _ _ _ hp]⟩) (fun h => by cases h) xs hxs st hst s
  exact ⟨outs, st', _, h1, h2.trans hst.symm, h3⟩

/-! ### Examples -/

/-- Parameters for the examples: entry `i` of a parameter depends on all its indices. -/
def exGet : ParamFn ℚ := fun _ _ s => .ok ⟨s, fun i => i.foldl (fun a k => a * 3 + (k : ℚ)) 1 - 7⟩

/-- Stand-ins for the logistic function and the hyperbolic tangent. -/
def exSig (v : ℚ) : ℚ := if v < 0 then 1 / 4 else 3 / 4

/-- See `exSig`. -/
def exTanh (v : ℚ) : ℚ := if v < 0 then -1 / 2 else if v = 0 then 0 else 1 / 2

def exIn : Arr ℚ := ⟨[2, 3], fun i => i.getD 0 0 + 2 * i.getD 1 0 - 3⟩
def exState : Arr ℚ := ⟨[2, 2], fun i => i.getD 1 0 + 1⟩
def exLstm : LSTM := ⟨"m", 2⟩
def exGru : GRU := ⟨"m", 2⟩
def exRnn : VanillaRNN := ⟨"m", 2, true⟩

/-- The elements of a result. -/
def seen (r : Except Err (Arr ℚ)) : Except Err (List Nat × List ℚ) := r.map fun x => (x.shape, [x.val [0, 0], x.val [0, 1], x.val [1, 0], x.val [1, 1]])

example : seen ((exLstm.call exGet exSig exTanh exIn exState exState).map (·.1)) = .ok ([2, 2], [3 / 8, 3 / 8, 3 / 8, 3 / 8]) ∧
    seen ((exLstm.call exGet exSig exTanh exIn exState exState).map (·.2)) = .ok ([2, 2], [9 / 8, 15 / 8, 9 / 8, 15 / 8]) := ⟨by decide +kernel, by decide +kernel⟩

example : seen (exGru.call exGet exSig exTanh exIn exState) = .ok ([2, 2], [5 / 8, 7 / 8, 5 / 8, 7 / 8]) := by decide +kernel

example : seen (exRnn.call exGet exIn exState) = .ok ([2, 2], [1, 3, 16, 21]) ∧ seen ((⟨"m", 2, false⟩ : VanillaRNN).call exGet exIn exState) = .ok ([2, 2], [5, 6, 20, 24]) :=
  ⟨by decide +kernel, by decide +kernel⟩

theorem exHas (md nm : String) (s : List Nat) : Has exGet md nm s ⟨s, fun i => i.foldl (fun a k => a * 3 + (k : ℚ)) 1 - 7⟩ := ⟨rfl, rfl⟩

example : ∃ h' c', exLstm.call exGet exSig exTanh exIn exState exState = .ok (h', c') ∧ h'.shape = [2, 2] := by
  obtain ⟨h', c', e, s1, _⟩ := lstm_equations (m := exLstm) (sigmoid := exSig) (tanh := exTanh) (p := [2]) (n := 3) (x := exIn) (h := exState) (c := exState) (by decide) rfl rfl rfl (exHas ..) (exHas ..)
  exact ⟨h', c', e, s1⟩

example : ∃ h', exGru.call exGet exSig exTanh exIn exState = .ok h' ∧ h'.shape = [2, 2] := by
  obtain ⟨h', e, s1, _⟩ := gru_equations (m := exGru) (sigmoid := exSig) (tanh := exTanh) (p := [2]) (n := 3) (x := exIn) (h := exState) (by decide) rfl rfl (exHas ..) (exHas ..) (exHas ..)
  exact ⟨h', e, s1⟩

example : ∃ h', exRnn.call exGet exIn exState = .ok h' ∧ h'.shape = [2, 2] := by
  obtain ⟨h', e, s1, _⟩ := rnn_equations (m := exRnn) (p := [2]) (n := 3) (x := exIn) (h := exState) rfl rfl (exHas ..) (exHas ..) (exHas ..) (fun _ => exHas ..)
  exact ⟨h', e, s1⟩

example : ∃ e, exLstm.call exGet exSig exTanh exIn (zeroState 2 (some 3)) (zeroState 2 (some 3)) = .error e := lstm_batch_rejected _ _ _ _ [2] [3] 3 2 _ _ _ rfl rfl (by decide)

example : (⟨[2, 3, 4], fun _ => 0⟩ : Arr ℚ).shape = [] ∨ 2 < (⟨[2, 3, 4], fun _ => 0⟩ : Arr ℚ).shape.length := by decide

theorem exSquash : Squash exSig exTanh where
  nonneg v := by unfold exSig; split <;> norm_num
  le_one v := by unfold exSig; split <;> norm_num
  abs_le v := by unfold exTanh; split; · norm_num [abs_le]
                 · split <;> norm_num [abs_le]

/-- Two steps of inputs for a batch of two. -/
def exSeq : Arr ℚ := ⟨[2, 2, 3], fun i => i.getD 0 0 + 2 * i.getD 1 0 - i.getD 2 0⟩

/-- The shapes of the outputs and of the final state. -/
def shownShapes (r : Except Err (Nest ℚ × Nest ℚ × Unit)) : Except Err (List (List Nat) × List (List Nat)) := r.map fun p => (shapes p.1, shapes p.2.1)

example : shownShapes (staticUnroll (exLstm.core exGet exSig exTanh) [exSeq] [zeroState 2 (some 2), exState] true ()) = .ok ([[2, 2, 2]], [[2, 2], [2, 2]]) := by decide +kernel

example : Bounded 2 exState := fun i hi => by
  rcases hi with _ | ⟨ha, hi⟩
  rcases hi with _ | ⟨hb, hi⟩
  cases hi
  rename_i a b
  have : b = 0 ∨ b = 1 := by omega
  rcases this with rfl | rfl
  · show |((0 : ℕ) : ℚ) + 1| ≤ 2
    norm_num
  · show |((1 : ℕ) : ℚ) + 1| ≤ 2
    norm_num

example : Steps true 2 [2] 3 exSeq ∧ Steps false 2 [2] 3 exSeq := ⟨rfl, rfl⟩

example : shownShapes (staticUnroll (core1 (exGru.call exGet exSig exTanh)) [exSeq] [exState] false ()) = .ok ([[2, 2, 2]], [[2, 2]]) ∧
    shownShapes (staticUnroll (core1 (exRnn.call exGet)) [exSeq] [exState] true ()) = .ok ([[2, 2, 2]], [[2, 2]]) := ⟨by decide +kernel, by decide +kernel⟩

example : ∀ q ∈ [(([exIn] : Nest ℚ), (⟨[2], fun i => i.getD 0 0 == 1⟩ : Arr Bool))], shapes q.1 = [[2, 3]] ∧ q.2.shape = [2] := by decide

/-! ### From the initial state -/

theorem zero_bounded [Field K] [LinearOrder K] [IsStrictOrderedRing K] (hs : Nat) (b : Option Nat) (M : K) (hM : 0 ≤ M) : Bounded M (zeroState hs b : Arr K) := fun i _ => by
  show |(0 : K)| ≤ M
  rw [abs_zero]
  exact hM

/-- C86 From its initial state, for a batch or without one, an LSTM has outputs of at most 1 in absolute value and after `T` steps a cell state of at most `T`, of the shape of the initial state. -/
theorem lstm_from_initial [Field K] [LinearOrder K] [IsStrictOrderedRing K] (get : ParamFn K) (sigmoid tanh : K → K) (hq : Squash sigmoid tanh) (m : LSTM) (batch : Option Nat) (init : Nest K)
    (hi : (lstmCore (σ := σ) get sigmoid tanh m).initialState batch = .ok init) (tm : Bool) (seq : Nest K) (s : σ) (out st' : Nest K) (s' : σ)
    (hr : staticUnroll (lstmCore get sigmoid tanh m).call seq init tm s = .ok (out, st', s')) :
    ∃ T h' c', numSteps tm seq = .ok T ∧ st' = [h', c'] ∧ h'.shape = batch.toList ++ [m.hiddenSize] ∧ c'.shape = batch.toList ++ [m.hiddenSize] ∧ Bounded (T : K) c' ∧ Bounded 1 h' ∧ ∀ y ∈ out, Bounded 1 y := by
  cases hi
  obtain ⟨T, h', c', h1, h2, h3, h4, h5, h6, h7⟩ := lstm_bounded get sigmoid tanh hq m batch.toList _ _ rfl rfl 0 (zero_bounded _ _ 0 (le_refl 0)) tm seq s out st' s' hr
  rw [zero_add] at h5
  refine ⟨T, h', c', h1, h2, h3, h4, h5, ?_, h7⟩
  cases T with
  | succ T => exact h6 (Nat.succ_pos T)
  | zero =>
    exfalso
    unfold staticUnroll at hr
    rw [bind_eq h1] at hr
    cases hr

/-- C86 From its initial state, for a batch or without one, the state and outputs of a GRU are at most 1 in absolute value. -/
theorem gru_from_initial [Field K] [LinearOrder K] [IsStrictOrderedRing K] (get : ParamFn K) (sigmoid tanh : K → K) (hq : Squash sigmoid tanh) (m : GRU) (batch : Option Nat) (init : Nest K)
    (hi : (gruCore (σ := σ) get sigmoid tanh m).initialState batch = .ok init) (tm : Bool) (T n : Nat) (x : Arr K) (hx : Steps tm T batch.toList n x) (s : σ) (out st' : Nest K) (s' : σ)
    (hr : staticUnroll (gruCore get sigmoid tanh m).call [x] init tm s = .ok (out, st', s')) :
    ∃ h', st' = [h'] ∧ h'.shape = batch.toList ++ [m.hiddenSize] ∧ Bounded 1 h' ∧ ∀ y ∈ out, Bounded 1 y := by
  cases hi
  exact gru_bounded get sigmoid tanh hq m batch.toList n _ rfl 1 (le_refl 1) (zero_bounded _ _ 1 zero_le_one) tm T x hx s out st' s' hr

/-! ### `IdentityCore` -/

theorem identity_loop (tm : Bool) (x : Arr K) (f : Nat → Arr K) (hf : ∀ t, sliceAt tm t x = .ok (f t)) : ∀ (ts : List Nat) (st : Nest K) (outs : List (Nest K)) (s : σ),
    staticLoop identityCore tm [x] ts st outs s = .ok (outs ++ ts.map fun t => [f t], st, s)
  | [], st, outs, s => by
    show Except.ok (outs, st, s) = _
    rw [List.map_nil, List.append_nil]
  | t :: ts, st, outs, s => by
    have h : [x].mapM (sliceAt tm t) = .ok [f t] := by
      rw [Verif.Props.Recurrent.mapM_cons, bind_eq (hf t)]
      rfl
    show ([x].mapM (sliceAt tm t) >>= fun inputs => _) = _
    rw [bind_eq h]
    show staticLoop identityCore tm [x] ts st (outs ++ [[f t]]) s = _
    rw [identity_loop tm x f hf ts st (outs ++ [[f t]]) s, List.append_assoc]
    rfl

theorem getD_map_range (f : Nat → Arr K) (T t : Nat) (d : Arr K) (h : t < T) : ((List.range T).map f).getD t d = f t := by
  rw [List.getD_eq_getElem?_getD, List.getElem?_map, List.getElem?_range h]
  rfl

theorem stack_range (tm : Bool) (f : Nat → Arr K) (T : Nat) (hT : 0 < T) (sh : List Nat) (hs : ∀ t, (f t).shape = sh) (hb : tm = false → sh ≠ []) :
    ∃ y, stackNests tm ((List.range T).map fun t => [f t]) = .ok [y] ∧ (tm = true → y.shape = T :: sh ∧ ∀ t < T, ∀ r, y.val (t :: r) = (f t).val r) ∧
      (tm = false → ∀ b s, sh = b :: s → y.shape = b :: T :: s ∧ ∀ t < T, ∀ j r, y.val (j :: t :: r) = (f t).val (j :: r)) := by
  obtain ⟨T, rfl⟩ : ∃ n, T = n + 1 := ⟨T - 1, by omega⟩
  have hr : (List.range (T + 1)).map (fun t => [f t]) = [f 0] :: (List.range T).map (fun t => [f (t + 1)]) := by
    rw [List.range_succ_eq_map, List.map_cons, List.map_map]
    rfl
  have hr' : f 0 :: (List.range T).map (fun t => f (t + 1)) = (List.range (T + 1)).map f := by
    rw [List.range_succ_eq_map, List.map_cons, List.map_map]
    rfl
  have hl : (((List.range T).map fun t => [f (t + 1)]).any fun p => p.length != [f 0].length) = false := by
    rw [List.any_eq_false]
    intro p hp
    obtain ⟨t, _, rfl⟩ := List.mem_map.mp hp
    show ¬((1 != 1) = true)
    decide
  have hfm : ∀ ts : List Nat, (ts.map fun t => [f (t + 1)]).filterMap (·[0]?) = ts.map fun t => f (t + 1) := by
    intro ts
    induction ts with
    | nil => rfl
    | cons t ts ih =>
      rw [List.map_cons, List.map_cons, List.filterMap_cons_some (f := fun x : List (Arr K) => x[0]?) (b := f (t + 1)) rfl, ih]
  have hst : stackNests tm ((List.range (T + 1)).map fun t => [f t]) = (stack tm ((List.range (T + 1)).map f) >>= fun y => .ok [y]) := by
    rw [hr]
    unfold stackNests
    dsimp only
    rw [hl, if_neg (by decide)]
    show ([0].mapM fun j => stack tm (([f 0] :: (List.range T).map fun t => [f (t + 1)]).filterMap (·[j]?))) = _
    rw [Verif.Props.Recurrent.mapM_cons, List.filterMap_cons_some (f := fun x : List (Arr K) => x[0]?) (b := f 0) rfl, hfm, hr']
    rfl
  have hany : (((List.range T).map fun t => f (t + 1)).any fun y => y.shape != (f 0).shape) = false := by
    rw [List.any_eq_false]
    intro p hp
    obtain ⟨t, _, rfl⟩ := List.mem_map.mp hp
    rw [hs, hs]
    show ¬((sh != sh) = true)
    simp
  have hlen : ((List.range T).map fun t => f (t + 1)).length + 1 = T + 1 := by rw [List.length_map, List.length_range]
  cases tm with
  | true =>
    have hk : ∃ y, stack true ((List.range (T + 1)).map f) = .ok y ∧ y.shape = (T + 1) :: sh ∧ ∀ t < T + 1, ∀ r, y.val (t :: r) = (f t).val r := by
      rw [← hr']
      unfold stack
      dsimp only
      rw [hany, if_neg (by decide)]
      refine ⟨_, rfl, by dsimp only; rw [hlen, hs], fun t ht r => ?_⟩
      dsimp only
      rw [hr', getD_map_range f _ _ _ ht]
    obtain ⟨y, k1, k2, k3⟩ := hk
    exact ⟨y, by rw [hst, k1]; rfl, fun _ => ⟨k2, k3⟩, (fun h => by cases h)⟩
  | false =>
    obtain ⟨b, s, hbs⟩ : ∃ b s, sh = b :: s := List.exists_cons_of_ne_nil (hb rfl)
    have hk : ∃ y, stack false ((List.range (T + 1)).map f) = .ok y ∧ y.shape = b :: (T + 1) :: s ∧ ∀ t < T + 1, ∀ j r, y.val (j :: t :: r) = (f t).val (j :: r) := by
      rw [← hr']
      unfold stack
      dsimp only
      rw [hany, if_neg (by decide), hs, hbs]
      refine ⟨_, rfl, by dsimp only; rw [hlen], fun t ht j r => ?_⟩
      dsimp only
      rw [hr', getD_map_range f _ _ _ ht]
    obtain ⟨y, k1, k2, k3⟩ := hk
    refine ⟨y, by rw [hst, k1]; rfl, (fun h => by cases h), fun _ b' s' h => ?_⟩
    rw [hbs] at h
    cases h
    exact ⟨k2, k3⟩

/-- C87 `static_unroll` of an `IdentityCore` returns its input sequence and leaves state and Haiku's state as they were, and `dynamic_unroll` agrees. -/
theorem identity_unrolls [Inhabited K] (tm : Bool) (T : Nat) (hT : 0 < T) (x : Arr K) (hx : Verif.Props.Recurrent.HasSteps tm T x) (st : Nest K) (s : σ) :
    ∃ y, staticUnroll identityCore [x] st tm s = .ok ([y], st, s) ∧ dynamicUnroll identityCore [x] st tm s = .ok ([y], st, s) ∧ y.shape = x.shape ∧ ∀ i, Valid x.shape i → y.val i = x.val i := by
  have hst : ∃ y, staticUnroll identityCore [x] st tm s = .ok ([y], st, s) ∧ y.shape = x.shape ∧ ∀ i, Valid x.shape i → y.val i = x.val i := by
    cases tm with
    | true =>
      obtain ⟨sh, hx⟩ := hx
      have hf : ∀ t, sliceAt true t x = .ok ⟨sh, fun i => x.val (min t (T - 1) :: i)⟩ := by
        intro t
        unfold sliceAt
        rw [hx]
      obtain ⟨y, h1, h2, _⟩ := stack_range true (fun t => ⟨sh, fun i => x.val (min t (T - 1) :: i)⟩) T hT sh (fun _ => rfl) (fun h => by cases h)
      obtain ⟨h2, h3⟩ := h2 rfl
      refine ⟨y, ?_, by rw [h2, hx], fun i hi => ?_⟩
      · unfold staticUnroll
        have hn : numSteps true [x] = .ok T := by unfold numSteps; dsimp only; rw [hx]
        rw [bind_eq hn, bind_eq (identity_loop true x _ hf _ _ _ _)]
        dsimp only
        rw [List.nil_append]
        exact bind_eq h1
      · rw [hx] at hi
        rcases hi with _ | ⟨ht, hr⟩
        rename_i t r
        rw [h3 t ht r]
        show x.val (min t (T - 1) :: r) = _
        rw [Nat.min_eq_left (by omega)]
    | false =>
      obtain ⟨b, sh, hx⟩ := hx
      have hf : ∀ t, sliceAt false t x = .ok ⟨b :: sh, fun i => match i with
          | j :: r => x.val (j :: min t (T - 1) :: r)
          | [] => x.val [min t (T - 1)]⟩ := by
        intro t
        unfold sliceAt
        rw [hx]
        dsimp only
        congr 2
      obtain ⟨y, h1, _, h2⟩ := stack_range false (fun t => ⟨b :: sh, fun i => match i with
          | j :: r => x.val (j :: min t (T - 1) :: r)
          | [] => x.val [min t (T - 1)]⟩) T hT (b :: sh) (fun _ => rfl) (fun _ => List.cons_ne_nil _ _)
      obtain ⟨h2, h3⟩ := h2 rfl b sh rfl
      refine ⟨y, ?_, by rw [h2, hx], fun i hi => ?_⟩
      · unfold staticUnroll
        have hn : numSteps false [x] = .ok T := by unfold numSteps; dsimp only; rw [hx]
        rw [bind_eq hn, bind_eq (identity_loop false x _ hf _ _ _ _)]
        dsimp only
        rw [List.nil_append]
        exact bind_eq h1
      · rw [hx] at hi
        rcases hi with _ | ⟨hj, hi⟩
        rcases hi with _ | ⟨ht, hr⟩
        rename_i j t r
        rw [h3 t ht j r]
        show x.val (j :: min t (T - 1) :: r) = _
        rw [Nat.min_eq_left (by omega)]
  obtain ⟨y, h1, h2, h3⟩ := hst
  refine ⟨y, h1, ?_, h2, h3⟩
  rw [← h1]
  refine Verif.Props.Recurrent.unrolls_agree _ _ _ (fun _ => True) ?_ tm s T (fun h => by cases h) hT (fun _ _ _ => trivial) fun y hy => ?_
  · intro x st' s o st'' s'' _ hst hr
    cases hr
    exact hst
  · rw [List.mem_singleton.mp hy]
    exact hx

/-- Two steps of a batch of two from the initial state, and through an `IdentityCore`. -/
example : shownShapes (staticUnroll (lstmCore exGet exSig exTanh exLstm).call [exSeq] [zeroState 2 (some 2), zeroState 2 (some 2)] true ()) = .ok ([[2, 2, 2]], [[2, 2], [2, 2]]) ∧
    shownShapes (staticUnroll (gruCore exGet exSig exTanh exGru).call [exSeq] [zeroState 2 (some 2)] true ()) = .ok ([[2, 2, 2]], [[2, 2]]) ∧
    shownShapes (staticUnroll identityCore [exSeq] [exState] true ()) = .ok ([[2, 2, 3]], [[2, 2]]) := ⟨by decide +kernel, by decide +kernel, by decide +kernel⟩

/-- C87 fails for a state with other leading axes than the inputs: GRU and vanilla RNN take the unbatched initial state with batched inputs, and their state becomes a batch.  `static_unroll` goes on, `dynamic_unroll` raises a
`TypeError`. -/
theorem unbatched_state_grows :
    shownShapes (staticUnroll (core1 (exGru.call exGet exSig exTanh)) [exSeq] [zeroState 2 none] true ()) = .ok ([[2, 2, 2]], [[2, 2]]) ∧
    shownShapes (dynamicUnroll (core1 (exGru.call exGet exSig exTanh)) [exSeq] [zeroState 2 none] true ()) = .error .type ∧
    shownShapes (staticUnroll (core1 (exRnn.call exGet)) [exSeq] [zeroState 2 none] true ()) = .ok ([[2, 2, 2]], [[2, 2]]) ∧
    shownShapes (dynamicUnroll (core1 (exRnn.call exGet)) [exSeq] [zeroState 2 none] true ()) = .error .type := ⟨by decide +kernel, by decide +kernel, by decide +kernel, by decide +kernel⟩

end Verif.Props.Cores
