import Mathlib.Algebra.Order.Field.Basic
import Mathlib.Algebra.Order.BigOperators.Group.Finset
import Mathlib.Tactic.Linarith
import Mathlib.Tactic.Ring
import Mathlib.Tactic.NormNum
import Mathlib.Tactic.FieldSimp
import Mathlib.Algebra.Order.Ring.Rat
import Verif.Base.Dict
import Verif.Model.Attention
import Verif.Props.Cores

/-!
# Multi-head attention (C88, C89, C90, C91, C92, C93)
-/

set_option linter.unusedVariables false
set_option linter.unusedSectionVars false

namespace Verif.Props.Attention
open Verif.Shapes (Err size)
open Verif.Pool (Arr)
open Verif.Mlp (ParamFn Linear)
open Verif.Props.Reset (Valid)
open Verif.Props.Norm (bind_eq bind_err spread)
open Verif.Props.Conv (bind_ok)
open Verif.Props.Cores (vec lin Has linear_run)
open Verif.Nd (zip map ravel unravel BroadcastsTo)
open Verif.VQ (reshapeTo)
open Verif.Attention

variable {K : Type}

/-! ### Specification -/

/-- The parameters of an attention module. -/
structure Weights (K : Type) where
  wq : Arr K
  bq : Arr K
  wk : Arr K
  bk : Arr K
  wv : Arr K
  bv : Arr K
  wo : Arr K
  bo : Arr K

/-- The parameters are those of four linear layers in the module, for queries, keys and values with `nq`, `nk` and `nv` features. -/
structure Loaded (get : ParamFn K) (m : MHA) (nq nk nv : Nat) (W : Weights K) : Prop where
  wq : Has get (m.name ++ "/" ++ "query") "w" [nq, m.numHeads * m.querySize] W.wq
  bq : Has get (m.name ++ "/" ++ "query") "b" [m.numHeads * m.querySize] W.bq
  wk : Has get (m.name ++ "/" ++ "key") "w" [nk, m.numHeads * m.keySize] W.wk
  bk : Has get (m.name ++ "/" ++ "key") "b" [m.numHeads * m.keySize] W.bk
  wv : Has get (m.name ++ "/" ++ "value") "w" [nv, m.numHeads * m.valueSize] W.wv
  bv : Has get (m.name ++ "/" ++ "value") "b" [m.numHeads * m.valueSize] W.bv
  wo : Has get (m.name ++ "/linear") "w" [m.numHeads * m.valueSize, m.modelSize] W.wo
  bo : Has get (m.name ++ "/linear") "b" [m.modelSize] W.bo

/-- Component `d` of head `h` of the projection of the vector of `x` at position `p`. -/
def head [Field K] (n size : Nat) (w b x : Arr K) (p : List Nat) (h d : Nat) : K := lin n w 0 (vec x p) (h * size + d) + b.val [h * size + d]

/-- What a mask takes off the logit of query `t` for key `T` in head `h` of batch element `b`: nothing where it is 1, `1e10` where it is 0. -/
def penalty [Field K] (mask : Option (Arr K)) (b h t T : Nat) : K :=
  match mask with
  | none => 0
  | some mask => 10 ^ 10 * (1 - spread mask [b, h, t, T])

/-- The scaled dot product of a query and a key. -/
def product [Field K] (sqrt : Nat → K) (m : MHA) (W : Weights K) (nq nk : Nat) (query key : Arr K) (b h t T : Nat) : K :=
  (∑ d ∈ Finset.range m.keySize, head nq m.keySize W.wq W.bq query [b, t] h d * head nk m.keySize W.wk W.bk key [b, T] h d) / sqrt m.keySize

/-- The logit of a query for a key. -/
def logit [Field K] (sqrt : Nat → K) (m : MHA) (W : Weights K) (nq nk : Nat) (query key : Arr K) (mask : Option (Arr K)) (b h t T : Nat) : K :=
  product sqrt m W nq nk query key b h t T - penalty mask b h t T

/-- The weight of `j` among `n` logits. -/
def weight [Field K] (exp : K → K) (n : Nat) (l : Nat → K) (j : Nat) : K := exp (l j) / ∑ i ∈ Finset.range n, exp (l i)

/-- Component `d` of what head `h` sees at query `t` of batch element `b`, given its weights. -/
def seen [Field K] (m : MHA) (W : Weights K) (nv T : Nat) (value : Arr K) (w : Nat → K) (b h d : Nat) : K :=
  ∑ j ∈ Finset.range T, w j * head nv m.valueSize W.wv W.bv value [b, j] h d

/-- The output from what the heads see. -/
def output [Field K] (m : MHA) (W : Weights K) (a : Nat → Nat → K) (j : Nat) : K :=
  lin (m.numHeads * m.valueSize) W.wo 0 (fun k => a (k / m.valueSize) (k % m.valueSize)) j + W.bo.val [j]

/-- Inputs for `B` batch elements with `t` queries and `T` keys and values. -/
structure Inputs (query key value : Arr K) (B t T nq nk nv : Nat) : Prop where
  query : query.shape = [B, t, nq]
  key : key.shape = [B, T, nk]
  value : value.shape = [B, T, nv]
  batch : 0 < B
  queries : 0 < t
  keys : 0 < T

/-- A mask fits if it can be broadcast to one entry for each batch element, head, query and key. -/
def Fits (mask : Option (Arr K)) (B H t T : Nat) : Prop := ∀ a, mask = some a → BroadcastsTo a.shape [B, H, t, T]

/-- Laws of the exponential function. -/
structure IsExp [Field K] [LinearOrder K] (exp : K → K) : Prop where
  pos : ∀ x, 0 < exp x
  sub : ∀ x y, exp (x - y) = exp x / exp y

/-- A rounded exponential function: it vanishes from `-c` on downwards. -/
structure Rounded [Field K] [LinearOrder K] (exp : K → K) (c : K) : Prop where
  zero : exp 0 = 1
  nonneg : ∀ x, 0 ≤ exp x
  small : ∀ x, x ≤ -c → exp x = 0

/-! ### Lemmas -/

theorem valid4 {B t H d b i h e : Nat} (hb : b < B) (hi : i < t) (hh : h < H) (he : e < d) : Valid [B, t, H, d] [b, i, h, e] := .cons hb (.cons hi (.cons hh (.cons he .nil)))

theorem pick_self {n i : Nat} (h : i < n) : pick n i = i := by
  unfold pick
  split <;> omega

theorem shared_self (n : Nat) : shared n n = .ok n := if_pos rfl

theorem valid3 {B t n b i e : Nat} (hb : b < B) (hi : i < t) (he : e < n) : Valid [B, t, n] [b, i, e] := .cons hb (.cons hi (.cons he .nil))

theorem mul_add_lt {H s h d : Nat} (hh : h < H) (hd : d < s) : h * s + d < H * s := by
  have : (h + 1) * s ≤ H * s := Nat.mul_le_mul_right s hh
  rw [Nat.add_mul, Nat.one_mul] at this
  omega

theorem project_run [Field K] {get : ParamFn K} {m : MHA} {x w b : Arr K} {B t n hs : Nat} {nm : String} (hx : x.shape = [B, t, n]) (hw : Has get (m.name ++ "/" ++ nm) "w" [n, m.numHeads * hs] w)
    (hb : Has get (m.name ++ "/" ++ nm) "b" [m.numHeads * hs] b) :
    ∃ y, m.project get x hs nm = .ok y ∧ y.shape = [B, t, m.numHeads, hs] ∧ ∀ ib it h d, ib < B → it < t → h < m.numHeads → d < hs → y.val [ib, it, h, d] = head n hs w b x [ib, it] h d := by
  obtain ⟨y, l', h1, h2, h3⟩ := linear_run (get := get) (l := ⟨m.name ++ "/" ++ nm, none, some (m.numHeads * hs), true⟩) (x := x) (p := [B, t]) (b := b) hx rfl hw (fun _ => hb)
  unfold MHA.project
  rw [bind_eq h1]
  dsimp only
  unfold reshapeTo
  have hs' : size y.shape = size (x.shape.take 2 ++ [m.numHeads, hs]) := by
    rw [h2, hx]
    show size [B, t, m.numHeads * hs] = size [B, t, m.numHeads, hs]
    simp only [Verif.Nd.size_cons]
    rw [Nat.mul_assoc]
  rw [if_pos hs']
  refine ⟨_, rfl, by rw [hx]; rfl, fun ib it h d hb' ht hh hd => ?_⟩
  show y.val (unravel y.shape (ravel (x.shape.take 2 ++ [m.numHeads, hs]) [ib, it, h, d])) = _
  rw [h2, hx]
  have := Verif.Nd.ravel_merge (pre := [B, t]) (a := [ib, it]) m.numHeads hs h d [] [] rfl
  show y.val (unravel [B, t, m.numHeads * hs] (ravel ([B, t] ++ m.numHeads :: hs :: []) ([ib, it] ++ h :: d :: []))) = _
  rw [← this]
  show y.val (unravel [B, t, m.numHeads * hs] (ravel [B, t, m.numHeads * hs] [ib, it, h * hs + d])) = _
  rw [Verif.Nd.unravel_ravel (valid3 hb' ht (mul_add_lt hh hd))]
  have := h3 [ib, it] (h * hs + d)
  rw [if_pos rfl] at this
  exact this

theorem qk_run [Field K] {q k : Arr K} {B t T H D : Nat} (hq : q.shape = [B, t, H, D]) (hk : k.shape = [B, T, H, D]) :
    ∃ y, einsumQK q k = .ok y ∧ y.shape = [B, H, t, T] ∧ ∀ b h i j, b < B → h < H → y.val [b, h, i, j] = ∑ d ∈ Finset.range D, q.val [b, i, h, d] * k.val [b, j, h, d] := by
  unfold einsumQK
  rw [hq, hk]
  dsimp only
  rw [bind_eq (shared_self B), bind_eq (shared_self H), bind_eq (shared_self D)]
  refine ⟨_, rfl, rfl, fun b h i j hb hh => ?_⟩
  show ∑ e ∈ Finset.range D, q.val [pick B b, i, pick H h, pick D e] * k.val [pick B b, j, pick H h, pick D e] = _
  refine Finset.sum_congr rfl fun e he => ?_
  rw [pick_self hb, pick_self hh, pick_self (Finset.mem_range.mp he)]

theorem wv_run [Field K] {w v : Arr K} {B t T H D : Nat} (hw : w.shape = [B, H, t, T]) (hv : v.shape = [B, T, H, D]) :
    ∃ y, einsumWV w v = .ok y ∧ y.shape = [B, t, H, D] ∧ ∀ b i h d, b < B → h < H → y.val [b, i, h, d] = ∑ j ∈ Finset.range T, w.val [b, h, i, j] * v.val [b, j, h, d] := by
  unfold einsumWV
  rw [hw, hv]
  dsimp only
  rw [bind_eq (shared_self B), bind_eq (shared_self H), bind_eq (shared_self T)]
  refine ⟨_, rfl, rfl, fun b i h d hb hh => ?_⟩
  show ∑ e ∈ Finset.range T, w.val [pick B b, pick H h, i, pick T e] * v.val [pick B b, pick T e, pick H h, d] = _
  refine Finset.sum_congr rfl fun e he => ?_
  rw [pick_self hb, pick_self hh, pick_self (Finset.mem_range.mp he)]

theorem foldl_max [LinearOrder K] (f : Nat → K) : ∀ (l : List Nat) (a : K), (∀ j ∈ l, f j ≤ l.foldl (fun a j => max a (f j)) a) ∧ a ≤ l.foldl (fun a j => max a (f j)) a ∧
    (l.foldl (fun a j => max a (f j)) a = a ∨ ∃ j ∈ l, l.foldl (fun a j => max a (f j)) a = f j)
  | [], a => ⟨(fun j h => by cases h), le_refl a, .inl rfl⟩
  | i :: l, a => by
    obtain ⟨h1, h2, h3⟩ := foldl_max f l (max a (f i))
    refine ⟨fun j hj => ?_, le_trans (le_max_left _ _) h2, ?_⟩
    · rcases List.mem_cons.mp hj with rfl | hj
      · exact le_trans (le_max_right _ _) h2
      · exact h1 j hj
    · show l.foldl (fun a j => max a (f j)) (max a (f i)) = a ∨ ∃ j ∈ i :: l, l.foldl (fun a j => max a (f j)) (max a (f i)) = f j
      rcases h3 with h3 | ⟨j, hj, h3⟩
      · rcases max_choice a (f i) with h | h
        · rw [h] at h3 ⊢
          exact .inl h3
        · rw [h] at h3 ⊢
          exact .inr ⟨i, List.mem_cons_self, h3⟩
      · exact .inr ⟨j, List.mem_cons_of_mem _ hj, h3⟩

/-- `maximum` is the greatest of the values. -/
theorem maximum_top [LinearOrder K] {n : Nat} (hn : 0 < n) (f : Nat → K) : (∀ j < n, f j ≤ maximum n f) ∧ ∃ j < n, maximum n f = f j := by
  obtain ⟨h1, h2, h3⟩ := foldl_max f (List.range n) (f 0)
  refine ⟨fun j hj => h1 j (List.mem_range.mpr hj), ?_⟩
  rcases h3 with h3 | ⟨j, hj, h3⟩
  · exact ⟨0, hn, h3⟩
  · exact ⟨j, List.mem_range.mp hj, h3⟩

theorem maximum_congr [LinearOrder K] {n : Nat} (hn : 0 < n) {f g : Nat → K} (h : ∀ j < n, f j = g j) : maximum n f = maximum n g := by
  obtain ⟨h1, j, hj, h2⟩ := maximum_top hn f
  obtain ⟨h3, i, hi, h4⟩ := maximum_top hn g
  refine le_antisymm ?_ ?_
  · rw [h2, h j hj]
    exact h3 j hj
  · rw [h4, ← h i hi]
    exact h1 i hi

/-- The weights as they are computed. -/
def stable [Field K] [LinearOrder K] (exp : K → K) (n : Nat) (l : Nat → K) (j : Nat) : K := exp (l j - maximum n l) / ∑ i ∈ Finset.range n, exp (l i - maximum n l)

theorem stable_congr [Field K] [LinearOrder K] (exp : K → K) {n : Nat} {f g : Nat → K} (h : ∀ j < n, f j = g j) {j : Nat} (hj : j < n) : stable exp n f j = stable exp n g j := by
  unfold stable
  rw [maximum_congr (by omega) h, h j hj]
  congr 1
  exact Finset.sum_congr rfl fun i hi => by rw [h i (Finset.mem_range.mp hi)]

theorem softmax_run [Field K] [LinearOrder K] (exp : K → K) {x : Arr K} {B H t T : Nat} (hx : x.shape = [B, H, t, T]) (hT : 0 < T) :
    ∃ y, softmax exp x = .ok y ∧ y.shape = [B, H, t, T] ∧ ∀ b h i j, y.val [b, h, i, j] = stable exp T (fun j => x.val [b, h, i, j]) j := by
  unfold softmax
  rw [hx]
  show ∃ y, (if T = 0 then _ else _) = _ ∧ _
  rw [if_neg (by omega)]
  exact ⟨_, rfl, rfl, fun b h i j => rfl⟩

theorem mask_run [Field K] {x : Arr K} {mask : Option (Arr K)} {B H t T : Nat} (hx : x.shape = [B, H, t, T]) (hm : Fits mask B H t T) :
    ∃ y, applyMask x mask = .ok y ∧ y.shape = [B, H, t, T] ∧ ∀ b h i j, b < B → h < H → i < t → j < T → y.val [b, h, i, j] = x.val [b, h, i, j] - penalty mask b h i j := by
  cases mask with
  | none => exact ⟨x, rfl, hx, fun b h i j _ _ _ _ => (sub_zero _).symm⟩
  | some a =>
    obtain ⟨y, h1, h2, h3⟩ := Verif.Props.Norm.zip_at (f := (· - ·)) (x := x) (y := map (fun v => 10000000000 * (1 - v)) a) (by rw [hx]; exact hm a rfl)
    refine ⟨y, h1, by rw [h2, hx], fun b h i j hb hh hi hj => ?_⟩
    rw [h3 _ (by rw [hx]; exact valid4 hb hh hi hj)]
    unfold penalty
    dsimp only
    have : spread (map (fun v : K => 10000000000 * (1 - v)) a) [b, h, i, j] = 10000000000 * (1 - spread a [b, h, i, j]) := rfl
    rw [this]
    norm_num

theorem vec_run {x : Arr K} {B t H s : Nat} (hx : x.shape = [B, t, H, s]) (hB : 0 < B) (ht : 0 < t) :
    ∃ y, reshapeLast x [B, t] = .ok y ∧ y.shape = [B, t] ++ [H * s] ∧ ∀ b i k, b < B → i < t → k < H * s → y.val [b, i, k] = x.val [b, i, k / s, k % s] := by
  have h1 : size [B, t] ≠ 0 := by
    show B * (t * 1) ≠ 0
    rw [Nat.mul_one]
    exact Nat.mul_ne_zero (by omega) (by omega)
  have h2 : size x.shape = H * s * size [B, t] := by
    rw [hx]
    show B * (t * (H * (s * 1))) = H * s * (B * (t * 1))
    ring
  unfold reshapeLast
  dsimp only
  rw [if_neg h1, h2, Nat.mul_mod_left, if_neg (not_not.mpr rfl), Nat.mul_div_cancel _ (Nat.pos_of_ne_zero h1)]
  refine ⟨_, rfl, rfl, fun b i k hb hi hk => ?_⟩
  show x.val (unravel x.shape (ravel [B, t, H * s] [b, i, k])) = _
  have hs : 0 < s := Nat.pos_of_ne_zero fun h => by rw [h, Nat.mul_zero] at hk; omega
  have := Verif.Nd.ravel_merge (pre := [B, t]) (a := [b, i]) H s (k / s) (k % s) [] [] rfl
  have hk2 : k / s * s + k % s = k := by rw [Nat.mul_comm]; exact Nat.div_add_mod k s
  rw [hk2] at this
  change ravel [B, t, H * s] [b, i, k] = ravel [B, t, H, s] [b, i, k / s, k % s] at this
  rw [this, hx, Verif.Nd.unravel_ravel (valid4 hb hi ((Nat.div_lt_iff_lt_mul hs).mpr hk) (Nat.mod_lt _ hs))]

/-- The call, with the weights as they are computed. -/
theorem call_run [Field K] [LinearOrder K] {get : ParamFn K} (exp : K → K) (sqrt : Nat → K) {m : MHA} {query key value : Arr K} {mask : Option (Arr K)} {B t T nq nk nv : Nat} {W : Weights K}
    (hW : Loaded get m nq nk nv W) (hm : m.querySize = m.keySize) (hi : Inputs query key value B t T nq nk nv) (hf : Fits mask B m.numHeads t T) :
    ∃ y, m.call get exp sqrt query key value mask = .ok y ∧ y.shape = [B, t, m.modelSize] ∧ ∀ b i j, b < B → i < t →
      y.val [b, i, j] = output m W (fun h d => seen m W nv T value (stable exp T (logit sqrt m W nq nk query key mask b h i)) b h d) j := by
  obtain ⟨q, q1, q2, q3⟩ := project_run (nm := "query") hi.query hW.wq hW.bq
  obtain ⟨k, k1, k2, k3⟩ := project_run (nm := "key") hi.key hW.wk hW.bk
  obtain ⟨v, v1, v2, v3⟩ := project_run (nm := "value") hi.value hW.wv hW.bv
  rw [hm] at q2 q3
  obtain ⟨l, l1, l2, l3⟩ := qk_run q2 k2
  obtain ⟨l', m1, m2, m3⟩ := mask_run (x := map (· / sqrt m.keySize) l) l2 hf
  obtain ⟨w, w1, w2, w3⟩ := softmax_run exp m2 hi.keys
  obtain ⟨a, a1, a2, a3⟩ := wv_run w2 v2
  obtain ⟨r, r1, r2, r3⟩ := vec_run a2 hi.batch hi.queries
  obtain ⟨o, o', o1, o2, o3⟩ := linear_run (get := get) (l := ⟨m.name ++ "/linear", none, some m.modelSize, true⟩) (b := W.bo) r2 rfl hW.wo (fun _ => hW.bo)
  unfold MHA.call
  rw [bind_eq q1, bind_eq k1, bind_eq v1, bind_eq l1, bind_eq m1, bind_eq w1, bind_eq a1]
  have : query.shape.take 2 = [B, t] := by rw [hi.query]; rfl
  rw [this, bind_eq r1, bind_eq o1]
  dsimp only
  refine ⟨o, rfl, o2, fun b i j hb hi' => ?_⟩
  have := o3 [b, i] j
  rw [if_pos rfl] at this
  refine Eq.trans this ?_
  unfold output
  congr 1
  unfold lin
  refine Finset.sum_congr rfl fun e he => ?_
  congr 1
  have he := Finset.mem_range.mp he
  have hs : 0 < m.valueSize := Nat.pos_of_ne_zero fun h => by rw [h, Nat.mul_zero] at he; omega
  have hh : e / m.valueSize < m.numHeads := (Nat.div_lt_iff_lt_mul hs).mpr he
  show r.val [b, i, e] = _
  rw [r3 b i e hb hi' he, a3 _ _ _ _ hb hh]
  unfold seen
  refine Finset.sum_congr rfl fun c hc => ?_
  have hc := Finset.mem_range.mp hc
  rw [v3 _ _ _ _ hb hc hh (Nat.mod_lt _ hs), w3]
  congr 1
  refine stable_congr exp (fun z hz => ?_) hc
  rw [m3 _ _ _ _ hb hh hi' hz]
  unfold logit product
  congr 1
  show l.val _ / _ = _
  rw [l3 _ _ _ _ hb hh]
  congr 1
  refine Finset.sum_congr rfl fun d hd => ?_
  have hd := Finset.mem_range.mp hd
  rw [q3 _ _ _ _ hb hi' hh hd, k3 _ _ _ _ hb hz hh hd]

/-- A size that was given, or else the default; 0 counts as not given. -/
def given (o : Option Nat) (d : Nat) : Nat := if o.getD 0 = 0 then d else o.getD 0

theorem orElse_eq (o : Option Nat) (d : Nat) : orElse o d = given o d := by
  rcases o with _ | _ | n
  · rfl
  · rfl
  · rfl

theorem exp_zero [Field K] [LinearOrder K] {exp : K → K} (h : IsExp exp) : exp 0 = 1 := by
  have := h.sub 0 0
  rw [sub_zero, div_self (ne_of_gt (h.pos 0))] at this
  exact this

theorem stable_weight [Field K] [LinearOrder K] {exp : K → K} (h : IsExp exp) (n : Nat) (l : Nat → K) (j : Nat) : stable exp n l j = weight exp n l j := by
  unfold stable weight
  simp only [h.sub]
  rw [← Finset.sum_div, div_div_div_cancel_right₀ (ne_of_gt (h.pos _))]

theorem stable_sum [Field K] [LinearOrder K] [IsStrictOrderedRing K] {exp : K → K} (h0 : exp 0 = 1) (hn : ∀ x, 0 ≤ exp x) {n : Nat} (hp : 0 < n) (l : Nat → K) :
    1 ≤ ∑ i ∈ Finset.range n, exp (l i - maximum n l) := by
  obtain ⟨_, j, hj, h⟩ := maximum_top hp l
  have := Finset.single_le_sum (f := fun i => exp (l i - maximum n l)) (fun i _ => hn _) (Finset.mem_range.mpr hj)
  rw [← h, sub_self, h0] at this
  exact this

theorem stable_convex [Field K] [LinearOrder K] [IsStrictOrderedRing K] {exp : K → K} (h0 : exp 0 = 1) (hn : ∀ x, 0 ≤ exp x) {n : Nat} (hp : 0 < n) (l : Nat → K) :
    (∀ j, 0 ≤ stable exp n l j) ∧ ∑ j ∈ Finset.range n, stable exp n l j = 1 := by
  have h := lt_of_lt_of_le zero_lt_one (stable_sum h0 hn hp l)
  refine ⟨fun j => div_nonneg (hn _) h.le, ?_⟩
  unfold stable
  rw [← Finset.sum_div, div_self h.ne']

theorem average_bounds [Field K] [LinearOrder K] [IsStrictOrderedRing K] {n : Nat} {w v : Nat → K} {lo hi : K} (hw : ∀ j, 0 ≤ w j) (hs : ∑ j ∈ Finset.range n, w j = 1)
    (hv : ∀ j < n, lo ≤ v j ∧ v j ≤ hi) : lo ≤ ∑ j ∈ Finset.range n, w j * v j ∧ ∑ j ∈ Finset.range n, w j * v j ≤ hi := by
  have e : ∀ x : K, x = ∑ j ∈ Finset.range n, w j * x := fun x => by rw [← Finset.sum_mul, hs, one_mul]
  constructor
  · rw [e lo]
    exact Finset.sum_le_sum fun j hj => mul_le_mul_of_nonneg_left (hv j (Finset.mem_range.mp hj)).1 (hw j)
  · rw [e hi]
    exact Finset.sum_le_sum fun j hj => mul_le_mul_of_nonneg_left (hv j (Finset.mem_range.mp hj)).2 (hw j)

/-! ### C88 -/

/-- C88 Attention computes the documented weighted means: the linear layer of what the heads see, each the sum of its value heads weighted by the softmax of the masked, scaled dot products. -/
theorem attention_equations [Field K] [LinearOrder K] {get : ParamFn K} {exp : K → K} (he : IsExp exp) (sqrt : Nat → K) (name : String) (H ks : Nat) (qs vs ms : Option Nat) (m : MHA)
    (hmk : m = MHA.make name H ks qs vs ms) (hq : given qs ks = ks)
    {query key value : Arr K} {mask : Option (Arr K)} {B t T nq nk nv : Nat} {W : Weights K} (hW : Loaded get m nq nk nv W) (hi : Inputs query key value B t T nq nk nv) (hf : Fits mask B H t T) :
    ∃ y, m.call get exp sqrt query key value mask = .ok y ∧ y.shape = [B, t, given ms (ks * H)] ∧ m.numHeads = H ∧ m.keySize = ks ∧ m.valueSize = given vs ks ∧ ∀ b i j, b < B → i < t →
      y.val [b, i, j] = output m W (fun h d => seen m W nv T value (weight exp T (logit sqrt m W nq nk query key mask b h i)) b h d) j := by
  subst hmk
  obtain ⟨y, h1, h2, h3⟩ := call_run exp sqrt hW (by show orElse qs ks = ks; rw [orElse_eq, hq]) hi hf
  refine ⟨y, h1, by rw [h2]; show [B, t, orElse ms (ks * H)] = _; rw [orElse_eq], rfl, rfl, orElse_eq vs ks, fun b i j hb hi' => ?_⟩
  rw [h3 b i j hb hi']
  congr 1
  funext h d
  unfold seen
  exact Finset.sum_congr rfl fun c hc => by rw [stable_weight he]

/-! ### C89 -/

/-- C89 What a head sees at a query is an average of its value heads, whatever the queries, keys and mask; so it is within all bounds on the values.  This only takes that the exponential function is nowhere negative and 1 at 0. -/
theorem attention_average [Field K] [LinearOrder K] [IsStrictOrderedRing K] {get : ParamFn K} {exp : K → K} (h0 : exp 0 = 1) (hn : ∀ x, 0 ≤ exp x) (sqrt : Nat → K) {m : MHA}
    {query key value : Arr K} {mask : Option (Arr K)} {B t T nq nk nv : Nat} {W : Weights K} (hW : Loaded get m nq nk nv W) (hm : m.querySize = m.keySize)
    (hi : Inputs query key value B t T nq nk nv) (hf : Fits mask B m.numHeads t T) (y : Arr K) (hy : m.call get exp sqrt query key value mask = .ok y) (b i : Nat) (hb : b < B) (hi' : i < t) :
    ∃ w a : Nat → Nat → K, (∀ h T, 0 ≤ w h T) ∧ (∀ h, ∑ j ∈ Finset.range T, w h j = 1) ∧ (∀ h d, a h d = seen m W nv T value (w h) b h d) ∧ (∀ j, y.val [b, i, j] = output m W a j) ∧
      ∀ h d lo hi, (∀ j < T, lo ≤ head nv m.valueSize W.wv W.bv value [b, j] h d ∧ head nv m.valueSize W.wv W.bv value [b, j] h d ≤ hi) → lo ≤ a h d ∧ a h d ≤ hi := by
  obtain ⟨y', h1, _, h3⟩ := call_run exp sqrt hW hm hi hf
  rw [hy] at h1
  cases h1
  refine ⟨fun h => stable exp T (logit sqrt m W nq nk query key mask b h i), fun h d => seen m W nv T value (stable exp T (logit sqrt m W nq nk query key mask b h i)) b h d,
    fun h => (stable_convex h0 hn hi.keys _).1, fun h => (stable_convex h0 hn hi.keys _).2, fun _ _ => rfl, fun j => h3 b i j hb hi', fun h d lo hi' hv => ?_⟩
  exact average_bounds (stable_convex h0 hn hi.keys _).1 (stable_convex h0 hn hi.keys _).2 hv

/-! ### C90 -/

theorem lin_congr [Field K] {n : Nat} {w : Arr K} {x y : Nat → K} (h : ∀ k < n, x k = y k) (j : Nat) : lin n w 0 x j = lin n w 0 y j := by
  unfold lin
  exact Finset.sum_congr rfl fun k hk => by rw [h k (Finset.mem_range.mp hk)]

theorem head_congr [Field K] {n s : Nat} {w b x y : Arr K} {p q : List Nat} (h : ∀ k < n, vec x p k = vec y q k) (i d : Nat) : head n s w b x p i d = head n s w b y q i d := by
  unfold head
  rw [lin_congr h]

theorem output_congr [Field K] {m : MHA} {W : Weights K} {a a' : Nat → Nat → K} (h : ∀ i < m.numHeads, ∀ d < m.valueSize, a i d = a' i d) (j : Nat) : output m W a j = output m W a' j := by
  unfold output
  rw [lin_congr fun k hk => ?_]
  have hs : 0 < m.valueSize := Nat.pos_of_ne_zero fun h => by rw [h, Nat.mul_zero] at hk; omega
  exact h _ ((Nat.div_lt_iff_lt_mul hs).mpr hk) _ (Nat.mod_lt _ hs)

theorem maximum_sub [Field K] [LinearOrder K] [IsStrictOrderedRing K] {n : Nat} (hn : 0 < n) (f : Nat → K) (c : K) : maximum n (fun j => f j - c) = maximum n f - c := by
  obtain ⟨h1, j, hj, h2⟩ := maximum_top hn fun j => f j - c
  obtain ⟨h3, i, hi, h4⟩ := maximum_top hn f
  refine le_antisymm ?_ ?_
  · rw [h2]
    have := h3 j hj
    linarith
  · rw [h4]
    exact h1 i hi

/-- With the other logits far below, the maximum is that of the visible ones. -/
theorem maximum_visible [Field K] [LinearOrder K] [IsStrictOrderedRing K] {n : Nat} {f g : Nat → K} {vis : Nat → Prop} (hv : ∃ j < n, vis j) (hfg : ∀ j < n, vis j → f j = g j)
    (hf : ∀ j < n, ¬vis j → ∀ i < n, vis i → f j ≤ f i) (hg : ∀ j < n, ¬vis j → ∀ i < n, vis i → g j ≤ g i) : maximum n f = maximum n g := by
  obtain ⟨v, hv1, hv2⟩ := hv
  have key : ∀ f g : Nat → K, (∀ j < n, vis j → f j = g j) → (∀ j < n, ¬vis j → ∀ i < n, vis i → f j ≤ f i) → maximum n f ≤ maximum n g := by
    intro f g hfg hf
    obtain ⟨_, j, hj, h2⟩ := maximum_top (show 0 < n by omega) f
    obtain ⟨h3, _⟩ := maximum_top (show 0 < n by omega) g
    rw [h2]
    by_cases hvj : vis j
    · rw [hfg j hj hvj]
      exact h3 j hj
    · refine le_trans (hf j hj hvj v hv1 hv2) ?_
      rw [hfg v hv1 hv2]
      exact h3 v hv1
  exact le_antisymm (key f g hfg hf) (key g f (fun j hj h => (hfg j hj h).symm) hg)

theorem stable_hidden [Field K] [LinearOrder K] [IsStrictOrderedRing K] {exp : K → K} {c : K} (hr : Rounded exp c) {n : Nat} {f : Nat → K} {i j : Nat} (hi : i < n) (hj : j < n) (h : f j ≤ f i - c) :
    exp (f j - maximum n f) = 0 := by
  have := (maximum_top (show 0 < n by omega) f).1 i hi
  exact hr.small _ (by linarith)

/-- The mask is 1 where the key is visible to the query in the head, and 0 elsewhere. -/
def Binary [Field K] (mask : Arr K) (b i H T : Nat) (vis : Nat → Nat → Prop) : Prop :=
  ∀ h < H, ∀ j < T, (vis h j → spread mask [b, h, i, j] = 1) ∧ (¬vis h j → spread mask [b, h, i, j] = 0)

/-- No dot product with a hidden key exceeds one with a visible key by more than `1e10 - c`. -/
def Moderate [Field K] [LinearOrder K] (c : K) (H T : Nat) (vis : Nat → Nat → Prop) (p : Nat → Nat → K) : Prop :=
  ∀ h < H, ∀ j < T, ¬vis h j → ∀ j' < T, vis h j' → p h j - p h j' ≤ 10 ^ 10 - c

/-- C90 With an exponential function that is rounded to 0 for very negative numbers, hidden keys and values have no influence on the output at a query: it is the same for all keys and values that agree where the mask is 1,
provided that each head sees some key and that the dot products are moderate.  What is missing are queries that see no key: see `all_hidden`. -/
theorem hidden_ignored_partial [Field K] [LinearOrder K] [IsStrictOrderedRing K] {get : ParamFn K} {exp : K → K} {c : K} (hr : Rounded exp c) (hc : 0 ≤ c) (sqrt : Nat → K) {m : MHA}
    {query key value key' value' : Arr K} {mask : Arr K} {B t T nq nk nv : Nat} {W : Weights K} (hW : Loaded get m nq nk nv W) (hm : m.querySize = m.keySize)
    (hin : Inputs query key value B t T nq nk nv) (hin' : Inputs query key' value' B t T nq nk nv) (hf : Fits (some mask) B m.numHeads t T) (b i : Nat) (hb : b < B) (hi : i < t) (vis : Nat → Nat → Prop)
    (hmask : Binary mask b i m.numHeads T vis) (hsome : ∀ h < m.numHeads, ∃ j < T, vis h j)
    (hk : ∀ h < m.numHeads, ∀ j < T, vis h j → (∀ e < nk, vec key [b, j] e = vec key' [b, j] e) ∧ ∀ e < nv, vec value [b, j] e = vec value' [b, j] e)
    (hmod : Moderate c m.numHeads T vis fun h => product sqrt m W nq nk query key b h i) (hmod' : Moderate c m.numHeads T vis fun h => product sqrt m W nq nk query key' b h i)
    (y y' : Arr K) (hy : m.call get exp sqrt query key value (some mask) = .ok y) (hy' : m.call get exp sqrt query key' value' (some mask) = .ok y') (j : Nat) : y.val [b, i, j] = y'.val [b, i, j] := by
  obtain ⟨_, h1, _, h3⟩ := call_run exp sqrt hW hm hin hf
  rw [hy] at h1
  cases h1
  obtain ⟨_, h1, _, h3'⟩ := call_run exp sqrt hW hm hin' hf
  rw [hy'] at h1
  cases h1
  rw [h3 b i j hb hi, h3' b i j hb hi]
  refine output_congr (fun h hh d hd => ?_) j
  have pen : ∀ e < T, (vis h e → penalty (some mask) b h i e = 0) ∧ (¬vis h e → penalty (some mask) b h i e = 10 ^ 10) := by
    intro e he
    obtain ⟨m1, m2⟩ := hmask h hh e he
    unfold penalty
    refine ⟨fun hv => ?_, fun hv => ?_⟩
    · dsimp only
      rw [m1 hv, sub_self, mul_zero]
    · dsimp only
      rw [m2 hv, sub_zero, mul_one]
  have far : ∀ k, Moderate c m.numHeads T vis (fun h => product sqrt m W nq nk query k b h i) → ∀ e < T, ¬vis h e → ∀ e' < T, vis h e' →
      logit sqrt m W nq nk query k (some mask) b h i e ≤ logit sqrt m W nq nk query k (some mask) b h i e' - c := by
    intro k hk e he hv e' he' hv'
    have := hk h hh e he hv e' he' hv'
    unfold logit
    rw [(pen e he).2 hv, (pen e' he').1 hv']
    dsimp only at this
    linarith
  have agree : ∀ e < T, vis h e → logit sqrt m W nq nk query key (some mask) b h i e = logit sqrt m W nq nk query key' (some mask) b h i e := by
    intro e he hv
    unfold logit product
    congr 2
    refine Finset.sum_congr rfl fun d _ => ?_
    rw [head_congr (hk h hh e he hv).1]
  have top : maximum T (logit sqrt m W nq nk query key (some mask) b h i) = maximum T (logit sqrt m W nq nk query key' (some mask) b h i) :=
    maximum_visible (hsome h hh) agree (fun e he hv e' he' hv' => by have := far key hmod e he hv e' he' hv'; linarith) (fun e he hv e' he' hv' => by have := far key' hmod' e he hv e' he' hv'; linarith)
  obtain ⟨s, hs, hvs⟩ := hsome h hh
  have same : ∀ e < T, exp (logit sqrt m W nq nk query key (some mask) b h i e - maximum T (logit sqrt m W nq nk query key (some mask) b h i)) =
      exp (logit sqrt m W nq nk query key' (some mask) b h i e - maximum T (logit sqrt m W nq nk query key' (some mask) b h i)) := by
    intro e he
    by_cases hv : vis h e
    · rw [agree e he hv, top]
    · rw [stable_hidden hr hs he (far key hmod e he hv s hs hvs), stable_hidden hr hs he (far key' hmod' e he hv s hs hvs)]
  unfold seen
  refine Finset.sum_congr rfl fun e he => ?_
  have he := Finset.mem_range.mp he
  by_cases hv : vis h e
  · rw [head_congr (hk h hh e he hv).2]
    congr 1
    unfold stable
    rw [same e he]
    congr 1
    exact Finset.sum_congr rfl fun z hz => same z (Finset.mem_range.mp hz)
  · unfold stable
    rw [stable_hidden hr hs he (far key hmod e he hv s hs hvs), stable_hidden hr hs he (far key' hmod' e he hv s hs hvs), zero_div, zero_div, zero_mul, zero_mul]

/-- C90 So under a causal mask the output of self-attention at a position is the same for all inputs that agree up to this position. -/
theorem causal_partial [Field K] [LinearOrder K] [IsStrictOrderedRing K] {get : ParamFn K} {exp : K → K} {c : K} (hr : Rounded exp c) (hc : 0 ≤ c) (sqrt : Nat → K) {m : MHA} {x x' : Arr K} {B T n : Nat} {W : Weights K}
    (hW : Loaded get m n n n W) (hm : m.querySize = m.keySize) (hB : 0 < B) (hx : x.shape = [B, T, n]) (hx' : x'.shape = [B, T, n]) (mask : Arr K) (hms : mask.shape = [T, T])
    (hmask : ∀ i < T, ∀ j < T, mask.val [i, j] = if j ≤ i then 1 else 0) (b i : Nat) (hb : b < B) (hi : i < T)
    (hagree : ∀ j ≤ i, ∀ e < n, vec x [b, j] e = vec x' [b, j] e)
    (hmod : Moderate c m.numHeads T (fun _ j => j ≤ i) fun h => product sqrt m W n n x x b h i) (hmod' : Moderate c m.numHeads T (fun _ j => j ≤ i) fun h => product sqrt m W n n x' x' b h i)
    (y y' : Arr K) (hy : m.call get exp sqrt x x x (some mask) = .ok y) (hy' : m.call get exp sqrt x' x' x' (some mask) = .ok y') (j : Nat) : y.val [b, i, j] = y'.val [b, i, j] := by
  have hf : Fits (some mask) B m.numHeads T T := by
    intro a ha
    cases ha
    rw [hms]
    exact ⟨[B, m.numHeads], [T, T], rfl, .cons (.inr rfl) (.cons (.inr rfl) .nil)⟩
  have hprod : ∀ h j, product sqrt m W n n x x' b h i j = product sqrt m W n n x' x' b h i j := by
    intro h j
    unfold product
    congr 1
    refine Finset.sum_congr rfl fun d _ => ?_
    rw [head_congr (hagree i (Nat.le_refl i))]
  have hin : Inputs x x x B T T n n n := ⟨hx, hx, hx, hB, by omega, by omega⟩
  have hin' : Inputs x x' x' B T T n n n := ⟨hx, hx', hx', hB, by omega, by omega⟩
  have hin'' : Inputs x' x' x' B T T n n n := ⟨hx', hx', hx', hB, by omega, by omega⟩
  obtain ⟨z, z1, _, z3⟩ := call_run exp sqrt hW hm hin' hf
  obtain ⟨z', z1', _, z3'⟩ := call_run exp sqrt hW hm hin'' hf
  rw [hy'] at z1'
  cases z1'
  have hz : z.val [b, i, j] = y'.val [b, i, j] := by
    rw [z3 b i j hb hi, z3' b i j hb hi]
    refine output_congr (fun h hh d hd => ?_) j
    unfold seen
    refine Finset.sum_congr rfl fun e he => ?_
    congr 1
    refine stable_congr exp (fun e he => ?_) (Finset.mem_range.mp he)
    unfold logit
    rw [hprod]
  rw [← hz]
  refine hidden_ignored_partial hr hc sqrt hW hm hin hin' hf b i hb hi (fun _ j => j ≤ i) ?_ (fun h hh => ⟨i, hi, Nat.le_refl i⟩) (fun h hh e he hv => ⟨hagree e hv, hagree e hv⟩) hmod ?_ y z hy z1 j
  · intro h hh e he
    have hsp : spread mask [b, h, i, e] = mask.val [i, e] := by
      unfold spread
      rw [hms]
      show mask.val [if T = 1 then 0 else i, if T = 1 then 0 else e] = _
      by_cases hT : T = 1
      · rw [if_pos hT, if_pos hT, show i = 0 by omega, show e = 0 by omega]
      · rw [if_neg hT, if_neg hT]
    rw [hsp, hmask i hi e he]
    exact ⟨fun hv => if_pos hv, fun hv => if_neg hv⟩
  · intro h hh e he hv e' he' hv'
    dsimp only
    rw [hprod, hprod]
    exact hmod' h hh e he hv e' he' hv'

/-- C90 fails at a query that sees no key: if the whole row of the mask is 0 then the output is that of attention without a mask, so that it depends on all keys and values. -/
theorem all_hidden [Field K] [LinearOrder K] [IsStrictOrderedRing K] {get : ParamFn K} (exp : K → K) (sqrt : Nat → K) {m : MHA} {query key value : Arr K} {mask : Arr K} {B t T nq nk nv : Nat} {W : Weights K}
    (hW : Loaded get m nq nk nv W) (hm : m.querySize = m.keySize) (hin : Inputs query key value B t T nq nk nv) (hf : Fits (some mask) B m.numHeads t T) (b i : Nat) (hb : b < B) (hi : i < t)
    (hmask : Binary mask b i m.numHeads T fun _ _ => False)
    (y y' : Arr K) (hy : m.call get exp sqrt query key value (some mask) = .ok y) (hy' : m.call get exp sqrt query key value none = .ok y') (j : Nat) : y.val [b, i, j] = y'.val [b, i, j] := by
  obtain ⟨_, h1, _, h3⟩ := call_run exp sqrt hW hm hin hf
  rw [hy] at h1
  cases h1
  obtain ⟨_, h1, _, h3'⟩ := call_run exp sqrt hW hm hin (mask := none) (fun a ha => by cases ha)
  rw [hy'] at h1
  cases h1
  rw [h3 b i j hb hi, h3' b i j hb hi]
  refine output_congr (fun h hh d hd => ?_) j
  unfold seen
  refine Finset.sum_congr rfl fun e he => ?_
  congr 1
  have he := Finset.mem_range.mp he
  have e1 : ∀ z < T, logit sqrt m W nq nk query key (some mask) b h i z = logit sqrt m W nq nk query key none b h i z - 10 ^ 10 := by
    intro z hz
    unfold logit penalty
    dsimp only
    rw [(hmask h hh z hz).2 (fun h => h), sub_zero, sub_zero, mul_one]
  rw [stable_congr exp e1 he]
  unfold stable
  rw [maximum_sub hin.keys]
  congr 1
  · rw [sub_sub_sub_cancel_right]
  · refine Finset.sum_congr rfl fun z _ => ?_
    rw [sub_sub_sub_cancel_right]

/-- C90 With the true exponential function a hidden key gets a tiny weight: at most `exp(-1e10)` for equal dot products with a visible key. -/
theorem hidden_small [Field K] [LinearOrder K] [IsStrictOrderedRing K] {exp : K → K} (he : IsExp exp) (sqrt : Nat → K) (m : MHA) (W : Weights K) (nq nk : Nat) (query key mask : Arr K) (b h i T : Nat) (j j' : Nat)
    (hj' : j' < T) (hhid : spread mask [b, h, i, j] = 0) (hvis : spread mask [b, h, i, j'] = 1) :
    weight exp T (logit sqrt m W nq nk query key (some mask) b h i) j ≤ exp (product sqrt m W nq nk query key b h i j - product sqrt m W nq nk query key b h i j' - 10 ^ 10) := by
  have e : product sqrt m W nq nk query key b h i j - product sqrt m W nq nk query key b h i j' - 10 ^ 10 =
      logit sqrt m W nq nk query key (some mask) b h i j - logit sqrt m W nq nk query key (some mask) b h i j' := by
    unfold logit penalty
    dsimp only
    rw [hhid, hvis]
    ring
  rw [e, he.sub]
  unfold weight
  refine div_le_div_of_nonneg_left (he.pos _).le (he.pos _) ?_
  exact Finset.single_le_sum (f := fun i' => exp (logit sqrt m W nq nk query key (some mask) b h i i')) (fun _ _ => (he.pos _).le) (Finset.mem_range.mpr hj')

/-! ### C91, C92 -/

/-- A rearrangement of `0`, …, `n - 1`. -/
structure Rearranges (n : Nat) (π : Nat → Nat) : Prop where
  maps : ∀ j < n, π j < n
  inj : ∀ i < n, ∀ j < n, π i = π j → i = j
  surj : ∀ j < n, ∃ i < n, π i = j

theorem Rearranges.sum [AddCommMonoid K] {n : Nat} {π : Nat → Nat} (hπ : Rearranges n π) (f : Nat → K) : ∑ j ∈ Finset.range n, f (π j) = ∑ j ∈ Finset.range n, f j := by
  refine Finset.sum_nbij π (fun j hj => Finset.mem_coe.mpr (Finset.mem_range.mpr (hπ.maps j (Finset.mem_range.mp hj)))) ?_ ?_ (fun _ _ => rfl)
  · intro i hi j hj h
    exact hπ.inj i (Finset.mem_range.mp hi) j (Finset.mem_range.mp hj) h
  · intro j hj
    obtain ⟨i, hi, h⟩ := hπ.surj j (Finset.mem_range.mp hj)
    exact ⟨i, Finset.mem_coe.mpr (Finset.mem_range.mpr hi), h⟩

theorem Rearranges.maximum [LinearOrder K] {n : Nat} {π : Nat → Nat} (hπ : Rearranges n π) (hn : 0 < n) (f : Nat → K) : maximum n (fun j => f (π j)) = maximum n f := by
  obtain ⟨h1, j, hj, h2⟩ := maximum_top hn fun j => f (π j)
  obtain ⟨h3, i, hi, h4⟩ := maximum_top hn f
  refine le_antisymm ?_ ?_
  · rw [h2]
    exact h3 _ (hπ.maps j hj)
  · rw [h4]
    obtain ⟨i', hi', h⟩ := hπ.surj i hi
    rw [← h]
    exact h1 i' hi'

theorem rearranged [Field K] [LinearOrder K] {get : ParamFn K} (exp : K → K) (sqrt : Nat → K) {m : MHA} {query key value query' key' value' : Arr K} {mask mask' : Option (Arr K)} {B t B' t' T nq nk nv : Nat}
    {W : Weights K} (hW : Loaded get m nq nk nv W) (hm : m.querySize = m.keySize) (hin : Inputs query key value B t T nq nk nv) (hin' : Inputs query' key' value' B' t' T nq nk nv)
    (hf : Fits mask B m.numHeads t T) (hf' : Fits mask' B' m.numHeads t' T) (b i b' i' : Nat) (hb : b < B) (hi : i < t) (hb' : b' < B') (hi' : i' < t') {π : Nat → Nat} (hπ : Rearranges T π)
    (hq : ∀ e < nq, vec query' [b', i'] e = vec query [b, i] e) (hk : ∀ j < T, ∀ e < nk, vec key' [b', j] e = vec key [b, π j] e) (hv : ∀ j < T, ∀ e < nv, vec value' [b', j] e = vec value [b, π j] e)
    (hp : ∀ h < m.numHeads, ∀ j < T, penalty mask' b' h i' j = penalty mask b h i (π j))
    (y y' : Arr K) (hy : m.call get exp sqrt query key value mask = .ok y) (hy' : m.call get exp sqrt query' key' value' mask' = .ok y') (j : Nat) : y'.val [b', i', j] = y.val [b, i, j] := by
  obtain ⟨_, h1, _, h3⟩ := call_run exp sqrt hW hm hin hf
  rw [hy] at h1
  cases h1
  obtain ⟨_, h1, _, h3'⟩ := call_run exp sqrt hW hm hin' hf'
  rw [hy'] at h1
  cases h1
  rw [h3 b i j hb hi, h3' b' i' j hb' hi']
  refine output_congr (fun h hh d hd => ?_) j
  have hl : ∀ e < T, logit sqrt m W nq nk query' key' mask' b' h i' e = logit sqrt m W nq nk query key mask b h i (π e) := by
    intro e he
    unfold logit product
    rw [hp h hh e he]
    congr 2
    refine Finset.sum_congr rfl fun d _ => ?_
    rw [head_congr hq, head_congr (hk e he)]
  unfold seen
  rw [← hπ.sum fun z => stable exp T (logit sqrt m W nq nk query key mask b h i) z * head nv m.valueSize W.wv W.bv value [b, z] h d]
  refine Finset.sum_congr rfl fun e he => ?_
  have he := Finset.mem_range.mp he
  rw [head_congr (hv e he), stable_congr exp hl he]
  congr 1
  unfold stable
  rw [hπ.maximum hin.keys, ← hπ.sum (fun z => exp (logit sqrt m W nq nk query key mask b h i z - Verif.Attention.maximum T (logit sqrt m W nq nk query key mask b h i)))]

theorem rearranges_id (n : Nat) : Rearranges n fun j => j := ⟨fun _ h => h, fun _ _ _ _ h => h, fun j h => ⟨j, h, rfl⟩⟩

/-- C91 The output at a query depends only on the query, the keys and values of its batch element and its row of the mask: it is the same in every other call, with other batch elements and other queries, in which these are the same.
What is missing are queries of batch size 1 with larger batches of keys: see `batch_of_one_mixes`. -/
theorem separate_partial [Field K] [LinearOrder K] {get : ParamFn K} (exp : K → K) (sqrt : Nat → K) {m : MHA} {query key value query' key' value' : Arr K} {mask mask' : Option (Arr K)} {B t B' t' T nq nk nv : Nat}
    {W : Weights K} (hW : Loaded get m nq nk nv W) (hm : m.querySize = m.keySize) (hin : Inputs query key value B t T nq nk nv) (hin' : Inputs query' key' value' B' t' T nq nk nv)
    (hf : Fits mask B m.numHeads t T) (hf' : Fits mask' B' m.numHeads t' T) (b i b' i' : Nat) (hb : b < B) (hi : i < t) (hb' : b' < B') (hi' : i' < t')
    (hq : ∀ e < nq, vec query' [b', i'] e = vec query [b, i] e) (hk : ∀ j < T, ∀ e < nk, vec key' [b', j] e = vec key [b, j] e) (hv : ∀ j < T, ∀ e < nv, vec value' [b', j] e = vec value [b, j] e)
    (hp : ∀ h < m.numHeads, ∀ j < T, penalty mask' b' h i' j = penalty mask b h i j)
    (y y' : Arr K) (hy : m.call get exp sqrt query key value mask = .ok y) (hy' : m.call get exp sqrt query' key' value' mask' = .ok y') (j : Nat) : y'.val [b', i', j] = y.val [b, i, j] :=
  rearranged exp sqrt hW hm hin hin' hf hf' b i b' i' hb hi hb' hi' (rearranges_id T) hq hk hv hp y y' hy hy' j

/-- C92 The order of keys and values does not matter: if keys, values and mask are rearranged in the same way, the output stays the same. -/
theorem order_irrelevant [Field K] [LinearOrder K] {get : ParamFn K} (exp : K → K) (sqrt : Nat → K) {m : MHA} {query key value key' value' : Arr K} {mask mask' : Option (Arr K)} {B t T nq nk nv : Nat}
    {W : Weights K} (hW : Loaded get m nq nk nv W) (hm : m.querySize = m.keySize) (hin : Inputs query key value B t T nq nk nv) (hk' : key'.shape = key.shape) (hv' : value'.shape = value.shape)
    (hf : Fits mask B m.numHeads t T) (hf' : Fits mask' B m.numHeads t T) (π : Nat → Nat) (hπ : Rearranges T π)
    (hk : ∀ b < B, ∀ j < T, ∀ e < nk, key'.val [b, j, e] = key.val [b, π j, e]) (hv : ∀ b < B, ∀ j < T, ∀ e < nv, value'.val [b, j, e] = value.val [b, π j, e])
    (hp : ∀ b < B, ∀ h < m.numHeads, ∀ i < t, ∀ j < T, penalty mask' b h i j = penalty mask b h i (π j)) :
    ∃ y y', m.call get exp sqrt query key value mask = .ok y ∧ m.call get exp sqrt query key' value' mask' = .ok y' ∧ y'.shape = y.shape ∧ ∀ i, Valid y.shape i → y'.val i = y.val i := by
  have hin' : Inputs query key' value' B t T nq nk nv := ⟨hin.query, by rw [hk', hin.key], by rw [hv', hin.value], hin.batch, hin.queries, hin.keys⟩
  obtain ⟨y, h1, h2, _⟩ := call_run exp sqrt hW hm hin hf
  obtain ⟨y', h1', h2', _⟩ := call_run exp sqrt hW hm hin' hf'
  refine ⟨y, y', h1, h1', by rw [h2, h2'], fun p hp' => ?_⟩
  rw [h2] at hp'
  have h3 : p.length = 3 := hp'.length_eq
  obtain ⟨b, i, j, rfl⟩ := List.length_eq_three.mp h3
  rcases hp' with _ | ⟨hb, hp'⟩
  rcases hp' with _ | ⟨hi, hp'⟩
  exact rearranged exp sqrt hW hm hin hin' hf hf' b i b i hb hi hb hi hπ (fun _ _ => rfl) (fun j hj e he => hk b hb j hj e he) (fun j hj e he => hv b hb j hj e he) (fun h hh j hj => hp b hb h hh i hi j hj) y y' h1 h1' j

/-! ### C93 -/

theorem shared_bad {a b : Nat} (h : a ≠ b) (ha : a ≠ 1) (hb : b ≠ 1) : shared a b = .error .value := by
  unfold shared
  rw [if_neg h, if_neg ha, if_neg hb]

/-- Sizes that einsum does not take. -/
def Clash (a b : Nat) : Prop := a ≠ b ∧ a ≠ 1 ∧ b ≠ 1

/-- C93 Attention raises a `ValueError` if the query size is not the key size, or if the batch sizes of queries and keys differ, unless one of the two is 1. -/
theorem clash_rejected [Field K] [LinearOrder K] {get : ParamFn K} (exp : K → K) (sqrt : Nat → K) (name : String) (H ks : Nat) (qs vs ms : Option Nat) {query key value : Arr K} {mask : Option (Arr K)}
    {B t B' T B'' T' nq nk nv : Nat} {W : Weights K} (hW : Loaded get (MHA.make name H ks qs vs ms) nq nk nv W) (hq : query.shape = [B, t, nq]) (hk : key.shape = [B', T, nk]) (hv : value.shape = [B'', T', nv])
    (h : Clash (given qs ks) ks ∨ Clash B B') : (MHA.make name H ks qs vs ms).call get exp sqrt query key value mask = .error .value := by
  obtain ⟨q, q1, q2, _⟩ := project_run (nm := "query") hq hW.wq hW.bq
  obtain ⟨k, k1, k2, _⟩ := project_run (nm := "key") hk hW.wk hW.bk
  obtain ⟨v, v1, _, _⟩ := project_run (nm := "value") hv hW.wv hW.bv
  unfold MHA.call
  rw [bind_eq q1, bind_eq k1, bind_eq v1]
  refine bind_err ?_
  unfold einsumQK
  rw [q2, k2]
  dsimp only
  by_cases hB : Clash B B'
  · exact bind_err (shared_bad hB.1 hB.2.1 hB.2.2)
  have hS : Clash (given qs ks) ks := h.resolve_right hB
  have hB : ∃ n, shared B B' = .ok n := by
    unfold shared
    by_cases h1 : B = B'
    · exact ⟨_, if_pos h1⟩
    · rw [if_neg h1]
      by_cases h2 : B = 1
      · exact ⟨_, if_pos h2⟩
      · rw [if_neg h2]
        by_cases h3 : B' = 1
        · exact ⟨_, if_pos h3⟩
        · exact absurd ⟨h1, h2, h3⟩ hB
  obtain ⟨n, hB⟩ := hB
  rw [bind_eq hB, bind_eq (shared_self _)]
  refine bind_err ?_
  show shared (orElse qs ks) ks = _
  rw [orElse_eq]
  exact shared_bad hS.1 hS.2.1 hS.2.2

/-- C93 Attention raises a `ValueError` if there are not as many values as keys, or not as many batch elements, unless one of the two is 1. -/
theorem value_clash_rejected [Field K] [LinearOrder K] {get : ParamFn K} (exp : K → K) (sqrt : Nat → K) {m : MHA} {query key value : Arr K} {mask : Option (Arr K)}
    {B t T B' T' nq nk nv : Nat} {W : Weights K} (hW : Loaded get m nq nk nv W) (hm : m.querySize = m.keySize) (hq : query.shape = [B, t, nq]) (hk : key.shape = [B, T, nk]) (hv : value.shape = [B', T', nv]) (hT : 0 < T)
    (hf : Fits mask B m.numHeads t T) (h : Clash T T' ∨ Clash B B') : m.call get exp sqrt query key value mask = .error .value := by
  obtain ⟨q, q1, q2, _⟩ := project_run (nm := "query") hq hW.wq hW.bq
  obtain ⟨k, k1, k2, _⟩ := project_run (nm := "key") hk hW.wk hW.bk
  obtain ⟨v, v1, v2, _⟩ := project_run (nm := "value") hv hW.wv hW.bv
  rw [hm] at q2
  obtain ⟨l, l1, l2, l3⟩ := qk_run q2 k2
  obtain ⟨l', m1, m2, m3⟩ := mask_run (x := map (· / sqrt m.keySize) l) l2 hf
  obtain ⟨w, w1, w2, w3⟩ := softmax_run exp m2 hT
  unfold MHA.call
  rw [bind_eq q1, bind_eq k1, bind_eq v1, bind_eq l1, bind_eq m1, bind_eq w1]
  refine bind_err ?_
  unfold einsumWV
  rw [w2, v2]
  dsimp only
  by_cases hB : Clash B B'
  · exact bind_err (shared_bad hB.1 hB.2.1 hB.2.2)
  have hS : Clash T T' := h.resolve_right hB
  have hB : ∃ n, shared B B' = .ok n := by
    unfold shared
    by_cases h1 : B = B'
    · exact ⟨_, if_pos h1⟩
    · rw [if_neg h1]
      by_cases h2 : B = 1
      · exact ⟨_, if_pos h2⟩
      · rw [if_neg h2]
        by_cases h3 : B' = 1
        · exact ⟨_, if_pos h3⟩
        · exact absurd ⟨h1, h2, h3⟩ hB
  obtain ⟨n, hB⟩ := hB
  rw [bind_eq hB, bind_eq (shared_self _)]
  exact bind_err (shared_bad hS.1 hS.2.1 hS.2.2)

/-! ### Concrete cases -/

/-- Parameters: all weights are 1, all biases 0. -/
def ones (K : Type) [Field K] : ParamFn K := fun _ name s => .ok ⟨s, fun _ => if name = "w" then 1 else 0⟩

/-- The same by module. -/
def onesW (K : Type) [Field K] (m : MHA) (nq nk nv : Nat) : Weights K :=
  ⟨⟨[nq, m.numHeads * m.querySize], fun _ => 1⟩, ⟨[m.numHeads * m.querySize], fun _ => 0⟩, ⟨[nk, m.numHeads * m.keySize], fun _ => 1⟩, ⟨[m.numHeads * m.keySize], fun _ => 0⟩,
    ⟨[nv, m.numHeads * m.valueSize], fun _ => 1⟩, ⟨[m.numHeads * m.valueSize], fun _ => 0⟩, ⟨[m.numHeads * m.valueSize, m.modelSize], fun _ => 1⟩, ⟨[m.modelSize], fun _ => 0⟩⟩

theorem ones_loaded (K : Type) [Field K] (m : MHA) (nq nk nv : Nat) : Loaded (ones K) m nq nk nv (onesW K m nq nk nv) :=
  ⟨⟨rfl, rfl⟩, ⟨rfl, rfl⟩, ⟨rfl, rfl⟩, ⟨rfl, rfl⟩, ⟨rfl, rfl⟩, ⟨rfl, rfl⟩, ⟨rfl, rfl⟩, ⟨rfl, rfl⟩⟩

/-- A sequence of numbers for one batch element. -/
def nums [Field K] (l : List K) : Arr K := ⟨[1, l.length, 1], fun i => l.getD (i.getD 1 0) 0⟩

/-- Two heads of size 1, three outputs. -/
def two : MHA := MHA.make "att" 2 1 none (some 0) (some 3)

/-- The exponential function of the reals. -/
theorem real_exp : IsExp Real.exp := ⟨Real.exp_pos, Real.exp_sub⟩

/-- A very rough exponential function. -/
def step (x : Rat) : Rat := if x ≤ -1 then 0 else 1

theorem step_rounded : Rounded step 1 := by
  refine ⟨by decide +kernel, fun x => ?_, fun x hx => if_pos hx⟩
  unfold step
  split
  · exact le_refl 0
  · exact zero_le_one

example : ∃ y, two.call (ones ℝ) Real.exp (fun n => Real.sqrt n) (nums [1, 2]) (nums [3, 4, 5]) (nums [6, 7, 8]) (some ⟨[2, 3], fun i => if i.getD 1 0 ≤ i.getD 0 0 then 1 else 0⟩) = .ok y ∧ y.shape = [1, 2, 3] := by
  obtain ⟨y, h1, h2, _⟩ := attention_equations (K := ℝ) real_exp (fun n => Real.sqrt n) "att" 2 1 none (some 0) (some 3) two rfl rfl (ones_loaded ℝ two 1 1 1) (query := nums [1, 2]) (key := nums [3, 4, 5])
    (value := nums [6, 7, 8]) (B := 1) (t := 2) (T := 3) ⟨rfl, rfl, rfl, Nat.one_pos, Nat.two_pos, Nat.succ_pos 2⟩
    (mask := some ⟨[2, 3], fun i => if i.getD 1 0 ≤ i.getD 0 0 then 1 else 0⟩) (by intro a ha; cases ha; exact ⟨[1, 2], [2, 3], rfl, .cons (.inr rfl) (.cons (.inr rfl) .nil)⟩)
  exact ⟨y, h1, h2⟩

/-- Two heads that see the mean 7 of the values. -/
example : (two.call (ones Rat) step (fun _ => 1) (nums [0, 2]) (nums [3, 4, 5]) (nums [6, 7, 8]) none).map (fun y => (y.val [0, 0, 0], y.val [0, 0, 1], y.val [0, 1, 0])) = .ok (14, 14, 16) := by decide +kernel

example : ∃ y, two.call (ones Rat) step (fun _ => 1) (nums [0, 2]) (nums [3, 4, 5]) (nums [6, 7, 8]) none = .ok y ∧ ∃ a : Nat → Nat → Rat, y.val [0, 1, 0] = output two (onesW Rat two 1 1 1) a 0 ∧ 6 ≤ a 0 0 ∧ a 0 0 ≤ 8 := by
  have hin : Inputs (nums [0, 2]) (nums [3, 4, 5]) (nums ([6, 7, 8] : List Rat)) 1 2 3 1 1 1 := ⟨rfl, rfl, rfl, Nat.one_pos, Nat.two_pos, Nat.succ_pos 2⟩
  obtain ⟨y, h1, _⟩ := call_run step (fun _ => 1) (ones_loaded Rat two 1 1 1) rfl hin (mask := none) (fun a ha => by cases ha)
  obtain ⟨w, a, _, _, _, h4, h5⟩ := attention_average step_rounded.zero step_rounded.nonneg (fun _ => 1) (ones_loaded Rat two 1 1 1) rfl hin (mask := none) (fun a ha => by cases ha) y h1 0 1 Nat.one_pos (Nat.lt_succ_self 1)
  exact ⟨y, h1, a, h4 0, h5 0 0 6 8 (by decide +kernel)⟩

/-- The mask of one visible key among two. -/
def first : Arr Rat := ⟨[1, 2], fun i => if i.getD 1 0 = 0 then 1 else 0⟩

/-- The last key and value are hidden: other ones give the same output. -/
example : Binary first 0 0 2 2 (fun _ j => j = 0) ∧ (∀ h < 2, ∃ j < 2, (fun _ j => j = 0) h j) ∧ Fits (some first) 1 2 1 2 ∧
    Moderate 1 2 2 (fun _ j => j = 0) (fun h => product (fun _ => 1) two (onesW Rat two 1 1 1) 1 1 (nums [2]) (nums [3, 50]) 0 h 0) ∧
    Moderate 1 2 2 (fun _ j => j = 0) (fun h => product (fun _ => 1) two (onesW Rat two 1 1 1) 1 1 (nums [2]) (nums [3, 70]) 0 h 0) ∧
    (two.call (ones Rat) step (fun _ => 1) (nums [2]) (nums [3, 50]) (nums [6, 7]) (some first)).map (fun y => y.val [0, 0, 0]) = .ok 12 ∧
    (two.call (ones Rat) step (fun _ => 1) (nums [2]) (nums [3, 70]) (nums [6, 9]) (some first)).map (fun y => y.val [0, 0, 0]) = .ok 12 ∧
    (two.call (ones Rat) step (fun _ => 1) (nums [2]) (nums [3, 70]) (nums [6, 9]) none).map (fun y => y.val [0, 0, 0]) = .ok 18 := by
  refine ⟨?_, fun h _ => ⟨0, Nat.two_pos, rfl⟩, ?_, ?_, ?_, by decide +kernel, by decide +kernel, by decide +kernel⟩
  · unfold Binary
    decide +kernel
  · intro a ha
    cases ha
    exact ⟨[1, 2], [1, 2], rfl, .cons (.inr rfl) (.cons (.inr rfl) .nil)⟩
  · unfold Moderate
    decide +kernel
  · unfold Moderate
    decide +kernel

/-- Under a causal mask the first output does not depend on the second input, the second does. -/
example : (∀ j ≤ 0, ∀ e < 1, vec (nums ([2, 3] : List Rat)) [0, j] e = vec (nums [2, 5]) [0, j] e) ∧
    Moderate 1 2 2 (fun _ j => j ≤ 0) (fun h => product (fun _ => 1) two (onesW Rat two 1 1 1) 1 1 (nums [2, 3]) (nums [2, 3]) 0 h 0) ∧
    (two.call (ones Rat) step (fun _ => 1) (nums [2, 3]) (nums [2, 3]) (nums [2, 3]) (some ⟨[2, 2], fun i => if i.getD 1 0 ≤ i.getD 0 0 then 1 else 0⟩)).map (fun y => (y.val [0, 0, 0], y.val [0, 1, 0])) = .ok (4, 6) ∧
    (two.call (ones Rat) step (fun _ => 1) (nums [2, 5]) (nums [2, 5]) (nums [2, 5]) (some ⟨[2, 2], fun i => if i.getD 1 0 ≤ i.getD 0 0 then 1 else 0⟩)).map (fun y => (y.val [0, 0, 0], y.val [0, 1, 0])) = .ok (4, 10) := by
  refine ⟨by decide +kernel, ?_, by decide +kernel, by decide +kernel⟩
  unfold Moderate
  decide +kernel

/-- With all keys hidden, the value of a hidden key decides about the output. -/
example : Binary (⟨[1], fun _ => 0⟩ : Arr Rat) 0 0 2 2 (fun _ _ => False) ∧
    (two.call (ones Rat) step (fun _ => 1) (nums [2]) (nums [3, 3]) (nums [6, 8]) (some ⟨[1], fun _ => 0⟩)).map (fun y => y.val [0, 0, 0]) = .ok 14 ∧
    (two.call (ones Rat) step (fun _ => 1) (nums [2]) (nums [3, 3]) (nums [6, 10]) (some ⟨[1], fun _ => 0⟩)).map (fun y => y.val [0, 0, 0]) = .ok 16 := by
  refine ⟨?_, by decide +kernel, by decide +kernel⟩
  unfold Binary
  decide +kernel

/-- A hidden and a visible key with equal dot products. -/
example : weight Real.exp 2 (logit (fun _ => 1) two (onesW ℝ two 1 1 1) 1 1 (nums [2]) (nums [3, 3]) (some ⟨[1, 2], fun i => if i.getD 1 0 = 0 then 1 else 0⟩) 0 0 0) 1 ≤ Real.exp (-10 ^ 10) := by
  have := hidden_small real_exp (fun _ => 1) two (onesW ℝ two 1 1 1) 1 1 (nums [2]) (nums [3, 3]) ⟨[1, 2], fun i => if i.getD 1 0 = 0 then 1 else 0⟩ 0 0 0 2 1 0 Nat.two_pos
    (by show (if (1 : Nat) = 0 then (1 : ℝ) else 0) = 0; rw [if_neg (by decide)]) (by show (if (0 : Nat) = 0 then (1 : ℝ) else 0) = 1; rw [if_pos rfl])
  have e : product (fun _ => 1) two (onesW ℝ two 1 1 1) 1 1 (nums [2]) (nums [3, 3]) 0 0 0 1 = product (fun _ => 1) two (onesW ℝ two 1 1 1) 1 1 (nums [2]) (nums [3, 3]) 0 0 0 0 := rfl
  rw [e, sub_self, zero_sub] at this
  exact this

/-- Swapping two keys together with their values. -/
example : Rearranges 2 (fun j => 1 - j) ∧
    (two.call (ones Rat) step (fun _ => 1) (nums [2]) (nums [3, 4]) (nums [6, 8]) none).map (fun y => y.val [0, 0, 0]) = .ok 16 ∧
    (two.call (ones Rat) step (fun _ => 1) (nums [2]) (nums [4, 3]) (nums [8, 6]) none).map (fun y => y.val [0, 0, 0]) = .ok 16 ∧
    (two.call (ones Rat) step (fun _ => 1) (nums [2]) (nums [4, 3]) (nums [6, 8]) none).map (fun y => y.val [0, 0, 0]) = .ok 12 := by
  refine ⟨⟨fun j hj => by omega, fun i hi j hj h => by omega, fun j hj => ⟨1 - j, by omega, by omega⟩⟩, by decide +kernel, by decide +kernel, by decide +kernel⟩

/-- A query alone, and as the second of two. -/
example : (two.call (ones Rat) step (fun _ => 1) (nums [2]) (nums [3, 4]) (nums [6, 8]) none).map (fun y => y.val [0, 0, 0]) = .ok 16 ∧
    (two.call (ones Rat) step (fun _ => 1) (nums [-2, 2]) (nums [3, 4]) (nums [6, 8]) none).map (fun y => (y.val [0, 0, 0], y.val [0, 1, 0])) = .ok (12, 16) := by
  exact ⟨by decide +kernel, by decide +kernel⟩

/-- A query size of 2 with keys of size 3, and two values for three keys. -/
example : Clash (given (some 2) 3) 3 ∧ (MHA.make "att" 2 3 (some 2) none none).call (ones Rat) step (fun _ => 1) (nums [1]) (nums [2]) (nums [3]) none = .error .value ∧
    Clash 3 2 ∧ two.call (ones Rat) step (fun _ => 1) (nums [1]) (nums [1, 2, 3]) (nums [3, 4]) none = .error .value := by
  refine ⟨by unfold Clash; decide, clash_rejected step (fun _ => 1) "att" 2 3 (some 2) none none (ones_loaded Rat _ 1 1 1) (B := 1) (t := 1) (B' := 1) (T := 1) (B'' := 1) (T' := 1) rfl rfl rfl (.inl (by unfold Clash; decide)),
    by unfold Clash; decide, value_clash_rejected step (fun _ => 1) (ones_loaded Rat two 1 1 1) rfl (B := 1) (t := 1) (T := 3) (B' := 1) (T' := 2) rfl rfl rfl (Nat.succ_pos 2) (fun a ha => by cases ha) (.inl (by unfold Clash; decide))⟩

/-- Numbers for two batch elements. -/
def nums2 [Field K] (l : List (List K)) : Arr K := ⟨[l.length, (l.headD []).length, 1], fun i => (l.getD (i.getD 0 0) []).getD (i.getD 1 0) 0⟩

/-- One head of size 1. -/
def one : MHA := MHA.make "att" 1 1 none none none

/-- C91, C93 A query of batch size 1 is accepted with keys and values for two batch elements, but the result is not split into batch elements: it has batch size 1, and the output at the first query depends on the second query.
So `separate_partial` does not hold without equal batch sizes. -/
theorem batch_of_one_mixes : ∃ (query query' key value : Arr Rat), query.shape = [1, 2, 1] ∧ query'.shape = [1, 2, 1] ∧ key.shape = [2, 2, 1] ∧ value.shape = [2, 2, 1] ∧ vec query [0, 0] 0 = vec query' [0, 0] 0 ∧
    ∃ y y', one.call (ones Rat) step (fun _ => 1) query key value none = .ok y ∧ one.call (ones Rat) step (fun _ => 1) query' key value none = .ok y' ∧ y.shape = [1, 2, 1] ∧ y'.shape = [1, 2, 1] ∧
      y.val [0, 0, 0] ≠ y'.val [0, 0, 0] := by
  have h : (one.call (ones Rat) step (fun _ => 1) (nums [0, 0]) (nums2 [[0, 5], [0, 0]]) (nums2 [[0, 1], [0, 0]]) none).map (fun y => (y.shape, y.val [0, 0, 0])) = .ok ([1, 2, 1], 1) := by decide +kernel
  have h' : (one.call (ones Rat) step (fun _ => 1) (nums [0, 1]) (nums2 [[0, 5], [0, 0]]) (nums2 [[0, 1], [0, 0]]) none).map (fun y => (y.shape, y.val [0, 0, 0])) = .ok ([1, 2, 1], 3 / 2) := by decide +kernel
  obtain ⟨y, h1, h2⟩ := Verif.Props.Conv.map_ok h
  obtain ⟨y', h1', h2'⟩ := Verif.Props.Conv.map_ok h'
  have a := Prod.mk.inj h2
  have a' := Prod.mk.inj h2'
  exact ⟨nums [0, 0], nums [0, 1], nums2 [[0, 5], [0, 0]], nums2 [[0, 1], [0, 0]], rfl, rfl, rfl, rfl, rfl, y, y', h1, h1', a.1, a'.1, by rw [a.2, a'.2]; decide +kernel⟩

end Verif.Props.Attention
