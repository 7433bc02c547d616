import Mathlib.Analysis.SpecialFunctions.Log.Basic
import Mathlib.Analysis.SpecialFunctions.Sigmoid
import Mathlib.MeasureTheory.Constructions.Pi
import Mathlib.MeasureTheory.Measure.Lebesgue.Basic
import Verif.Model.Vae
import Verif.Props.Cores
import Verif.Props.Initializers
import Verif.Props.Gaussian

/-!
# The variational autoencoder example (C157, C158, C159)
-/

set_option linter.unusedVariables false

namespace Verif.Props.Vae
open Verif.Shapes (Err size)
open Verif.Pool (Arr)
open Verif.Mlp (ParamFn Linear)
open Verif.Nd (zip map unravel ravel reshapeLead)
open Verif.MobileNet (flatten)
open Verif.ResNet (relu)
open Verif.Props.Reset (Valid)
open Verif.Props.Cores (Has lin vec linear_run zip_same)
open Verif.Props.Norm (bind_eq bind_err)
open Verif.Props.Gaussian
open Verif.Vae
open MeasureTheory ProbabilityTheory InformationTheory
open scoped ENNReal

/-! ### Specification -/

/-- The probability that a Bernoulli variable with log-odds `l` is 1. -/
noncomputable def prob (l : ℝ) : ℝ := Real.exp l / (1 + Real.exp l)

/-- The probability of an image of `N` pixels whose log-odds are `l`. -/
noncomputable def likelihood (N : Nat) (l x : Nat → ℝ) : ℝ := ∏ k ∈ Finset.range N, if x k = 1 then prob (l k) else 1 - prob (l k)

/-- The pixels of image `b`, row by row. -/
def pixels (x : Arr ℝ) (s : List Nat) (b : Nat) : Nat → ℝ := fun k => x.val (b :: unravel s k)

/-- A hidden layer: `max(W x + b, 0)`. -/
noncomputable def hidden (n : Nat) (w b : Arr ℝ) (x : Nat → ℝ) (j : Nat) : ℝ := max (lin n w 0 x j + b.val [j]) 0

/-- The first `n` entries as a vector. -/
def row (n : Nat) (f : Nat → ℝ) : Fin n → ℝ := fun i => f i

/-- A vector with zeros after it. -/
def pad {n : Nat} (z : Fin n → ℝ) : Nat → ℝ := fun k => if h : k < n then z ⟨k, h⟩ else 0

/-- The weights and biases of the five layers. -/
structure Weights where
  w0 : Arr ℝ
  b0 : Arr ℝ
  w1 : Arr ℝ
  b1 : Arr ℝ
  w2 : Arr ℝ
  b2 : Arr ℝ
  v0 : Arr ℝ
  c0 : Arr ℝ
  v1 : Arr ℝ
  c1 : Arr ℝ

/-- The parameters of the network are these, with the shapes that the layers ask for. -/
structure Weights.Of (W : Weights) (get : ParamFn ℝ) (m : Net) : Prop where
  w0 : Has get (m.name ++ "/encoder" ++ "/linear") "w" [size m.outputShape, m.hiddenSize] W.w0
  b0 : Has get (m.name ++ "/encoder" ++ "/linear") "b" [m.hiddenSize] W.b0
  w1 : Has get (m.name ++ "/encoder" ++ "/linear_1") "w" [m.hiddenSize, m.latentSize] W.w1
  b1 : Has get (m.name ++ "/encoder" ++ "/linear_1") "b" [m.latentSize] W.b1
  w2 : Has get (m.name ++ "/encoder" ++ "/linear_2") "w" [m.hiddenSize, m.latentSize] W.w2
  b2 : Has get (m.name ++ "/encoder" ++ "/linear_2") "b" [m.latentSize] W.b2
  v0 : Has get (m.name ++ "/decoder" ++ "/linear") "w" [m.latentSize, m.hiddenSize] W.v0
  c0 : Has get (m.name ++ "/decoder" ++ "/linear") "b" [m.hiddenSize] W.c0
  v1 : Has get (m.name ++ "/decoder" ++ "/linear_1") "w" [m.hiddenSize, size m.outputShape] W.v1
  c1 : Has get (m.name ++ "/decoder" ++ "/linear_1") "b" [size m.outputShape] W.c1

/-- The mean of the code of an image. -/
noncomputable def Weights.mean (W : Weights) (m : Net) (x : Nat → ℝ) (j : Nat) : ℝ := lin m.hiddenSize W.w1 0 (hidden (size m.outputShape) W.w0 W.b0 x) j + W.b1.val [j]

/-- The standard deviation of the code of an image. -/
noncomputable def Weights.sd (W : Weights) (m : Net) (x : Nat → ℝ) (j : Nat) : ℝ := Real.exp (lin m.hiddenSize W.w2 0 (hidden (size m.outputShape) W.w0 W.b0 x) j + W.b2.val [j])

/-- The log-odds of the pixels given a code. -/
noncomputable def Weights.logit (W : Weights) (m : Net) (z : Nat → ℝ) (k : Nat) : ℝ := lin m.hiddenSize W.v1 0 (hidden m.latentSize W.v0 W.c0 z) k + W.c1.val [k]

/-! ### Lemmas -/

theorem relu_shape (x : Arr ℝ) : (relu x).shape = x.shape := rfl

theorem relu_vec (x : Arr ℝ) (q : List Nat) (j : Nat) : vec (relu x) q j = max (vec x q j) 0 := rfl

theorem lin_congr {n : Nat} {w : Arr ℝ} {f g : Nat → ℝ} (h : ∀ k, k < n → f k = g k) (j : Nat) : lin n w 0 f j = lin n w 0 g j :=
  Finset.sum_congr rfl fun k hk => by rw [h k (Finset.mem_range.mp hk)]

theorem flatten_rows {x : Arr ℝ} {n : Nat} {s : List Nat} (hx : x.shape = n :: s) (hs : s ≠ []) : (flatten x).shape = [n] ++ [size s] ∧ ∀ b, vec (flatten x) [b] = pixels x s b := by
  have hl : ¬ x.shape.length ≤ 1 := by
    rw [hx]
    cases s with
    | nil => exact absurd rfl hs
    | cons a t => simp
  unfold flatten
  rw [if_neg hl]
  refine ⟨by rw [hx]; rfl, fun b => ?_⟩
  funext k
  show x.val (List.take 1 [b, k] ++ unravel (x.shape.drop 1) ([b, k].getD 1 0)) = _
  rw [hx]
  rfl

/-- What the encoder returns. -/
theorem encoder_run {S : Setting ℝ} {m : Net} {W : Weights} (hW : W.Of S.get m) (hexp : S.exp = Real.exp) {x : Arr ℝ} {n : Nat} (hx : x.shape = n :: m.outputShape) (hs : m.outputShape ≠ []) :
    ∃ mean sd, encoder S.get S.exp (m.name ++ "/encoder") m.hiddenSize m.latentSize x = .ok (mean, sd) ∧ mean.shape = [n, m.latentSize] ∧ sd.shape = [n, m.latentSize] ∧
      ∀ b j, mean.val [b, j] = W.mean m (pixels x m.outputShape b) j ∧ sd.val [b, j] = W.sd m (pixels x m.outputShape b) j := by
  obtain ⟨fs, fv⟩ := flatten_rows hx hs
  obtain ⟨y, l1, e1, s1, v1⟩ := linear_run (l := ⟨m.name ++ "/encoder" ++ "/linear", none, some m.hiddenSize, true⟩) fs rfl hW.w0 (fun _ => hW.b0)
  obtain ⟨a, l2, e2, s2, v2⟩ := linear_run (l := ⟨m.name ++ "/encoder" ++ "/linear_1", none, some m.latentSize, true⟩) (x := relu y) (p := [n]) s1 rfl hW.w1 (fun _ => hW.b1)
  obtain ⟨c, l3, e3, s3, v3⟩ := linear_run (l := ⟨m.name ++ "/encoder" ++ "/linear_2", none, some m.latentSize, true⟩) (x := relu y) (p := [n]) s1 rfl hW.w2 (fun _ => hW.b2)
  have hy : ∀ b k, vec (relu y) [b] k = hidden (size m.outputShape) W.w0 W.b0 (pixels x m.outputShape b) k := by
    intro b k
    rw [relu_vec, v1 [b] k, fv]
    rfl
  refine ⟨a, map S.exp c, ?_, s2, s3, fun b j => ⟨?_, ?_⟩⟩
  · unfold encoder
    rw [bind_eq e1]
    dsimp only
    rw [bind_eq e2]
    dsimp only
    rw [bind_eq e3]
  · show vec a [b] j = _
    rw [v2 [b] j, funext (hy b)]
    rfl
  · show S.exp (vec c [b] j) = _
    rw [v3 [b] j, funext (hy b), hexp]
    rfl

/-- What the decoder returns. -/
theorem decoder_run {S : Setting ℝ} {m : Net} {W : Weights} (hW : W.Of S.get m) (h0 : size m.outputShape ≠ 0) {z : Arr ℝ} {n : Nat} (hz : z.shape = [n, m.latentSize]) :
    ∃ y, decoder S.get (m.name ++ "/decoder") m.hiddenSize m.outputShape z = .ok y ∧ y.shape = n :: m.outputShape ∧
      ∀ b, b < n → ∀ k, k < size m.outputShape → pixels y m.outputShape b k = W.logit m (vec z [b]) k := by
  obtain ⟨y, l1, e1, s1, v1⟩ := linear_run (l := ⟨m.name ++ "/decoder" ++ "/linear", none, some m.hiddenSize, true⟩) (x := z) (p := [n]) hz rfl hW.v0 (fun _ => hW.c0)
  obtain ⟨a, l2, e2, s2, v2⟩ := linear_run (l := ⟨m.name ++ "/decoder" ++ "/linear_1", none, some (size m.outputShape), true⟩) (x := relu y) (p := [n]) s1 rfl hW.v1 (fun _ => hW.c1)
  have hy : ∀ b k, vec (relu y) [b] k = hidden m.latentSize W.v0 W.c0 (vec z [b]) k := by
    intro b k
    rw [relu_vec, v1 [b] k]
    rfl
  have hsz : size a.shape = n * size m.outputShape := by
    rw [s2]
    show n * (size m.outputShape * 1) = _
    rw [Nat.mul_one]
  have hdiv : size a.shape / size m.outputShape = n := by rw [hsz, Nat.mul_div_cancel _ (Nat.pos_of_ne_zero h0)]
  refine ⟨⟨n :: m.outputShape, fun i => a.val (unravel a.shape (ravel (n :: m.outputShape) i))⟩, ?_, rfl, fun b hb k hk => ?_⟩
  · unfold decoder
    rw [bind_eq e1]
    dsimp only
    rw [bind_eq e2]
    unfold reshapeLead
    dsimp only
    rw [if_neg (by rw [hsz, Nat.mul_mod_left]; exact fun h => h.elim h0 (fun h => h rfl)), hdiv]
  · show a.val (unravel a.shape (ravel (n :: m.outputShape) (b :: unravel m.outputShape k))) = _
    obtain ⟨u1, u2⟩ := Verif.Props.VQ.valid_unravel hk
    rw [s2]
    show a.val (unravel [n, size m.outputShape] _) = _
    rw [Verif.Props.Initializers.unravel_row rfl hb u1 u2]
    show vec a [b] k = _
    rw [v2 [b] k, funext (hy b)]
    rfl

/-- What the network returns. -/
theorem call_run {S : Setting ℝ} {m : Net} {W : Weights} (hW : W.Of S.get m) (hexp : S.exp = Real.exp) {x : Arr ℝ} {n : Nat} (hx : x.shape = n :: m.outputShape) (hs : m.outputShape ≠ [])
    (h0 : size m.outputShape ≠ 0) :
    ∃ o, m.call S x = .ok o ∧ o.mean.shape = [n, m.latentSize] ∧ o.stddev.shape = [n, m.latentSize] ∧ o.logits.shape = n :: m.outputShape ∧
      (∀ b j, o.mean.val [b, j] = W.mean m (pixels x m.outputShape b) j ∧ o.stddev.val [b, j] = W.sd m (pixels x m.outputShape b) j) ∧
      (∀ b, b < n → ∀ k, k < size m.outputShape → pixels o.logits m.outputShape b k =
        W.logit m (fun j => W.mean m (pixels x m.outputShape b) j + W.sd m (pixels x m.outputShape b) j * S.normal (S.keys 0) [n, m.latentSize] [b, j]) k) ∧
      o.image.shape = n :: m.outputShape ∧ ∀ i, o.image.val i = decide (S.uniform (S.keys 1) (n :: m.outputShape) i < prob (o.logits.val i)) := by
  obtain ⟨mean, sd, e1, s1, s2, v⟩ := encoder_run hW hexp hx hs
  obtain ⟨sc, e2, s3, v3⟩ := zip_same (f := (· * ·)) (x := sd) (y := ⟨mean.shape, S.normal (S.keys 0) mean.shape⟩) s2 s1
  obtain ⟨z, e3, s4, v4⟩ := zip_same (f := (· + ·)) s1 s3
  obtain ⟨y, e4, s5, v5⟩ := decoder_run hW h0 s4
  refine ⟨⟨⟨y.shape, fun i => decide (S.uniform (S.keys 1) y.shape i < 1 / (1 + S.exp (-y.val i)))⟩, mean, sd, y⟩, ?_, s1, s2, s5, v, fun b hb k hk => ?_, s5, fun i => ?_⟩
  rotate_left
  · rw [v5 b hb k hk]
    show lin _ _ 0 (hidden _ _ _ (vec z [b])) k + _ = lin _ _ 0 (hidden _ _ _ _) k + _
    congr 1
    refine lin_congr (fun j _ => ?_) k
    show max (lin _ _ 0 (vec z [b]) j + _) 0 = max (lin _ _ 0 _ j + _) 0
    rw [lin_congr (fun i hi => ?_) j]
    have hv : Valid [n, m.latentSize] [b, i] := .cons hb (.cons hi .nil)
    show z.val [b, i] = _
    rw [v4 _ hv, v3 _ hv, (v b i).1, (v b i).2, s1]
  · show decide (S.uniform (S.keys 1) y.shape i < 1 / (1 + S.exp (-y.val i))) = _
    rw [s5, hexp]
    congr 2
    unfold prob
    rw [Real.exp_neg]
    have := Real.exp_pos (y.val i)
    field_simp
    ring
  · unfold Net.call
    rw [bind_eq e1]
    dsimp only
    rw [bind_eq e2, bind_eq e3, bind_eq e4]
    rfl

theorem prob_pos (l : ℝ) : 0 < prob l := div_pos (Real.exp_pos l) (by linarith [Real.exp_pos l])

theorem prob_lt (l : ℝ) : prob l < 1 := by
  unfold prob
  rw [div_lt_one (by linarith [Real.exp_pos l])]
  linarith

theorem pixel_pos (l x : ℝ) : 0 < (if x = 1 then prob l else 1 - prob l) := by
  split
  · exact prob_pos l
  · linarith [prob_lt l]

theorem likelihood_pos (N : Nat) (l x : Nat → ℝ) : 0 < likelihood N l x := Finset.prod_pos fun k _ => pixel_pos _ _

/-- The logarithm of the probability of a pixel. -/
theorem log_pixel {x : ℝ} (hx : x = 0 ∨ x = 1) (l : ℝ) : x * l - Real.log (Real.exp 0 + Real.exp l) = Real.log (if x = 1 then prob l else 1 - prob l) := by
  have hp := Real.exp_pos l
  rw [Real.exp_zero]
  rcases hx with rfl | rfl
  · rw [if_neg (by norm_num), zero_mul, zero_sub, ← Real.log_inv]
    congr 1
    unfold prob
    field_simp
    ring
  · rw [if_pos rfl, one_mul]
    unfold prob
    rw [Real.log_div (Real.exp_pos l).ne' (by linarith), Real.log_exp]

/-- The logarithm of the probability of an image. -/
theorem log_likelihood {N : Nat} {x : Nat → ℝ} (hx : ∀ k, k < N → x k = 0 ∨ x k = 1) (l : Nat → ℝ) :
    ∑ k ∈ Finset.range N, (x k * l k - Real.log (Real.exp 0 + Real.exp (l k))) = Real.log (likelihood N l x) := by
  unfold likelihood
  rw [Real.log_prod (fun k _ => (pixel_pos _ _).ne')]
  exact Finset.sum_congr rfl fun k hk => log_pixel (hx k (Finset.mem_range.mp hk)) _

/-! ### C157: the divergence -/

theorem kl_run {n d : Nat} {mean var : Arr ℝ} (hm : mean.shape = [n, d]) (hv : var.shape = [n, d]) :
    ∃ y, klGaussian Real.log mean var = .ok y ∧ y.shape = [n] ∧ ∀ b, b < n → y.val [b] = ∑ k ∈ Finset.range d, 1 / 2 * (-Real.log (var.val [b, k]) - 1 + var.val [b, k] + mean.val [b, k] ^ 2) := by
  obtain ⟨a, e1, s1, v1⟩ := zip_same (f := (· + ·)) (x := map (fun v => -Real.log v - 1 + v) var) (y := map (fun m => m ^ 2) mean) hv hm
  refine ⟨map (fun x => 1 / 2 * x) ⟨[n], fun i => ∑ k ∈ Finset.range d, a.val (i ++ [k])⟩, ?_, rfl, fun b hb => ?_⟩
  · unfold klGaussian sumLast
    rw [bind_eq e1, s1]
    rfl
  · show 1 / 2 * ∑ k ∈ Finset.range d, a.val ([b] ++ [k]) = _
    rw [Finset.mul_sum]
    refine Finset.sum_congr rfl fun k hk => ?_
    show 1 / 2 * a.val [b, k] = _
    rw [v1 _ (.cons hb (.cons (Finset.mem_range.mp hk) .nil))]
    rfl

/-- C157: for any batch of means and (nonzero) standard deviations, `kl_gaussian` returns for each example the Kullback-Leibler divergence (defined by integrals over measures) of the normal distribution with independent
entries of these means and deviations from the standard normal distribution. -/
theorem kl_gaussian {n d : Nat} {mean sd : Arr ℝ} (hm : mean.shape = [n, d]) (hs : sd.shape = [n, d]) (h0 : ∀ b k, b < n → k < d → sd.val [b, k] ≠ 0) :
    ∃ y, klGaussian Real.log mean (map (fun s => s ^ 2) sd) = .ok y ∧ y.shape = [n] ∧
      ∀ b, b < n → ENNReal.ofReal (y.val [b]) = klDiv (normals (row d (vec mean [b])) (row d (vec sd [b]))) (normals 0 1) ∧ 0 ≤ y.val [b] ∧
        (y.val [b] = 0 ↔ ∀ k, k < d → mean.val [b, k] = 0 ∧ sd.val [b, k] ^ 2 = 1) := by
  obtain ⟨y, e, s, v⟩ := kl_run (mean := mean) (var := map (fun s => s ^ 2) sd) hm hs
  refine ⟨y, e, s, fun b hb => ?_⟩
  have hterm : ∀ k, k < d → 0 ≤ 1 / 2 * (-Real.log (sd.val [b, k] ^ 2) - 1 + sd.val [b, k] ^ 2 + mean.val [b, k] ^ 2) ∧
      (1 / 2 * (-Real.log (sd.val [b, k] ^ 2) - 1 + sd.val [b, k] ^ 2 + mean.val [b, k] ^ 2) = 0 ↔ mean.val [b, k] = 0 ∧ sd.val [b, k] ^ 2 = 1) := by
    intro k hk
    have hp : 0 < sd.val [b, k] ^ 2 := pow_pos_of_ne (h0 b k hb hk)
    have hl := Real.log_le_sub_one_of_pos hp
    have hq := sq_nonneg (mean.val [b, k])
    refine ⟨by linarith, fun h => ?_, fun h => ?_⟩
    · have h1 : mean.val [b, k] ^ 2 = 0 := by linarith
      refine ⟨by simpa using h1, ?_⟩
      by_contra hne
      have := Real.log_lt_sub_one_of_pos hp hne
      linarith
    · rw [h.1, h.2]
      simp
  have hv : y.val [b] = ∑ k ∈ Finset.range d, 1 / 2 * (-Real.log (sd.val [b, k] ^ 2) - 1 + sd.val [b, k] ^ 2 + mean.val [b, k] ^ 2) := v b hb
  refine ⟨?_, ?_, ?_⟩
  · rw [kl_normals (row d (vec mean [b])) (row d (vec sd [b])) (fun i => h0 b i hb i.2), hv, Finset.sum_range]
    rfl
  · rw [hv]
    exact Finset.sum_nonneg fun k hk => (hterm k (Finset.mem_range.mp hk)).1
  · rw [hv, Finset.sum_eq_zero_iff_of_nonneg fun k hk => (hterm k (Finset.mem_range.mp hk)).1]
    exact ⟨fun h k hk => (hterm k hk).2.mp (h k (Finset.mem_range.mpr hk)), fun h k hk => (hterm k (Finset.mem_range.mp hk)).2.mpr (h k (Finset.mem_range.mp hk))⟩
where
  pow_pos_of_ne {a : ℝ} (h : a ≠ 0) : 0 < a ^ 2 := by positivity

/-- Two examples with two entries each. -/
example : ∃ y, klGaussian Real.log (⟨[2, 2], fun i => i.getD 0 0⟩ : Arr ℝ) (map (fun s => s ^ 2) ⟨[2, 2], fun i => 1 + i.getD 0 0⟩) = .ok y ∧ y.val [0] = 0 ∧ 0 < y.val [1] := by
  obtain ⟨y, h1, h2, h3⟩ := kl_gaussian (n := 2) (d := 2) (mean := ⟨[2, 2], fun i => i.getD 0 0⟩) (sd := ⟨[2, 2], fun i => 1 + i.getD 0 0⟩) rfl rfl (fun b k _ _ => by
    show (1 + (b : ℝ)) ≠ 0
    positivity)
  refine ⟨y, h1, (h3 0 (by decide)).2.2.mpr fun k _ => by simp, lt_of_le_of_ne (h3 1 (by decide)).2.1 fun h => ?_⟩
  have := ((h3 1 (by decide)).2.2.mp h.symm 0 (by decide)).1
  simp at this

/-! ### C158: the cross entropy -/

/-- C158: with logits of another shape than the input's `binary_cross_entropy` raises `ValueError`, for scalars `IndexError`, and otherwise it returns for each example the negative logarithm of the probability that
independent Bernoulli variables with these log-odds give exactly the pixels of the example, if they all are 0 or 1. -/
theorem binary_cross_entropy (x logits : Arr ℝ) :
    (x.shape ≠ logits.shape → binaryCrossEntropy Real.exp Real.log x logits = .error .value) ∧
    (x.shape = [] → logits.shape = [] → binaryCrossEntropy Real.exp Real.log x logits = .error .index) ∧
    ∀ n s, x.shape = n :: s → logits.shape = n :: s → ∃ y, binaryCrossEntropy Real.exp Real.log x logits = .ok y ∧ y.shape = [n] ∧
      ∀ b, (∀ k, k < size s → pixels x s b k = 0 ∨ pixels x s b k = 1) →
        Real.exp (-y.val [b]) = likelihood (size s) (pixels logits s b) (pixels x s b) ∧ 0 ≤ y.val [b] ∧ (size s ≠ 0 → 0 < y.val [b]) := by
  refine ⟨fun h => ?_, fun h1 h2 => ?_, fun n s h1 h2 => ?_⟩
  · unfold binaryCrossEntropy
    rw [if_pos h]
  · unfold binaryCrossEntropy
    rw [if_neg (fun h => h (h1.trans h2.symm)), h1]
  · refine ⟨⟨[n], fun i => -∑ k ∈ Finset.range (size s), (x.val (i.getD 0 0 :: unravel s k) * logits.val (i.getD 0 0 :: unravel s k)
        - Real.log (Real.exp 0 + Real.exp (logits.val (i.getD 0 0 :: unravel s k))))⟩, ?_, rfl, fun b hb => ?_⟩
    · unfold binaryCrossEntropy
      rw [if_neg (fun h => h (h1.trans h2.symm)), h1]
    · have hy := log_likelihood hb (pixels logits s b)
      show Real.exp (-(-∑ k ∈ Finset.range (size s), (pixels x s b k * pixels logits s b k - Real.log (Real.exp 0 + Real.exp (pixels logits s b k))))) = _ ∧
        0 ≤ (-∑ k ∈ Finset.range (size s), (pixels x s b k * pixels logits s b k - Real.log (Real.exp 0 + Real.exp (pixels logits s b k)))) ∧
        (_ → 0 < (-∑ k ∈ Finset.range (size s), (pixels x s b k * pixels logits s b k - Real.log (Real.exp 0 + Real.exp (pixels logits s b k)))))
      have hp := likelihood_pos (size s) (pixels logits s b) (pixels x s b)
      rw [hy, neg_neg, Real.exp_log hp]
      have hpix : ∀ k, (if pixels x s b k = 1 then prob (pixels logits s b k) else 1 - prob (pixels logits s b k)) < 1 := by
        intro k
        split
        · exact prob_lt _
        · linarith [prob_pos (pixels logits s b k)]
      have hle : likelihood (size s) (pixels logits s b) (pixels x s b) ≤ 1 := Finset.prod_le_one (fun k _ => (pixel_pos _ _).le) (fun k _ => (hpix k).le)
      refine ⟨rfl, ?_, fun hz => ?_⟩
      · have := Real.log_nonpos hp.le hle
        linarith
      · have : likelihood (size s) (pixels logits s b) (pixels x s b) < 1 := by
          unfold likelihood
          have := Finset.prod_lt_prod (s := Finset.range (size s)) (g := fun _ => (1 : ℝ)) (fun k _ => pixel_pos (pixels logits s b k) (pixels x s b k)) (fun k _ => (hpix k).le)
            ⟨0, Finset.mem_range.mpr (Nat.pos_of_ne_zero hz), hpix 0⟩
          simpa using this
        have := Real.log_neg hp this
        linarith

/-- One image of two by one pixels. -/
example : ∃ y, binaryCrossEntropy Real.exp Real.log (⟨[1, 2, 1], fun i => i.getD 1 0⟩ : Arr ℝ) ⟨[1, 2, 1], fun _ => 0⟩ = .ok y ∧ Real.exp (-y.val [0]) = 1 / 4 := by
  obtain ⟨y, h1, _, h3⟩ := (binary_cross_entropy (⟨[1, 2, 1], fun i => i.getD 1 0⟩ : Arr ℝ) ⟨[1, 2, 1], fun _ => 0⟩).2.2 1 [2, 1] rfl rfl
  refine ⟨y, h1, ?_⟩
  rw [(h3 0 fun k hk => by
    have hk : k < 2 := hk
    interval_cases k
    · exact .inl (by simp [pixels, Verif.Nd.unravel, size])
    · exact .inr (by simp [pixels, Verif.Nd.unravel, size])).1]
  show (∏ k ∈ Finset.range 2, _) = _
  rw [Finset.prod_range_succ, Finset.prod_range_one, if_neg (by simp [pixels, Verif.Nd.unravel, size]), if_pos (by simp [pixels, Verif.Nd.unravel, size])]
  simp [pixels, prob]
  norm_num

/-! ### C159: the loss -/

/-- The code of image `b`: its mean plus the deviation times the noise. -/
noncomputable def Weights.code (W : Weights) (m : Net) (x : Nat → ℝ) (e : Nat → ℝ) : Nat → ℝ := fun j => W.mean m x j + W.sd m x j * e j

/-- C159: for a batch of binary images and parameters of the right shapes, whatever the noise, the loss is the average over the images of the negative log-probability of the image given its code plus the divergence of the
distribution of its code from the standard normal distribution; it is not negative. -/
theorem loss_value {S : Setting ℝ} {m : Net} {W : Weights} (hW : W.Of S.get m) (hexp : S.exp = Real.exp) (hlog : S.log = Real.log) {x : Arr ℝ} {n : Nat} (hx : x.shape = n :: m.outputShape)
    (hs : m.outputShape ≠ []) (h0 : size m.outputShape ≠ 0) (hbin : ∀ b, b < n → ∀ k, k < size m.outputShape → pixels x m.outputShape b k = 0 ∨ pixels x m.outputShape b k = 1) :
    ∃ v, lossFn S m x = .ok v ∧ 0 ≤ v ∧ v = (∑ b ∈ Finset.range n,
      (-Real.log (likelihood (size m.outputShape) (W.logit m (W.code m (pixels x m.outputShape b) fun j => S.normal (S.keys 0) [n, m.latentSize] [b, j])) (pixels x m.outputShape b)) +
        (klDiv (normals (row m.latentSize (W.mean m (pixels x m.outputShape b))) (row m.latentSize (W.sd m (pixels x m.outputShape b)))) (normals 0 1)).toReal)) / n := by
  obtain ⟨o, e1, s1, s2, s3, v1, v2, -, -⟩ := call_run hW hexp hx hs h0
  obtain ⟨bce, e2, s4, v4⟩ := (binary_cross_entropy x o.logits).2.2 n _ hx s3
  obtain ⟨kl, e3, s5, v5⟩ := kl_gaussian s1 s2 (fun b k _ _ => by rw [(v1 b k).2]; exact (Real.exp_pos _).ne')
  obtain ⟨el, e4, s6, v6⟩ := zip_same (f := (· - ·)) (x := map (fun v => -v) bce) (y := kl) s4 s5
  have hrow : ∀ b, b < n → -el.val [b] =
      (-Real.log (likelihood (size m.outputShape) (W.logit m (W.code m (pixels x m.outputShape b) fun j => S.normal (S.keys 0) [n, m.latentSize] [b, j])) (pixels x m.outputShape b)) +
        (klDiv (normals (row m.latentSize (W.mean m (pixels x m.outputShape b))) (row m.latentSize (W.sd m (pixels x m.outputShape b)))) (normals 0 1)).toReal) ∧ 0 ≤ -el.val [b] := by
    intro b hb
    obtain ⟨p1, p2, -⟩ := v4 b (hbin b hb)
    obtain ⟨k1, k2, -⟩ := v5 b hb
    have hm : row m.latentSize (vec o.mean [b]) = row m.latentSize (W.mean m (pixels x m.outputShape b)) := funext fun i => (v1 b i).1
    have hd : row m.latentSize (vec o.stddev [b]) = row m.latentSize (W.sd m (pixels x m.outputShape b)) := funext fun i => (v1 b i).2
    rw [hm, hd] at k1
    rw [v6 [b] (.cons hb .nil), ← k1, ENNReal.toReal_ofReal k2]
    show -(-bce.val [b] - kl.val [b]) = _ ∧ 0 ≤ -(-bce.val [b] - kl.val [b])
    have hl : likelihood (size m.outputShape) (pixels o.logits m.outputShape b) (pixels x m.outputShape b) =
        likelihood (size m.outputShape) (W.logit m (W.code m (pixels x m.outputShape b) fun j => S.normal (S.keys 0) [n, m.latentSize] [b, j])) (pixels x m.outputShape b) :=
      Finset.prod_congr rfl fun k hk => by rw [v2 b hb k (Finset.mem_range.mp hk)]; rfl
    rw [hl] at p1
    rw [← p1, Real.log_exp]
    exact ⟨by ring, by linarith⟩
  have hv : -meanVec el = (∑ b ∈ Finset.range n, -el.val [b]) / n := by
    unfold meanVec
    rw [s6]
    show -((∑ k ∈ Finset.range n, el.val [k]) / (n : ℝ)) = _
    rw [Finset.sum_neg_distrib, neg_div]
  refine ⟨-meanVec el, ?_, ?_, ?_⟩
  · unfold lossFn
    rw [bind_eq e1, hexp, hlog, bind_eq e2]
    dsimp only
    rw [bind_eq e3, bind_eq e4]
  · rw [hv]
    exact div_nonneg (Finset.sum_nonneg fun b hb => (hrow b (Finset.mem_range.mp hb)).2) (Nat.cast_nonneg n)
  · rw [hv]
    congr 1
    exact Finset.sum_congr rfl fun b hb => (hrow b (Finset.mem_range.mp hb)).1

/-- C159: the loss of anything but a batch of images of the shape the network makes is an exception. -/
theorem loss_shape {S : Setting ℝ} {m : Net} {x : Arr ℝ} {v : ℝ} (h : lossFn S m x = .ok v) : ∃ n, x.shape = n :: m.outputShape := by
  unfold lossFn at h
  obtain ⟨o, ho, h⟩ := Verif.Props.Conv.bind_ok h
  obtain ⟨c, hc, h⟩ := Verif.Props.Conv.bind_ok h
  have hsh : x.shape = o.logits.shape := by
    by_contra hne
    unfold binaryCrossEntropy at hc
    rw [if_pos hne] at hc
    cases hc
  rw [hsh]
  unfold Net.call at ho
  obtain ⟨⟨a, b⟩, _, ho⟩ := Verif.Props.Conv.bind_ok ho
  dsimp only at ho
  obtain ⟨z1, _, ho⟩ := Verif.Props.Conv.bind_ok ho
  obtain ⟨z2, _, ho⟩ := Verif.Props.Conv.bind_ok ho
  obtain ⟨y, hy, ho⟩ := Verif.Props.Conv.bind_ok ho
  cases ho
  show ∃ n, y.shape = _
  unfold decoder at hy
  obtain ⟨⟨t1, _⟩, _, hy⟩ := Verif.Props.Conv.bind_ok hy
  dsimp only at hy
  obtain ⟨⟨t2, _⟩, _, hy⟩ := Verif.Props.Conv.bind_ok hy
  unfold reshapeLead at hy
  dsimp only at hy
  by_cases hc' : size m.outputShape = 0 ∨ size t2.shape % size m.outputShape ≠ 0
  · rw [if_pos hc'] at hy
    cases hy
  · rw [if_neg hc'] at hy
    cases hy
    exact ⟨_, rfl⟩

/-- C159: the image that the network draws: for each pixel the uniform numbers that make it white have as measure the probability of white given the code. -/
theorem image_drawn {S : Setting ℝ} {m : Net} {W : Weights} (hW : W.Of S.get m) (hexp : S.exp = Real.exp) {x : Arr ℝ} {n : Nat} (hx : x.shape = n :: m.outputShape) (hs : m.outputShape ≠ [])
    (h0 : size m.outputShape ≠ 0) :
    ∃ o, m.call S x = .ok o ∧ o.image.shape = n :: m.outputShape ∧ ∀ b, b < n → ∀ k, k < size m.outputShape → ∃ p,
      p = prob (W.logit m (W.code m (pixels x m.outputShape b) fun j => S.normal (S.keys 0) [n, m.latentSize] [b, j]) k) ∧
      (o.image.val (b :: unravel m.outputShape k) = true ↔ S.uniform (S.keys 1) (n :: m.outputShape) (b :: unravel m.outputShape k) < p) ∧
      volume {u : ℝ | 0 ≤ u ∧ u < 1 ∧ u < p} = ENNReal.ofReal p := by
  obtain ⟨o, e1, s1, s2, s3, v1, v2, si, vi⟩ := call_run hW hexp hx hs h0
  refine ⟨o, e1, si, fun b hb k hk => ⟨_, rfl, ?_, ?_⟩⟩
  · rw [vi, decide_eq_true_iff, show o.logits.val (b :: unravel m.outputShape k) = pixels o.logits m.outputShape b k from rfl, v2 b hb k hk]
    rfl
  · set p := prob _
    have hp : p < 1 := prob_lt _
    rw [show {u : ℝ | 0 ≤ u ∧ u < 1 ∧ u < p} = Set.Ico 0 p from Set.ext fun u => ⟨fun h => ⟨h.1, h.2.2⟩, fun h => ⟨h.1, h.2.trans hp, h.2⟩⟩, Real.volume_Ico, sub_zero]

/-- The same setting with these numbers from `jax.random.normal`. -/
def withNoise (S : Setting ℝ) (n d : Nat) (e : Fin n → Fin d → ℝ) : Setting ℝ :=
  { S with normal := fun _ _ i => if h : i.getD 0 0 < n ∧ i.getD 1 0 < d then e ⟨_, h.1⟩ ⟨_, h.2⟩ else 0 }

theorem logit_congr (W : Weights) (m : Net) {z z' : Nat → ℝ} (h : ∀ j, j < m.latentSize → z j = z' j) : W.logit m z = W.logit m z' := by
  funext k
  unfold Weights.logit
  congr 1
  refine lin_congr (fun j _ => ?_) k
  unfold hidden
  rw [lin_congr h j]

/-- At most linear growth. -/
def Grows {d : Nat} (f : (Fin d → ℝ) → ℝ) : Prop := ∃ a b, ∀ z, |f z| ≤ a + b * ∑ i, |z i|

theorem Grows.const {d : Nat} (c : ℝ) : Grows fun _ : Fin d → ℝ => c := ⟨|c|, 0, fun z => by simp⟩

theorem Grows.of_le {d : Nat} {f g : (Fin d → ℝ) → ℝ} (hg : Grows g) (h : ∀ z, |f z| ≤ |g z|) : Grows f := by
  obtain ⟨a, b, hab⟩ := hg
  exact ⟨a, b, fun z => (h z).trans (hab z)⟩

theorem Grows.add {d : Nat} {f g : (Fin d → ℝ) → ℝ} (hf : Grows f) (hg : Grows g) : Grows fun z => f z + g z := by
  obtain ⟨a, b, h⟩ := hf
  obtain ⟨a', b', h'⟩ := hg
  refine ⟨a + a', b + b', fun z => ?_⟩
  have := abs_add_le (f z) (g z)
  have := h z
  have := h' z
  rw [add_mul]
  linarith

theorem Grows.mul {d : Nat} {f : (Fin d → ℝ) → ℝ} (hf : Grows f) (c : ℝ) : Grows fun z => f z * c := by
  obtain ⟨a, b, h⟩ := hf
  refine ⟨a * |c|, b * |c|, fun z => ?_⟩
  rw [abs_mul]
  have := mul_le_mul_of_nonneg_right (h z) (abs_nonneg c)
  linarith

theorem Grows.sum {d : Nat} {f : Nat → (Fin d → ℝ) → ℝ} (n : Nat) (hf : ∀ k, Grows (f k)) : Grows fun z => ∑ k ∈ Finset.range n, f k z := by
  induction n with
  | zero => simpa using Grows.const 0
  | succ n ih => simpa only [Finset.sum_range_succ] using ih.add (hf n)

theorem Grows.abs {d : Nat} {f : (Fin d → ℝ) → ℝ} (hf : Grows f) : Grows fun z => |f z| := hf.of_le fun z => by rw [abs_abs]

theorem Grows.pad {d : Nat} (k : Nat) : Grows fun z : Fin d → ℝ => pad z k := by
  refine ⟨0, 1, fun z => ?_⟩
  unfold Vae.pad
  rw [zero_add, one_mul]
  split
  · rename_i h
    exact Finset.single_le_sum (f := fun i => |z i|) (fun i _ => abs_nonneg _) (Finset.mem_univ _)
  · rw [abs_zero]
    exact Finset.sum_nonneg fun i _ => abs_nonneg _

theorem pad_continuous {d : Nat} (k : Nat) : Continuous fun z : Fin d → ℝ => pad z k := by
  unfold pad
  split
  · exact continuous_apply _
  · exact continuous_const

theorem lin_grows {d n : Nat} {w : Arr ℝ} {f : (Fin d → ℝ) → Nat → ℝ} (hf : ∀ k, Grows fun z => f z k) (j : Nat) : Grows fun z => lin n w 0 (f z) j := by
  unfold lin
  exact Grows.sum n fun k => (hf k).mul _

theorem lin_continuous {d n : Nat} {w : Arr ℝ} {f : (Fin d → ℝ) → Nat → ℝ} (hf : ∀ k, Continuous fun z => f z k) (j : Nat) : Continuous fun z => lin n w 0 (f z) j := by
  unfold lin
  exact continuous_finsetSum _ fun k _ => (hf k).mul continuous_const

theorem logit_grows (W : Weights) (m : Net) (k : Nat) : Grows fun z : Fin m.latentSize → ℝ => W.logit m (pad z) k := by
  unfold Weights.logit
  refine Grows.add (lin_grows (fun j => ?_) k) (Grows.const _)
  refine Grows.of_le (Grows.add (lin_grows (n := m.latentSize) (w := W.v0) (fun i => Grows.pad i) j) (Grows.const (W.c0.val [j]))) fun z => ?_
  unfold hidden
  rw [abs_of_nonneg (le_max_right _ _)]
  exact max_le (le_abs_self _) (abs_nonneg _)

theorem logit_continuous (W : Weights) (m : Net) (k : Nat) : Continuous fun z : Fin m.latentSize → ℝ => W.logit m (pad z) k := by
  unfold Weights.logit
  refine Continuous.add (lin_continuous (fun j => ?_) k) continuous_const
  unfold hidden
  exact ((lin_continuous (fun i => pad_continuous i) j).add continuous_const).max continuous_const

theorem log_pixel_le (l x : ℝ) : |Real.log (if x = 1 then prob l else 1 - prob l)| ≤ |Real.log 2 + abs l| := by
  have hp := Real.exp_pos l
  have key : ∀ t : ℝ, Real.log (1 + Real.exp t) ≤ Real.log 2 + |t| := by
    intro t
    rw [← Real.log_exp (|t|), ← Real.log_mul (by norm_num) (Real.exp_pos _).ne']
    refine Real.log_le_log (by linarith [Real.exp_pos t]) ?_
    have h1 : Real.exp t ≤ Real.exp |t| := Real.exp_le_exp.mpr (le_abs_self t)
    have h2 : 1 ≤ Real.exp |t| := Real.one_le_exp (abs_nonneg t)
    linarith
  have hl2 : 0 ≤ Real.log 2 := Real.log_nonneg (by norm_num)
  rw [abs_of_nonneg (add_nonneg hl2 (abs_nonneg l))]
  split
  · rw [abs_of_nonpos (Real.log_nonpos (prob_pos l).le (prob_lt l).le), ← Real.log_inv]
    rw [show (prob l)⁻¹ = 1 + Real.exp (-l) by unfold prob; rw [Real.exp_neg]; field_simp; ring]
    simpa using key (-l)
  · rw [abs_of_nonpos (Real.log_nonpos (by linarith [prob_lt l]) (by linarith [prob_pos l])), ← Real.log_inv]
    rw [show (1 - prob l)⁻¹ = 1 + Real.exp l by unfold prob; field_simp; ring]
    exact key l

theorem loglik_grows (W : Weights) (m : Net) (N : Nat) (x : Nat → ℝ) : Grows fun z : Fin m.latentSize → ℝ => Real.log (likelihood N (W.logit m (pad z)) x) := by
  unfold likelihood
  simp only [Real.log_prod (fun k _ => (pixel_pos _ _).ne')]
  exact Grows.sum N fun k => Grows.of_le ((Grows.const (Real.log 2)).add (logit_grows W m k).abs) fun z => log_pixel_le _ _

theorem likelihood_continuous (W : Weights) (m : Net) (N : Nat) (x : Nat → ℝ) : Continuous fun z : Fin m.latentSize → ℝ => likelihood N (W.logit m (pad z)) x := by
  unfold likelihood
  have hp : ∀ k, Continuous fun z : Fin m.latentSize → ℝ => prob (W.logit m (pad z) k) := by
    intro k
    have he := Real.continuous_exp.comp (logit_continuous W m k)
    exact he.div (continuous_const.add he) fun z => by
      have := Real.exp_pos (W.logit m (pad z) k)
      show 1 + Real.exp _ ≠ 0
      positivity
  refine continuous_finsetProd _ fun k _ => ?_
  split
  · exact hp k
  · exact continuous_const.sub (hp k)

theorem loglik_measurable (W : Weights) (m : Net) (N : Nat) (x : Nat → ℝ) : Measurable fun z : Fin m.latentSize → ℝ => Real.log (likelihood N (W.logit m (pad z)) x) :=
  Real.measurable_log.comp (likelihood_continuous W m N x).measurable

/-- For one image: the expected log-probability minus the divergence is at most the logarithm of the probability of the image. -/
theorem bound_one (W : Weights) (m : Net) (N : Nat) (x : Nat → ℝ) :
    ∫ z, Real.log (likelihood N (W.logit m (pad z)) x) ∂(normals (row m.latentSize (W.mean m x)) (row m.latentSize (W.sd m x))) -
      (klDiv (normals (row m.latentSize (W.mean m x)) (row m.latentSize (W.sd m x))) (normals 0 1)).toReal ≤
    Real.log (∫ z : Fin m.latentSize → ℝ, likelihood N (W.logit m (pad z)) x ∂(normals 0 1)) := by
  have hsd : ∀ i, row m.latentSize (W.sd m x) i ≠ 0 := fun i => (Real.exp_pos _).ne'
  obtain ⟨a, b, hg⟩ := loglik_grows W m N x
  have h := evidence_bound (normals (row m.latentSize (W.mean m x)) (row m.latentSize (W.sd m x))) (normals 0 1) (by rw [kl_normals _ _ hsd]; exact ENNReal.ofReal_ne_top)
    (fun z => Real.log (likelihood N (W.logit m (pad z)) x)) (integrable_growth _ _ _ (loglik_measurable W m N x) a b hg) (by
      simp only [Real.exp_log (likelihood_pos _ _ _)]
      refine Integrable.of_bound (C := 1) (likelihood_continuous W m N x).measurable.aestronglyMeasurable (Filter.Eventually.of_forall fun z => ?_)
      rw [Real.norm_eq_abs, abs_of_pos (likelihood_pos _ _ _)]
      refine Finset.prod_le_one (fun k _ => (pixel_pos _ _).le) fun k _ => ?_
      split
      · exact (prob_lt _).le
      · linarith [prob_pos (W.logit m (pad z) k)])
  simpa only [Real.exp_log (likelihood_pos _ _ _)] using h

/-- Averages over independent standard normal noise of sums with a term for each row. -/
theorem noise_average {n d : Nat} (F : Fin n → (Fin d → ℝ) → ℝ) (hF : ∀ b, Measurable (F b)) (mu sg : Fin n → Fin d → ℝ) (hint : ∀ b, Integrable (F b) (normals (mu b) (sg b))) (D : Fin n → ℝ) :
    Integrable (fun e : Fin n → Fin d → ℝ => (∑ b, (-F b (fun i => mu b i + sg b i * e b i) + D b)) / n) (Measure.pi fun _ => normals 0 1) ∧
    ∫ e : Fin n → Fin d → ℝ, (∑ b, (-F b (fun i => mu b i + sg b i * e b i) + D b)) / n ∂(Measure.pi fun _ => normals 0 1) = (∑ b, (-(∫ z, F b z ∂(normals (mu b) (sg b))) + D b)) / n := by
  have hmeas : ∀ b, Measurable fun e : Fin d → ℝ => fun i => mu b i + sg b i * e i := fun b => by fun_prop
  have hint1 : ∀ b, Integrable (fun e : Fin d → ℝ => F b (fun i => mu b i + sg b i * e i)) (normals 0 1) := fun b => by
    have h := hint b
    rw [← normals_map] at h
    exact h.comp_measurable (hmeas b)
  have heq1 : ∀ b, ∫ e, F b (fun i => mu b i + sg b i * e i) ∂(normals 0 1) = ∫ z, F b z ∂(normals (mu b) (sg b)) := fun b => by
    rw [← normals_map (mu b) (sg b), integral_map (hmeas b).aemeasurable (hF b).aestronglyMeasurable]
  have hpres : ∀ b : Fin n, MeasurePreserving (fun e : Fin n → Fin d → ℝ => e b) (Measure.pi fun _ => normals 0 1) (normals 0 1) := fun b => measurePreserving_eval _ b
  have hint2 : ∀ b : Fin n, Integrable (fun e : Fin n → Fin d → ℝ => F b (fun i => mu b i + sg b i * e b i)) (Measure.pi fun _ => normals 0 1) := fun b =>
    (hpres b).integrable_comp_of_integrable (hint1 b)
  have heq2 : ∀ b : Fin n, ∫ e : Fin n → Fin d → ℝ, F b (fun i => mu b i + sg b i * e b i) ∂(Measure.pi fun _ => normals 0 1) = ∫ z, F b z ∂(normals (mu b) (sg b)) := fun b => by
    have h := integral_map (μ := Measure.pi fun _ : Fin n => normals (n := d) 0 1) (hpres b).measurable.aemeasurable (f := fun e : Fin d → ℝ => F b (fun i => mu b i + sg b i * e i)) ((hF b).comp (hmeas b)).aestronglyMeasurable
    rw [(hpres b).map_eq, heq1 b] at h
    exact h.symm
  have hterm : ∀ b : Fin n, Integrable (fun e : Fin n → Fin d → ℝ => -F b (fun i => mu b i + sg b i * e b i) + D b) (Measure.pi fun _ => normals 0 1) := fun b => (hint2 b).neg.add (integrable_const _)
  have hval : ∀ b : Fin n, ∫ e : Fin n → Fin d → ℝ, (-F b (fun i => mu b i + sg b i * e b i) + D b) ∂(Measure.pi fun _ => normals 0 1) = -(∫ z, F b z ∂(normals (mu b) (sg b))) + D b := fun b => by
    have h := integral_add (hint2 b).neg (integrable_const (μ := Measure.pi fun _ : Fin n => normals (n := d) 0 1) (D b))
    have h2 : ∫ e : Fin n → Fin d → ℝ, D b ∂(Measure.pi fun _ => normals 0 1) = D b := by simp
    have h3 : ∫ e : Fin n → Fin d → ℝ, -F b (fun i => mu b i + sg b i * e b i) ∂(Measure.pi fun _ => normals 0 1) = -(∫ z, F b z ∂(normals (mu b) (sg b))) := by
      rw [integral_neg, heq2 b]
    rw [h2] at h
    rw [← h3]
    exact h
  refine ⟨(integrable_finsetSum _ fun b _ => hterm b).div_const _, ?_⟩
  rw [integral_div, integral_finsetSum _ fun b _ => hterm b, Finset.sum_congr rfl fun b _ => hval b]

/-- C159: the evidence bound: averaged over independent standard normal noise, the loss is at least the average over the images of minus the logarithm of the probability that the decoder, given a standard normal code, makes the
image.  So `-loss` is on average a lower bound of the log-likelihood of the data, for all parameters of encoder and decoder. -/
theorem evidence_lower_bound {S : Setting ℝ} {m : Net} {W : Weights} (hW : W.Of S.get m) (hexp : S.exp = Real.exp) (hlog : S.log = Real.log) {x : Arr ℝ} {n : Nat} (hx : x.shape = n :: m.outputShape)
    (hs : m.outputShape ≠ []) (h0 : size m.outputShape ≠ 0) (hbin : ∀ b, b < n → ∀ k, k < size m.outputShape → pixels x m.outputShape b k = 0 ∨ pixels x m.outputShape b k = 1) :
    ∃ loss : (Fin n → Fin m.latentSize → ℝ) → ℝ, (∀ e, lossFn (withNoise S n m.latentSize e) m x = .ok (loss e)) ∧ Integrable loss (Measure.pi fun _ => normals 0 1) ∧
      (∑ b ∈ Finset.range n, -Real.log (∫ z : Fin m.latentSize → ℝ, likelihood (size m.outputShape) (W.logit m (pad z)) (pixels x m.outputShape b) ∂(normals 0 1))) / n ≤
        ∫ e, loss e ∂(Measure.pi fun _ => normals 0 1) := by
  obtain ⟨h1, h2⟩ := noise_average (n := n) (d := m.latentSize) (fun b z => Real.log (likelihood (size m.outputShape) (W.logit m (pad z)) (pixels x m.outputShape b))) (fun b => loglik_measurable W m _ _)
    (fun b => row m.latentSize (W.mean m (pixels x m.outputShape b))) (fun b => row m.latentSize (W.sd m (pixels x m.outputShape b)))
    (fun b => by
      obtain ⟨a, c, hg⟩ := loglik_grows W m (size m.outputShape) (pixels x m.outputShape b)
      exact integrable_growth _ _ _ (loglik_measurable W m _ _) a c hg)
    (fun b => (klDiv (normals (row m.latentSize (W.mean m (pixels x m.outputShape b))) (row m.latentSize (W.sd m (pixels x m.outputShape b)))) (normals 0 1)).toReal)
  refine ⟨_, fun e => ?_, h1, ?_⟩
  · obtain ⟨v, h1, -, h3⟩ := loss_value (S := withNoise S n m.latentSize e) (m := m) (W := W) hW hexp hlog hx hs h0 hbin
    rw [h1, h3, Finset.sum_range]
    refine congrArg Except.ok (congrArg (· / (n : ℝ)) (Finset.sum_congr rfl fun b _ => ?_))
    rw [logit_congr W m (z' := pad fun i => row m.latentSize (W.mean m (pixels x m.outputShape b)) i + row m.latentSize (W.sd m (pixels x m.outputShape b)) i * e b i) fun j hj => ?_]
    show W.mean m _ j + W.sd m _ j * (if h : [(b : Nat), j].getD 0 0 < n ∧ [(b : Nat), j].getD 1 0 < m.latentSize then e ⟨_, h.1⟩ ⟨_, h.2⟩ else 0) = pad _ j
    unfold pad
    rw [dif_pos ⟨b.2, hj⟩, dif_pos hj]
    rfl
  · rw [h2, Finset.sum_range]
    refine div_le_div_of_nonneg_right (Finset.sum_le_sum fun b _ => ?_) (Nat.cast_nonneg n)
    have := bound_one W m (size m.outputShape) (pixels x m.outputShape b)
    linarith

/-- A setting in which all parameters are 1. -/
noncomputable def demo : Setting ℝ := ⟨fun _ _ s => .ok ⟨s, fun _ => 1⟩, Real.exp, Real.log, fun _ _ _ => 1 / 2, fun _ _ _ => 1 / 3, Key.child (.root 42) 3⟩

/-- A network for images of two by one pixels, with three hidden units and two latent variables. -/
def demoNet : Net := ⟨"vae", 3, 2, [2, 1]⟩

/-- All weights and biases are 1. -/
noncomputable def demoWeights : Weights :=
  ⟨⟨[2, 3], fun _ => 1⟩, ⟨[3], fun _ => 1⟩, ⟨[3, 2], fun _ => 1⟩, ⟨[2], fun _ => 1⟩, ⟨[3, 2], fun _ => 1⟩, ⟨[2], fun _ => 1⟩, ⟨[2, 3], fun _ => 1⟩, ⟨[3], fun _ => 1⟩, ⟨[3, 2], fun _ => 1⟩, ⟨[2], fun _ => 1⟩⟩

theorem demo_of : demoWeights.Of demo.get demoNet := ⟨⟨rfl, rfl⟩, ⟨rfl, rfl⟩, ⟨rfl, rfl⟩, ⟨rfl, rfl⟩, ⟨rfl, rfl⟩, ⟨rfl, rfl⟩, ⟨rfl, rfl⟩, ⟨rfl, rfl⟩, ⟨rfl, rfl⟩, ⟨rfl, rfl⟩⟩

/-- A batch of two images: a black one and one with a white pixel. -/
def demoBatch : Arr ℝ := ⟨[2, 2, 1], fun i => if i = [1, 0, 0] then 1 else 0⟩

theorem demo_binary : ∀ b, b < 2 → ∀ k, k < size demoNet.outputShape → pixels demoBatch demoNet.outputShape b k = 0 ∨ pixels demoBatch demoNet.outputShape b k = 1 := by
  intro b _ k _
  unfold pixels demoBatch
  dsimp only
  split
  · exact .inr rfl
  · exact .inl rfl

/-- The loss of the batch. -/
example : ∃ v, lossFn demo demoNet demoBatch = .ok v ∧ 0 ≤ v := by
  obtain ⟨v, h1, h2, _⟩ := loss_value demo_of rfl rfl (x := demoBatch) (n := 2) rfl (by decide) (by decide) demo_binary
  exact ⟨v, h1, h2⟩

/-- The loss of the same images without their last axis is an exception. -/
example (v : ℝ) : lossFn demo demoNet ⟨[2, 2], fun i => demoBatch.val (i ++ [0])⟩ ≠ .ok v := by
  intro h
  obtain ⟨n, hn⟩ := loss_shape h
  cases hn

/-- The images drawn for the batch. -/
example : ∃ o, demoNet.call demo demoBatch = .ok o ∧ o.image.shape = [2, 2, 1] := by
  obtain ⟨o, h1, h2, _⟩ := image_drawn demo_of rfl (x := demoBatch) (n := 2) rfl (by decide) (by decide)
  exact ⟨o, h1, h2⟩

/-- The bound for the batch. -/
example : ∃ loss : (Fin 2 → Fin 2 → ℝ) → ℝ, (∀ e, lossFn (withNoise demo 2 2 e) demoNet demoBatch = .ok (loss e)) ∧ Integrable loss (Measure.pi fun _ => normals 0 1) := by
  obtain ⟨loss, h1, h2, _⟩ := evidence_lower_bound demo_of rfl rfl (x := demoBatch) (n := 2) rfl (by decide) (by decide) demo_binary
  exact ⟨loss, h1, h2⟩

end Verif.Props.Vae
