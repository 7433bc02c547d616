import Verif.Lemmas.Stage
import Verif.Props.Depthwise
import Mathlib.Algebra.BigOperators.Intervals

/-!
# What layers compute on batches of pictures

The elements of the result of a layer, as a formula in the elements of its input.
-/

set_option linter.unusedVariables false
set_option linter.unusedSectionVars false

namespace Verif.Picture
open Verif.Shapes (Err)
open Verif.Pool (Arr)
open Verif.Conv (indices stringPad outSize outSizes Image tap inside dilate)
open Verif.Mlp (ParamFn getParameter Linear)
open Verif.Props.Reset (Valid mem_indices)
open Verif.Props.Norm
open Verif.Props.Cores (Has)
open Verif.Recurrent (project)
open Verif.Nd
open Verif.Norm
open Verif.ResNet
open Verif.Stage
open Finset (range)

variable {K : Type}

/-! ### Specification -/

/-- The element of a parameter. -/
def par [Zero K] (get : ParamFn K) (module name : String) (shape i : List Nat) : K :=
  match get module name shape with
  | .ok a => a.val i
  | .error _ => 0

/-- A batch of `N` pictures with `H` rows, `W` columns and `C` channels, and its elements. -/
structure Is (x : Arr K) (N H W C : Nat) (f : Nat → Nat → Nat → Nat → K) : Prop where
  shape : x.shape = [N, H, W, C]
  val : ∀ e < N, ∀ h < H, ∀ w < W, ∀ c < C, x.val [e, h, w, c] = f e h w c

/-- A picture continued by zeros. -/
def padded [Zero K] (H W : Nat) (f : Nat → Nat → K) (h w : Int) : K := if 0 ≤ h ∧ h < H ∧ 0 ≤ w ∧ w < W then f h.toNat w.toNat else 0

/-- A convolution with a square kernel of size `k` and stride `s`, with `p` rows and `q` columns of zeros before the picture. -/
def convAt [Semiring K] (k s : Nat) (p q : Int) (weight : Nat → Nat → Nat → Nat → K) (bias : Nat → K) (H W C : Nat) (f : Nat → Nat → Nat → Nat → K) (e h w c : Nat) : K :=
  (∑ i ∈ range k, ∑ j ∈ range k, ∑ ci ∈ range C, weight i j ci c * padded H W (fun h w => f e h w ci) (h * s + i - p) (w * s + j - q)) + bias c

/-- A depthwise convolution: every channel by itself. -/
def depthAt [Semiring K] (k s : Nat) (p q : Int) (weight : Nat → Nat → Nat → K) (bias : Nat → K) (H W : Nat) (f : Nat → Nat → Nat → Nat → K) (e h w c : Nat) : K :=
  (∑ i ∈ range k, ∑ j ∈ range k, weight i j c * padded H W (fun h w => f e h w c) (h * s + i - p) (w * s + j - q)) + bias c

/-- The average of a channel over a batch. -/
def batchMean [Field K] (N H W : Nat) (f : Nat → Nat → Nat → Nat → K) (c : Nat) : K := (∑ e ∈ range N, ∑ h ∈ range H, ∑ w ∈ range W, f e h w c) / ((N * H * W : Nat) : K)

/-- The average of the squares less the square of the average. -/
def batchVar [Field K] (N H W : Nat) (f : Nat → Nat → Nat → Nat → K) (c : Nat) : K := batchMean N H W (fun e h w c => f e h w c ^ 2) c - batchMean N H W f c ^ 2

/-- The element of a moving average for a channel. -/
def stored [Zero K] (e : EmaState K) (c : Nat) : K :=
  match e.average with
  | some a => a.val [0, 0, 0, c]
  | none => 0

/-- Batch normalisation: with the averages of the batch in training or with local statistics, with the stored ones otherwise. -/
def bnAt [Field K] (get : ParamFn K) (rsqrt : K → K) (mixing scale offset : Bool) (eps : K) (name : String) (st : States K) (N H W C : Nat) (f : Nat → Nat → Nat → Nat → K) (e h w c : Nat) : K :=
  (f e h w c - if mixing then batchMean N H W f c else stored (st name).mean c) *
    ((if scale then par get name "scale" [1, 1, 1, C] [0, 0, 0, c] else 1) * rsqrt ((if mixing then batchVar N H W f c else stored (st name).var c) + eps)) +
    if offset then par get name "offset" [1, 1, 1, C] [0, 0, 0, c] else 0

/-! ### Sums -/

theorem sum_list [AddCommMonoid K] (n : Nat) (f : Nat → K) : ((List.range n).map f).sum = ∑ i ∈ range n, f i := by
  induction n with
  | zero => rfl
  | succ n ih => rw [List.range_succ, List.map_append, List.sum_append, ih, Finset.sum_range_succ]; simp

theorem sum_flatMap [AddCommMonoid K] {α β : Type} (f : β → K) (g : α → List β) : ∀ l : List α, ((l.flatMap g).map f).sum = (l.map fun a => ((g a).map f).sum).sum
  | [] => rfl
  | a :: l => by rw [List.flatMap_cons, List.map_append, List.sum_append, sum_flatMap f g l]; rfl

theorem sum_indices [AddCommMonoid K] (n : Nat) (ns : List Nat) (f : List Nat → K) : ((indices (n :: ns)).map f).sum = ∑ i ∈ range n, ((indices ns).map fun j => f (i :: j)).sum := by
  show (((List.range n).flatMap fun i => (indices ns).map (i :: ·)).map f).sum = _
  rw [sum_flatMap, sum_list]
  refine Finset.sum_congr rfl fun i _ => ?_
  rw [List.map_map]; rfl

theorem sum_two [AddCommMonoid K] (a b : Nat) (f : List Nat → K) : ((indices [a, b]).map f).sum = ∑ i ∈ range a, ∑ j ∈ range b, f [i, j] := by
  rw [sum_indices]
  refine Finset.sum_congr rfl fun i _ => ?_
  rw [sum_indices]
  refine Finset.sum_congr rfl fun j _ => ?_
  show f [i, j] + 0 = _
  rw [add_zero]

/-! ### Convolutions -/

open Verif.ConvArr in
theorem get_padded [Zero K] {x : Arr K} {N H W C : Nat} {f : Nat → Nat → Nat → Nat → K} (hx : Is x N H W C f) {e ch : Nat} (he : e < N) (hc : ch < C) (a b : Int) :
    (image false [H, W] C x e).get [a, b] ch = padded H W (fun h w => f e h w ch) a b := by
  unfold Image.get padded
  show (if inside [(H : Int), (W : Int)] [a, b] = true then x.val (e :: layout false ([a, b].map Int.toNat) ch) else 0) = _
  by_cases h : 0 ≤ a ∧ a < H ∧ 0 ≤ b ∧ b < W
  · rw [if_pos h, if_pos (by simp [inside, h])]
    exact hx.val e he _ (by omega) _ (by omega) ch hc
  · rw [if_neg h, if_neg (by simp only [inside, Bool.and_eq_true, decide_eq_true_eq, Bool.and_true]; omega)]

open Verif.ConvArr Verif.Conv in
/-- A convolution with a square kernel, channels last. -/
def square (name : String) (oc k s : Nat) (same withBias : Bool) : Module K :=
  ⟨name, ⟨2, oc, [(k : Int), (k : Int)], [(s : Int), (s : Int)], [1, 1], 1, .str (if same then "SAME".toList else "VALID".toList)⟩, -1, toDimensionNumbers 2 true false, withBias, none⟩

theorem square_eq (name : String) (oc k s : Nat) : convModule (K := K) name oc k s = square name oc k s true false := rfl

/-- The number of positions of a kernel of size `k` with stride `s`. -/
def outOf (same : Bool) (n k s : Nat) : Nat := (outSize n k s (stringPad same n k s).1 (stringPad same n k s).2).toNat

theorem outOf_same {n k s : Nat} (hk : 1 ≤ k) (hs : 1 ≤ s) : outOf true n k s = up n s := by
  unfold outOf
  rw [same_size hk hs]; rfl

theorem outOf_valid (n k s : Nat) : outOf false n k s = (Int.fdiv (n - k) s + 1).toNat := by
  unfold outOf outSize stringPad
  rw [if_neg Bool.false_ne_true]
  show (max 0 (Int.fdiv ((n : Int) + 0 + 0 - k) s + 1)).toNat = _
  rw [Int.add_zero, Int.add_zero]
  omega

theorem dilate_one (k : Nat) : dilate (k : Int) 1 = k := by
  unfold dilate
  by_cases h : (k : Int) = 0
  · rw [if_pos h, h]
  · rw [if_neg h]; omega

/-- The parameters of a convolution. -/
def ConvParams (get : ParamFn K) (name : String) (withBias : Bool) (shape : List Nat) (oc : Nat) : Prop := There get (name, "w", shape) ∧ (withBias = true → There get (name, "b", [oc]))

open Verif.ConvArr Verif.Utils Verif.Conv Verif.Props.ConvArr in
theorem square_single [AddCommMonoid K] [Mul K] (name : String) (oc : Nat) {k s H W : Nat} (hk : 1 ≤ k) (hs : 1 ≤ s) (same withBias : Bool) (w b : Arr K) (x : Image K) (hx : x.sizes = [(H : Int), (W : Int)]) :
    single (square name oc k s same withBias) false w b x = .ok ((square (K := K) name oc k s same withBias).conv.output (weights none w) (biasOf withBias false 2 b) x [stringPad same H k s, stringPad same W k s]) := by
  have hsz : Verif.Props.Conv.Sizes (square (K := K) name oc k s same withBias).conv x := by
    refine ⟨by rw [hx]; rfl, ?_, ?_, ?_, ?_, Nat.one_ne_zero, Nat.mod_one _⟩
    · rw [hx]
      intro n hn
      rcases List.mem_cons.mp hn with rfl | hn
      · omega
      · rw [List.mem_singleton.mp hn]; omega
    · intro n hn
      rcases List.mem_cons.mp hn with rfl | hn
      · omega
      · rw [List.mem_singleton.mp hn]; omega
    · intro n hn
      rcases List.mem_cons.mp hn with rfl | hn
      · omega
      · rw [List.mem_singleton.mp hn]
    · intro n hn
      rcases List.mem_cons.mp hn with rfl | hn
      · omega
      · rw [List.mem_singleton.mp hn]; omega
  unfold single
  rw [hsz.call, hx]
  have hp : (square (K := K) name oc k s same withBias).conv.pads [(H : Int), (W : Int)] = .ok [stringPad same H k s, stringPad same W k s] := by
    cases same
    · show Except.ok [stringPad false H (dilate k 1) s, stringPad false W (dilate k 1) s] = _
      rw [dilate_one]
    · show Except.ok [stringPad true H (dilate k 1) s, stringPad true W (dilate k 1) s] = _
      rw [dilate_one]
  rw [hp]
  rfl

theorem outSize_nonneg (n k s a b : Int) : 0 ≤ outSize n k s a b := by
  unfold outSize; omega

open Verif.ConvArr Verif.Utils Verif.Conv Verif.Props.ConvArr in
theorem square_sizes [AddCommMonoid K] [Mul K] (name : String) (oc : Nat) {k s H W : Nat} (same withBias : Bool) (w : List Nat → Nat → Nat → K) (b : Nat → K) (x : Image K) (hx : x.sizes = [(H : Int), (W : Int)]) :
    ((square (K := K) name oc k s same withBias).conv.output w b x [stringPad same H k s, stringPad same W k s]).sizes = [outOf same H k s, outOf same W k s].map Int.ofNat := by
  show outSizes x.sizes [dilate k 1, dilate k 1] [(s : Int), (s : Int)] [stringPad same H k s, stringPad same W k s] = _
  rw [hx, dilate_one]
  show [outSize H k s _ _, outSize W k s _ _] = [((outOf same H k s : Nat) : Int), ((outOf same W k s : Nat) : Int)]
  unfold outOf
  rw [Int.toNat_of_nonneg (outSize_nonneg _ _ _ _ _), Int.toNat_of_nonneg (outSize_nonneg _ _ _ _ _)]

open Verif.ConvArr Verif.Utils Verif.Conv Verif.Props.ConvArr in
theorem square_params {get : ParamFn K} {name : String} {oc k s C : Nat} {same withBias : Bool} (hp : ConvParams get name withBias [k, k, C, oc] oc) :
    ∃ w b, Params get (square name oc k s same withBias) false C w b ∧ get name "w" [k, k, C, oc] = .ok w ∧ (withBias = true → get name "b" [oc] = .ok b) := by
  obtain ⟨⟨w, h1, h2⟩, hb⟩ := hp
  have mk : ∀ b : Arr K, (withBias = true → get name "b" [oc] = .ok b ∧ b.shape = [oc]) → Params get (square name oc k s same withBias) false C w b := by
    intro b hb
    refine ⟨?_, ?_, hb, (fun q h => by cases h)⟩
    · show get name "w" [(k : Int).toNat, (k : Int).toNat, C / 1, oc] = _
      rw [Nat.div_one]; exact h1
    · show w.shape = [(k : Int).toNat, (k : Int).toNat, C / 1, oc]
      rw [Nat.div_one]; exact h2
  cases hwb : withBias with
  | false =>
    subst hwb
    exact ⟨w, w, mk w (fun h => by cases h), h1, (fun h => by cases h)⟩
  | true =>
    subst hwb
    obtain ⟨b, b1, b2⟩ := hb rfl
    exact ⟨w, b, mk b (fun _ => ⟨b1, b2⟩), h1, fun _ => b1⟩

open Verif.ConvArr Verif.Utils Verif.Conv Verif.Props.ConvArr in
theorem good_square [AddCommMonoid K] [Mul K] {tr tl : Bool} {get : ParamFn K} {name : String} {oc k s H W C : Nat} {same withBias : Bool} {kernel stride : Arg Int} {pad : List Char}
    (hm : Module.make (K := K) name 2 oc kernel stride (.scalar 1) (.str pad) withBias "NHWC".toList none 1 = .ok (square name oc k s same withBias)) (hk : 1 ≤ k) (hs : 1 ≤ s) (hp : ConvParams get name withBias [k, k, C, oc] oc) :
    Good tr tl (lift ((square name oc k s same withBias).call get)) [] [H, W, C] [outOf same H k s, outOf same W k s, oc] := by
  obtain ⟨w, b, hP, -, -⟩ := square_params (s := s) (same := same) hp
  exact good_conv hm rfl hP fun x hx _ => ⟨_, square_single name oc hk hs same withBias w b x hx, square_sizes name oc same withBias _ _ x hx⟩

open Verif.ConvArr Verif.Utils Verif.Conv Verif.Props.ConvArr in
theorem square_is [Semiring K] {get : ParamFn K} {name : String} {oc k s : Nat} {same withBias : Bool} {kernel stride : Arg Int} {pad : List Char}
    (hm : Module.make (K := K) name 2 oc kernel stride (.scalar 1) (.str pad) withBias "NHWC".toList none 1 = .ok (square name oc k s same withBias)) (hk : 1 ≤ k) (hs : 1 ≤ s)
    {x : Arr K} {N H W C : Nat} {f : Nat → Nat → Nat → Nat → K} (hp : ConvParams get name withBias [k, k, C, oc] oc) (hx : Is x N H W C f) :
    ∃ y, (square name oc k s same withBias).call get x = .ok y ∧ Is y N (outOf same H k s) (outOf same W k s) oc
      (convAt k s (stringPad same H k s).1 (stringPad same W k s).1 (fun i j ci c => par get name "w" [k, k, C, oc] [i, j, ci, c]) (fun c => if withBias then par get name "b" [oc] [c] else 0) H W C f) := by
  obtain ⟨w, b, hP, hw, hb⟩ := square_params (s := s) (same := same) hp
  obtain ⟨y, out', y1, y2, y3, y4⟩ := batched_examples (first := false) (B := N) (sp := [H, W]) (C := C) hm rfl hx.shape (Nat.mod_one _) hP (square_single name oc hk hs same withBias w b (image false [H, W] C x 0) rfl)
  rw [square_sizes name oc same withBias _ _ _ rfl] at y3
  obtain rfl : [outOf same H k s, outOf same W k s] = out' := List.map_injective_iff.mpr (fun a b h => Int.ofNat.inj h) y3
  refine ⟨y, (call_batch_eq (n := 2) rfl (by rw [hx.shape]; rfl)).trans y1, y2, fun e he h hh v hv c hc => ?_⟩
  obtain ⟨i, i1, -, -, i4⟩ := y4 e he
  refine (i4 [h, v] c (.cons hh (.cons hv .nil)) hc).trans ?_
  rw [square_single name oc hk hs same withBias w b (image false [H, W] C x e) rfl] at i1
  rw [← Except.ok.inj i1, output_val]
  unfold convAt
  refine congrArg₂ (· + ·) ?_ ?_
  · unfold taps
    show ((indices [(k : Int).toNat, (k : Int).toNat]).map fun j => ((List.range (C / 1)).map fun ci => w.val (j ++ [ci, c]) * (image false [H, W] C x e).get (tap [(s : Int), s] [1, 1] [stringPad same H k s, stringPad same W k s] [(h : Int), v] j) (c / (oc / 1) * (C / 1) + ci)).sum).sum = _
    rw [Nat.div_one, Nat.div_one, Nat.div_eq_of_lt hc, Nat.zero_mul, show (k : Int).toNat = k from rfl, sum_two]
    refine Finset.sum_congr rfl fun i _ => Finset.sum_congr rfl fun j _ => ?_
    rw [sum_list]
    refine Finset.sum_congr rfl fun ci hci => ?_
    rw [Nat.zero_add]
    show w.val [i, j, ci, c] * (image false [H, W] C x e).get [(h : Int) * s + i * 1 - (stringPad same H k s).1, (v : Int) * s + j * 1 - (stringPad same W k s).1] ci = _
    rw [get_padded hx he (Finset.mem_range.mp hci), Int.mul_one, Int.mul_one]
    unfold par
    rw [hw]
  · cases withBias with
    | false => rfl
    | true =>
      show b.val [c] = par get name "b" [oc] [c]
      unfold par
      rw [hb rfl]

/-! ### Depthwise convolutions -/

open Verif.ConvArr Verif.Conv in
/-- The depthwise convolution of a MobileNet block. -/
def depthModule (name : String) (s : Int) (withBias : Bool) : Depthwise :=
  ⟨name, 1, [3, 3], [s, s], .pairs [(1, 1), (1, 1)], -1, ⟨imageDn false 2, [3, 2] ++ List.range 2, imageDn false 2⟩, withBias⟩

/-- With one row of zeros on each side a kernel of size 3 keeps the size, but for the stride. -/
theorem size_three (n : Nat) {s : Nat} (hs : 1 ≤ s) : outSize n 3 s 1 1 = (up n s : Int) := by
  unfold outSize up
  rw [show (n : Int) + 1 + 1 - 3 = n - 1 by omega, Int.fdiv_eq_ediv_of_nonneg _ (by omega), Int.natCast_ediv, show (((n + s - 1 : Nat)) : Int) = ((n : Int) - 1) + 1 * s by omega, Int.add_mul_ediv_right _ _ (by omega)]
  have : 0 ≤ ((n : Int) - 1) / s + 1 := by
    have h1 : (-1 : Int) / s ≤ ((n : Int) - 1) / s := Int.ediv_le_ediv (by omega) (by omega)
    have h2 : (-1 : Int) / s = -1 := by
      refine (Int.ediv_eq_iff_of_pos (by omega)).mpr ⟨?_, ?_⟩ <;> omega
    omega
  omega

open Verif.ConvArr Verif.Utils Verif.Conv Verif.Props.ConvArr Verif.Props.Depthwise in
theorem depth_is [Semiring K] {get : ParamFn K} {name : String} {s : Nat} {withBias : Bool} (hs : 1 ≤ s) {x : Arr K} {N H W C : Nat} {f : Nat → Nat → Nat → Nat → K} (hC : C ≠ 0)
    (hp : ConvParams get name withBias [3, 3, 1, C] C) (hx : Is x N H W C f) :
    ∃ y, (depthModule name s withBias).call get x = .ok y ∧ Is y N (up H s) (up W s) C
      (depthAt 3 s 1 1 (fun i j c => par get name "w" [3, 3, 1, C] [i, j, 0, c]) (fun c => if withBias then par get name "b" [C] [c] else 0) H W f) := by
  obtain ⟨⟨w, h1, h2⟩, hb⟩ := hp
  have key : ∃ b : Arr K, withBias = true → get name "b" [C] = .ok b ∧ b.shape = [C] := by
    cases withBias with
    | false => exact ⟨w, fun h => by cases h⟩
    | true => obtain ⟨b, k1, k2⟩ := hb rfl; exact ⟨b, fun _ => ⟨k1, k2⟩⟩
  obtain ⟨b, hb⟩ := key
  have hD : DParams get name 1 3 3 C withBias false w b := ⟨by rw [Nat.one_mul]; exact h1, by rw [Nat.one_mul]; exact h2, by rw [Nat.one_mul]; exact hb⟩
  obtain ⟨y, out, y1, y2, y3, y4, y5⟩ := depth_run (mult := 1) (k0 := 3) (k1 := 3) (s0 := s) (s1 := s) (padding := .pairs [(1, 1), (1, 1)]) (withBias := withBias) (first := false) (get := get) (n0 := H) (n1 := W) (ps := [(1, 1), (1, 1)])
    hx.shape hC (by omega) (by omega) rfl hD
  obtain rfl : out = [up H s, up W s] := by
    rw [y2]
    show [(outSize H 3 s 1 1).toNat, (outSize W 3 s 1 1).toNat] = _
    rw [size_three H hs, size_three W hs]
    rfl
  rw [Nat.one_mul] at y3 y5
  refine ⟨y, y1, y3, fun e he h hh v hv c hc => ?_⟩
  refine (y5 e [h, v] c he (.cons hh (.cons hv .nil)) hc).trans ?_
  unfold depthAt
  refine congrArg₂ (· + ·) ?_ ?_
  · unfold channel
    rw [sum_two]
    refine Finset.sum_congr rfl fun i _ => Finset.sum_congr rfl fun j _ => ?_
    rw [Nat.div_one]
    show w.val [i, j, 0, c] * (image false [H, W] C x e).get [(h : Int) * s + i * 1 - 1, (v : Int) * s + j * 1 - 1] c = _
    rw [get_padded hx he hc, Int.mul_one, Int.mul_one]
    unfold par
    rw [h1]
  · cases withBias with
    | false => rfl
    | true =>
      show b.val [c] = par get name "b" [C] [c]
      unfold par
      rw [(hb rfl).1]

/-- The elements of an array. -/
def el (x : Arr K) (e h w c : Nat) : K := x.val [e, h, w, c]

theorem el_is {x : Arr K} {N H W C : Nat} (h : x.shape = [N, H, W, C]) : Is x N H W C (el x) := ⟨h, fun _ _ _ _ _ _ _ _ => rfl⟩

theorem padded_congr [Zero K] {H W : Nat} {f g : Nat → Nat → K} (h : ∀ a < H, ∀ b < W, f a b = g a b) (a b : Int) : padded H W f a b = padded H W g a b := by
  unfold padded
  by_cases hc : 0 ≤ a ∧ a < H ∧ 0 ≤ b ∧ b < W
  · rw [if_pos hc, if_pos hc]; exact h _ (by omega) _ (by omega)
  · rw [if_neg hc, if_neg hc]

theorem good_depth [Semiring K] {tr tl : Bool} {get : ParamFn K} {name : String} {s : Nat} {withBias : Bool} (hs : 1 ≤ s) {H W C : Nat} (hC : C ≠ 0) (hp : ConvParams get name withBias [3, 3, 1, C] C) :
    Good tr tl (lift ((depthModule name s withBias).call get)) [] [H, W, C] [up H s, up W s, C] := by
  refine good_lift fun N x hx => ?_
  obtain ⟨y, y1, y2⟩ := depth_is hs hC hp (el_is hx)
  refine ⟨y, y1, y2.shape, fun N' x' ρ hx' hρ hpull => ?_⟩
  obtain ⟨y', z1, z2⟩ := depth_is hs hC hp (el_is hx')
  refine ⟨y', z1, z2.shape, fun e he i hi => ?_⟩
  match i, hi with
  | [h, v, c], .cons hh (.cons hv (.cons hc .nil)) =>
    refine (z2.val e he h hh v hv c hc).trans (Eq.trans ?_ (y2.val (ρ e) (hρ e he) h hh v hv c hc).symm)
    unfold depthAt
    refine congrArg (· + _) (Finset.sum_congr rfl fun i _ => Finset.sum_congr rfl fun j _ => congrArg (_ * ·) (padded_congr (fun a ha b hb => ?_) _ _))
    exact hpull e he [a, b, c] (.cons ha (.cons hb (.cons hc .nil)))

/-! ### Other layers -/

theorem relu_is [Field K] [LinearOrder K] {x : Arr K} {N H W C : Nat} {f : Nat → Nat → Nat → Nat → K} (hx : Is x N H W C f) : Is (relu x) N H W C fun e h w c => max (f e h w c) 0 :=
  ⟨hx.shape, fun e he h hh w hw c hc => congrArg (max · 0) (hx.val e he h hh w hw c hc)⟩

section Sums
variable [Field K]

theorem sum_slice {N H W C : Nat} {c : Nat} (hc : c < C) (a b d : Nat) (g : List Nat → K) : ∑ j ∈ slice [0, 1, 2] [N, H, W, C] [a, b, d, c], g j = ∑ e ∈ range N, ∑ h ∈ range H, ∑ w ∈ range W, g [e, h, w, c] := by
  have e1 : ∑ e ∈ range N, ∑ h ∈ range H, ∑ w ∈ range W, g [e, h, w, c] = ∑ p ∈ range N ×ˢ (range H ×ˢ range W), g [p.1, p.2.1, p.2.2, c] := by
    rw [Finset.sum_product]
    exact Finset.sum_congr rfl fun e _ => by rw [Finset.sum_product]
  rw [e1]
  refine Finset.sum_nbij' (fun j => (j.getD 0 0, j.getD 1 0, j.getD 2 0)) (fun p => [p.1, p.2.1, p.2.2, c]) (fun j hj => ?_) (fun p hp => ?_) (fun j hj => ?_) (fun p _ => rfl) (fun j hj => ?_)
  · obtain ⟨hv, _⟩ := mem_slice.mp hj
    match j, hv with
    | [e, h, w, c'], .cons he (.cons hh (.cons hw _)) => exact Finset.mem_product.mpr ⟨Finset.mem_range.mpr he, Finset.mem_product.mpr ⟨Finset.mem_range.mpr hh, Finset.mem_range.mpr hw⟩⟩
  · obtain ⟨h1, h2⟩ := Finset.mem_product.mp hp
    obtain ⟨h2, h3⟩ := Finset.mem_product.mp h2
    refine mem_slice.mpr ⟨.cons (Finset.mem_range.mp h1) (.cons (Finset.mem_range.mp h2) (.cons (Finset.mem_range.mp h3) (.cons hc .nil))), fun k hk hm => ?_⟩
    match k, hk, hm with
    | 0, _, hm => exact absurd (by decide) hm
    | 1, _, hm => exact absurd (by decide) hm
    | 2, _, hm => exact absurd (by decide) hm
    | 3, _, _ => rfl
    | k + 4, hk, _ => exact absurd hk (by show ¬ k + 4 < 4; omega)
  all_goals
    obtain ⟨hv, h⟩ := mem_slice.mp hj
    match j, hv with
    | [e, h', w, c'], .cons he (.cons hh (.cons hw _)) =>
      have : c' = c := h 3 (by show (3 : Nat) < 4; decide) (by decide)
      subst this
      rfl

theorem avg_slice {N H W C : Nat} {c : Nat} (hc : c < C) (a b d : Nat) (g : List Nat → K) : avg (slice [0, 1, 2] [N, H, W, C] [a, b, d, c]) g = batchMean N H W (fun e h w c => g [e, h, w, c]) c := by
  unfold avg batchMean
  rw [sum_slice hc]
  congr 1
  have : ((slice [0, 1, 2] [N, H, W, C] [a, b, d, c]).card : K) = ∑ j ∈ slice [0, 1, 2] [N, H, W, C] [a, b, d, c], (1 : K) := by rw [Finset.sum_const, nsmul_eq_mul, mul_one]
  rw [this, sum_slice hc]
  simp only [Finset.sum_const, Finset.card_range, nsmul_eq_mul, mul_one, Nat.cast_mul]
  ring

theorem batchMean_congr {N H W : Nat} {f g : Nat → Nat → Nat → Nat → K} {c : Nat} (h : ∀ e < N, ∀ a < H, ∀ b < W, f e a b c = g e a b c) : batchMean N H W f c = batchMean N H W g c := by
  unfold batchMean
  refine congrArg (· / _) (Finset.sum_congr rfl fun e he => Finset.sum_congr rfl fun a ha => Finset.sum_congr rfl fun b hb => h e (Finset.mem_range.mp he) a (Finset.mem_range.mp ha) b (Finset.mem_range.mp hb))

theorem affine_value {get : ParamFn K} {create : Bool} {name what : String} {C : Nat} {d : K} {g : Arr K} (h : affine get create name what [1, 1, 1, C] none d = .ok g) {e a b c : Nat} (hc : c < C) :
    spread g [e, a, b, c] = if create then par get name what [1, 1, 1, C] [0, 0, 0, c] else d := by
  cases create with
  | false =>
    have : g = scalar d := (Except.ok.inj h).symm
    subst this
    rfl
  | true =>
    have hg : getParameter get name what [1, 1, 1, C] = .ok g := h
    unfold getParameter at hg
    cases hget : get name what [1, 1, 1, C] with
    | error e => rw [hget] at hg; cases hg
    | ok a' =>
      rw [hget] at hg
      replace hg : (if a'.shape = [1, 1, 1, C] then Except.ok a' else Except.error Err.assertion) = .ok g := hg
      by_cases hs : a'.shape = [1, 1, 1, C]
      · rw [if_pos hs] at hg
        obtain rfl := Except.ok.inj hg
        unfold par spread
        rw [hget, hs, if_pos rfl]
        show a'.val [0, 0, 0, if C = 1 then 0 else c] = _
        by_cases h1 : C = 1
        · subst h1; rw [if_pos rfl, show c = 0 by omega]
        · rw [if_neg h1]
      · rw [if_neg hs] at hg; cases hg

theorem spread_four {p : Arr K} {C : Nat} (h : p.shape = [1, 1, 1, C]) {e a b c : Nat} (hc : c < C) : spread p [e, a, b, c] = p.val [0, 0, 0, c] := by
  unfold spread
  rw [h]
  show p.val [0, 0, 0, if C = 1 then 0 else c] = _
  by_cases h1 : C = 1
  · subst h1; rw [if_pos rfl, show c = 0 by omega]
  · rw [if_neg h1]

theorem batch_values {x : Arr K} {N H W C : Nat} {f : Nat → Nat → Nat → Nat → K} (hx : Is x N H W C f) {c : Nat} (hc : c < C) :
    (meanArr x [0, 1, 2]).val [0, 0, 0, c] = batchMean N H W f c ∧ (varArr x).val [0, 0, 0, c] = batchVar N H W f c := by
  have hs : keepShape [0, 1, 2] x.shape = [1, 1, 1, C] := by rw [hx.shape]; rfl
  have e1 : ∀ z : Arr K, z.shape = [N, H, W, C] → (meanArr z [0, 1, 2]).val [0, 0, 0, c] = batchMean N H W (el z) c := by
    intro z hz
    show avg (slice [0, 1, 2] z.shape [0, 0, 0, c]) z.val = _
    rw [hz, avg_slice hc]
    rfl
  have e2 : batchMean N H W (el x) c = batchMean N H W f c := batchMean_congr fun e he a ha b hb => hx.val e he a ha b hb c hc
  have e3 : batchMean N H W (el (map (fun v => v * v) x)) c = batchMean N H W (fun e h w c => f e h w c ^ 2) c := batchMean_congr fun e he a ha b hb => by
    show x.val _ * x.val _ = _
    rw [hx.val e he a ha b hb c hc]; ring
  refine ⟨(e1 x hx.shape).trans e2, ?_⟩
  have hpj : project [1, 1, 1, C] [0, 0, 0, c] = [0, 0, 0, c] := by
    show [0, 0, 0, if C = 1 then 0 else c] = _
    by_cases h1 : C = 1
    · subst h1; rw [if_pos rfl, show c = 0 by omega]
    · rw [if_neg h1]
  show (meanArr (map (fun v => v * v) x) [0, 1, 2]).val (project (keepShape [0, 1, 2] x.shape) [0, 0, 0, c]) - (meanArr x [0, 1, 2]).val (project (keepShape [0, 1, 2] x.shape) [0, 0, 0, c]) * (meanArr x [0, 1, 2]).val (project (keepShape [0, 1, 2] x.shape) [0, 0, 0, c]) = _
  rw [hs, hpj, e1 x hx.shape, e1 (map (fun v => v * v) x) hx.shape, e2, e3]
  unfold batchVar
  ring

theorem bn_is {tr tl : Bool} {get : ParamFn K} {rsqrt : K → K} {m : BatchNorm K} (hm : Plain m) {N H W C : Nat} (hp : BnParams get m C) {st : States K} {x : Arr K} {f : Nat → Nat → Nat → Nat → K} (hx : Is x N H W C f)
    (hr : Ready tr tl C (st m.name)) : ∃ y st', runBn get rsqrt tr tl m st x = .ok (y, st') ∧ Is y N H W C (bnAt get rsqrt (tr || tl) m.createScale m.createOffset m.eps m.name st N H W C f) := by
  obtain ⟨mu, v, g, b, y, st', hg, hb, h1, h2, h3, h4, h5⟩ := bn_stats (rsqrt := rsqrt) hm hp hx.shape hr
  refine ⟨y, st', h1, h2, fun e he h hh w hw c hc => ?_⟩
  rw [h3 _ (.cons he (.cons hh (.cons hw (.cons hc .nil)))), hx.val e he h hh w hw c hc, affine_value hg hc, affine_value hb hc]
  unfold bnAt
  cases hmix : tr || tl with
  | true =>
    obtain ⟨rfl, rfl⟩ := h4 hmix
    have hs : keepShape [0, 1, 2] x.shape = [1, 1, 1, C] := by rw [hx.shape]; rfl
    obtain ⟨e1, e4⟩ := batch_values hx hc
    rw [spread_four hs hc, spread_four (p := varArr x) hs hc, e1, if_pos rfl, if_pos rfl, e4]
  | false =>
    obtain ⟨k1, k2, k3, k4⟩ := h5 hmix
    rw [spread_four k3 hc, spread_four k4 hc, if_neg Bool.false_ne_true, if_neg Bool.false_ne_true]
    unfold stored
    rw [k1, k2]

/-- The average of a channel of one picture. -/
def pictureMean (H W : Nat) (f : Nat → Nat → Nat → Nat → K) (e c : Nat) : K := (∑ h ∈ range H, ∑ w ∈ range W, f e h w c) / ((H * W : Nat) : K)

theorem sum_picture {N H W C : Nat} {e c : Nat} (he : e < N) (hc : c < C) (a b : Nat) (g : List Nat → K) : ∑ j ∈ slice [1, 2] [N, H, W, C] [e, a, b, c], g j = ∑ h ∈ range H, ∑ w ∈ range W, g [e, h, w, c] := by
  have e1 : ∑ h ∈ range H, ∑ w ∈ range W, g [e, h, w, c] = ∑ p ∈ range H ×ˢ range W, g [e, p.1, p.2, c] := by rw [Finset.sum_product]
  rw [e1]
  refine Finset.sum_nbij' (fun j => (j.getD 1 0, j.getD 2 0)) (fun p => [e, p.1, p.2, c]) (fun j hj => ?_) (fun p hp => ?_) (fun j hj => ?_) (fun p _ => rfl) (fun j hj => ?_)
  · obtain ⟨hv, _⟩ := mem_slice.mp hj
    match j, hv with
    | [e', h, w, c'], .cons _ (.cons hh (.cons hw _)) => exact Finset.mem_product.mpr ⟨Finset.mem_range.mpr hh, Finset.mem_range.mpr hw⟩
  · obtain ⟨h2, h3⟩ := Finset.mem_product.mp hp
    refine mem_slice.mpr ⟨.cons he (.cons (Finset.mem_range.mp h2) (.cons (Finset.mem_range.mp h3) (.cons hc .nil))), fun k hk hm => ?_⟩
    match k, hk, hm with
    | 0, _, _ => rfl
    | 1, _, hm => exact absurd (by decide) hm
    | 2, _, hm => exact absurd (by decide) hm
    | 3, _, _ => rfl
    | k + 4, hk, _ => exact absurd hk (by show ¬ k + 4 < 4; omega)
  all_goals
    obtain ⟨hv, h⟩ := mem_slice.mp hj
    match j, hv with
    | [e', h', w, c'], .cons _ (.cons hh (.cons hw _)) =>
      have : c' = c := h 3 (by show (3 : Nat) < 4; decide) (by decide)
      subst this
      have : e' = e := h 0 (by show (0 : Nat) < 4; decide) (by decide)
      subst this
      rfl

theorem spatialMean_is {x : Arr K} {N H W C : Nat} {f : Nat → Nat → Nat → Nat → K} (hx : Is x N H W C f) : ∃ y, spatialMean x = .ok y ∧ y.shape = [N, C] ∧ ∀ e < N, ∀ c < C, y.val [e, c] = pictureMean H W f e c := by
  refine ⟨⟨[N, C], fun i => avg (slice [1, 2] [N, H, W, C] (i.take 1 ++ [0, 0] ++ i.drop 1)) x.val⟩, ?_, rfl, fun e he c hc => ?_⟩
  · unfold spatialMean
    rw [bind_eq (mean_eq (x := x) (axes := [1, 2]) (ax := [1, 2]) (by rw [hx.shape]; rfl))]
    unfold meanArr
    rw [hx.shape]
    rfl
  · show avg (slice [1, 2] [N, H, W, C] [e, 0, 0, c]) x.val = _
    unfold avg pictureMean
    rw [sum_picture he hc]
    refine congrArg₂ (· / ·) (Finset.sum_congr rfl fun h hh => Finset.sum_congr rfl fun w hw => hx.val e he h (Finset.mem_range.mp hh) w (Finset.mem_range.mp hw) c hc) ?_
    have : ((slice [1, 2] [N, H, W, C] [e, 0, 0, c]).card : K) = ∑ j ∈ slice [1, 2] [N, H, W, C] [e, 0, 0, c], (1 : K) := by rw [Finset.sum_const, nsmul_eq_mul, mul_one]
    rw [this, sum_picture he hc]
    simp only [Finset.sum_const, Finset.card_range, nsmul_eq_mul, mul_one, Nat.cast_mul]

theorem linear_is [LinearOrder K] {get : ParamFn K} {l : Linear} {n m : Nat} (ho : l.outputSize = some m) (hw : There get (l.name, "w", [n, m])) (hb : l.withBias = true → There get (l.name, "b", [m])) {N : Nat} {x : Arr K} (hx : x.shape = [N, n]) :
    ∃ y, (l.call get x >>= fun p => Except.ok p.1) = .ok y ∧ y.shape = [N, m] ∧
      ∀ e k, y.val [e, k] = (∑ c ∈ range n, x.val [e, c] * par get l.name "w" [n, m] [c, k]) + if l.withBias then par get l.name "b" [m] [k] else 0 := by
  obtain ⟨w, b, h1, h2, h3, run⟩ := linear_run' ho hw hb
  obtain ⟨y, y1, y2⟩ := run N x hx
  refine ⟨y, y1, by rw [y2.shape, hx]; rfl, fun e k => ?_⟩
  have := y2.val [e] k
  refine this.trans ?_
  unfold par
  rw [h1]
  refine congrArg (_ + ·) ?_
  cases hwb : l.withBias with
  | false => rw [h3 hwb]; rfl
  | true =>
    obtain ⟨c, rfl, hc⟩ := h2 hwb
    rw [hc]; rfl

end Sums

/-! ### The stored averages after training -/

section Moved
variable [Field K]

/-- The element of a moving average before the correction of its start at 0. -/
def hid (e : EmaState K) (c : Nat) : K :=
  match e.hidden with
  | some a => a.val [0, 0, 0, c]
  | none => 0

/-- `e'` is the moving average with decay `d` after `v` was added to `e`, for `C` channels. -/
def Moved (d : K) (C : Nat) (e e' : EmaState K) (v : Nat → K) : Prop :=
  e'.counter = some (e.counter.getD 0 + 1) ∧ ∀ c < C, hid e' c = d * hid e c + (1 - d) * v c ∧ stored e' c = hid e' c / (1 - d ^ (e.counter.getD 0 + 1))

theorem ema_moved {d : K} {e : EmaState K} {v : Arr K} {C : Nat} {g : Nat → K} (hv : v.shape = [1, 1, 1, C]) (hh : HidOk C e) (hg : ∀ c < C, v.val [0, 0, 0, c] = g c) : ∃ e', emaCall ⟨d, true, 0⟩ e v = .ok e' ∧ Moved d C e e' g := by
  unfold emaCall
  dsimp only
  have hs : (e.hidden.getD ⟨v.shape, fun _ => 0⟩).shape = [1, 1, 1, C] := by
    cases hx : e.hidden with
    | none => exact hv
    | some q => exact hh q hx
  rw [bind_eq (zip_right (f := (· + ·)) (by show BroadcastsTo v.shape (e.hidden.getD ⟨v.shape, fun _ => 0⟩).shape; rw [hs, hv]; exact broadcasts_refl _))]
  refine ⟨_, rfl, rfl, fun c hc => ?_⟩
  have hd : ¬ (0 < (0 : Int) ∧ e.counter.getD (-0) + 1 ≤ 0) := fun h => absurd h.1 (by decide)
  have h0 : (e.hidden.getD ⟨v.shape, fun _ => 0⟩).val [0, 0, 0, c] = hid e c := by
    unfold hid
    cases hx : e.hidden <;> rfl
  have hsp : ∀ a : K, spread (map (· * a) v) [0, 0, 0, c] = g c * a := fun a => by
    rw [spread_four (p := map (· * a) v) hv hc]
    show v.val [0, 0, 0, c] * a = _
    rw [hg c hc]
  refine ⟨?_, ?_⟩
  · show spread (map (· * if (0 < (0 : Int) ∧ e.counter.getD (-0) + 1 ≤ 0) then 0 else d) (e.hidden.getD ⟨v.shape, fun _ => 0⟩)) [0, 0, 0, c] + spread (map (· * (1 - if (0 < (0 : Int) ∧ e.counter.getD (-0) + 1 ≤ 0) then 0 else d)) v) [0, 0, 0, c] = _
    rw [hsp, if_neg hd, spread_four (p := map (· * d) (e.hidden.getD ⟨v.shape, fun _ => 0⟩)) hs hc]
    show (e.hidden.getD ⟨v.shape, fun _ => 0⟩).val [0, 0, 0, c] * d + _ = _
    rw [h0, mul_comm, mul_comm (g c)]
  · show _ / (1 - (if (0 < (0 : Int) ∧ e.counter.getD (-0) + 1 ≤ 0) then 0 else d) ^ (e.counter.getD (-0) + 1)) = _
    rw [if_neg hd]
    rfl

/-- In training, a batch normalisation adds the averages of the batch to its moving averages. -/
theorem bn_moved {tl : Bool} {get : ParamFn K} {rsqrt : K → K} {m : BatchNorm K} (hm : Plain m) {d : K} (hd : m.ema = ⟨d, true, 0⟩) {N H W C : Nat} (hp : BnParams get m C) {st : States K} {x : Arr K} {f : Nat → Nat → Nat → Nat → K} (hx : Is x N H W C f)
    (hr : Ready true tl C (st m.name)) : ∃ y st', runBn get rsqrt true tl m st x = .ok (y, st') ∧ Moved d C (st m.name).mean (st' m.name).mean (batchMean N H W f) ∧ Moved d C (st m.name).var (st' m.name).var (batchVar N H W f) := by
  obtain ⟨g, hg, hgs⟩ := affine_there (d := 1) hp.1
  obtain ⟨b, hb, hbs⟩ := affine_there (d := 0) hp.2
  have hs : keepShape [0, 1, 2] x.shape = [1, 1, 1, C] := by rw [hx.shape]; rfl
  obtain ⟨k1, k2⟩ := hr.1 rfl
  obtain ⟨a, a1, a2⟩ := ema_moved (d := d) (v := meanArr x [0, 1, 2]) hs k1 fun c hc => (batch_values hx hc).1
  obtain ⟨c, c1, c2⟩ := ema_moved (d := d) (v := varArr x) hs k2 fun c hc => (batch_values hx hc).2
  have hst : m.chosenStats (st m.name) x [] true tl = .ok (meanArr x [0, 1, 2], varArr x) := by
    unfold BatchNorm.chosenStats
    rw [if_pos (show (true || tl) = true from rfl)]
    exact stats4 hm.axis hm.cross hm.channel hx.shape
  have hup : m.updated (st m.name) (meanArr x [0, 1, 2]) (varArr x) true = .ok ⟨a, c⟩ := by
    unfold BatchNorm.updated
    rw [if_pos rfl, hd]
    exact (bind_eq a1).trans (bind_eq c1)
  obtain ⟨y, y1, -, -⟩ := bn_call (rsqrt := rsqrt) hm hx.shape hst hup (.inl hs) (.inl hs) hg hb hgs hbs
  refine ⟨y, fun n => if n = m.name then ⟨a, c⟩ else st n, bind_eq y1, ?_, ?_⟩
  · show Moved d C _ (if m.name = m.name then ⟨a, c⟩ else st m.name : BnState K).mean _
    rw [if_pos rfl]; exact a2
  · show Moved d C _ (if m.name = m.name then ⟨a, c⟩ else st m.name : BnState K).var _
    rw [if_pos rfl]; exact c2

end Moved

/-! ### One layer after the other -/

/-- The elements of a batch: example, row, column, channel. -/
abbrev Elements (K : Type) := Nat → Nat → Nat → Nat → K

/-- The stage computes `V` of the number of examples, the states and the elements. -/
def Computes (tr tl : Bool) (F : Stage K) (bns : List (String × Nat)) (H W C H' W' C' : Nat) (V : Nat → States K → Elements K → Elements K) : Prop :=
  ∀ N st x f, Is x N H W C f → (∀ b ∈ bns, Ready tr tl b.2 (st b.1)) → ∃ y st', F st x = .ok (y, st') ∧ Is y N H' W' C' (V N st f)

/-- `V` depends only on the states of `bns`. -/
def Local (bns : List (String × Nat)) (V : Nat → States K → Elements K → Elements K) : Prop := ∀ N st st' f, (∀ b ∈ bns, st b.1 = st' b.1) → V N st f = V N st' f

theorem computes_comp {tr tl : Bool} {F G : Stage K} {b1 b2 : List (String × Nat)} {H W C H1 W1 C1 H2 W2 C2 : Nat} {V1 V2 : Nat → States K → Elements K → Elements K} (hg : Good tr tl F b1 [H, W, C] [H1, W1, C1])
    (h1 : Computes tr tl F b1 H W C H1 W1 C1 V1) (h2 : Computes tr tl G b2 H1 W1 C1 H2 W2 C2 V2) (hl : Local b2 V2) (hd : Apart b1 b2) :
    Computes tr tl (comp F G) (b1 ++ b2) H W C H2 W2 C2 fun N st f => V2 N st (V1 N st f) := by
  intro N st x f hx hr
  obtain ⟨y, st1, k1, k2⟩ := h1 N st x f hx fun b hb => hr b (List.mem_append_left _ hb)
  obtain ⟨y', st1', g1, g2, g3, -⟩ := hg N st x hx.shape fun b hb => hr b (List.mem_append_left _ hb)
  obtain ⟨rfl, rfl⟩ : y' = y ∧ st1' = st1 := by
    have := Except.ok.inj (g1.symm.trans k1)
    exact ⟨congrArg Prod.fst this, congrArg Prod.snd this⟩
  have key : ∀ b ∈ b2, st1' b.1 = st b.1 := fun b hb => g3 _ fun h => hd _ h (List.mem_map_of_mem hb)
  obtain ⟨z, st2, z1, z2⟩ := h2 N st1' y' _ k2 fun b hb => by rw [key b hb]; exact hr b (List.mem_append_right _ hb)
  refine ⟨z, st2, (bind_eq k1).trans z1, ?_⟩
  rw [hl N st1' st _ key] at z2
  exact z2

theorem computes_lift {tr tl : Bool} {F : Arr K → Except Err (Arr K)} {H W C H' W' C' : Nat} {V : Elements K → Elements K} (h : ∀ N x f, Is x N H W C f → ∃ y, F x = .ok y ∧ Is y N H' W' C' (V f)) :
    Computes tr tl (lift F) [] H W C H' W' C' fun _ _ f => V f := by
  intro N st x f hx _
  obtain ⟨y, h1, h2⟩ := h N x f hx
  exact ⟨y, st, bind_eq h1, h2⟩

end Verif.Picture
