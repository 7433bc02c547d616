import Verif.Model.AtariTorso
import Verif.Props.MobileNet

/-!
# The torsos of the Atari network: which sizes go through and what is computed
-/

set_option linter.unusedSectionVars false

namespace Verif.Props.AtariTorso
open Verif.Shapes (Err)
open Verif.Pool (Arr)
open Verif.Mlp (ParamFn Linear)
open Verif.ConvArr (Module)
open Verif.Props.Norm (bind_eq)
open Verif.ResNet (relu maxPool)
open Verif.MobileNet (numbered flatten)
open Verif.Stage
open Verif.Picture
open Verif.AtariTorso
open Verif.Props.ResNet (Param anyGet anyGet_there)
open Verif.Props.MobileNet (padded_at pad_none)
open Finset (range)

variable {K : Type}

/-! ### Specification: one picture -/

/-- A picture: row, column, channel. -/
abbrev Pic (K : Type) := Nat → Nat → Nat → K

/-- The number of positions of a kernel of size `k` inside `n` rows, with stride `s`. -/
def span (n k s : Nat) : Nat := if n < k then 0 else (n - k) / s + 1

/-- A convolution inside the picture. -/
def inner [Field K] (get : ParamFn K) (name : String) (k s C ch : Nat) (f : Pic K) : Pic K := fun h w c =>
  (∑ i ∈ range k, ∑ j ∈ range k, ∑ ci ∈ range C, par get name "w" [k, k, C, ch] [i, j, ci, c] * f (s * h + i) (s * w + j) ci) + par get name "b" [ch] [c]

/-- A convolution with a kernel of size 3, with one row or column of zeros on each side of a picture of `H` rows and `W` columns. -/
def around [Field K] (get : ParamFn K) (name : String) (H W C ch : Nat) (f : Pic K) : Pic K := fun h w c =>
  (∑ i ∈ range 3, ∑ j ∈ range 3, ∑ ci ∈ range C, par get name "w" [3, 3, C, ch] [i, j, ci, c] * padded H W (fun h w => f h w ci) (h + i - 1) (w + j - 1)) + par get name "b" [ch] [c]

/-- The positive part. -/
def pos [Zero K] [Max K] (f : Pic K) : Pic K := fun h w c => max (f h w c) 0

/-- The largest element of each window of size 3 with stride 2; see `poolMax_greatest`. -/
def largest [Zero K] [LinearOrder K] (H W : Nat) (f : Pic K) : Pic K := poolMax H W (fun _ => f) 0

/-- A linear layer on the elements of a picture in row-major order, and the positive part. -/
def vector [Field K] [LinearOrder K] (get : ParamFn K) (name : String) (H W C m : Nat) (f : Pic K) (k : Nat) : K :=
  max ((∑ p ∈ range (H * W * C), f (p / (W * C)) (p % (W * C) / C) (p % C) * par get name "w" [H * W * C, m] [p, k]) + par get name "b" [m] [k]) 0

/-- The parameters of a convolution. -/
def convParams (name : String) (k C ch : Nat) : List Param := [(name, "w", [k, k, C, ch]), (name, "b", [ch])]

/-- The rows after the three convolutions of the shallow torso. -/
def shallowRows (H : Nat) : Nat := span (span (span H 8 4) 4 2) 3 1

/-- The parameters of the shallow torso on pictures of `H` rows, `W` columns and `C` channels. -/
def shallowParams (name : String) (H W C : Nat) : List Param :=
  convParams (name ++ "/conv2_d") 8 C 32 ++ convParams (name ++ "/conv2_d_1") 4 32 64 ++ convParams (name ++ "/conv2_d_2") 3 64 64 ++
    [(name ++ "/linear", "w", [shallowRows H * shallowRows W * 64, 512]), (name ++ "/linear", "b", [512])]

/-- The output of the shallow torso. -/
def shallowAt [Field K] [LinearOrder K] (get : ParamFn K) (name : String) (H W C : Nat) (f : Pic K) : Nat → K :=
  vector get (name ++ "/linear") (shallowRows H) (shallowRows W) 64 512 (pos (inner get (name ++ "/conv2_d_2") 3 1 64 64
    (pos (inner get (name ++ "/conv2_d_1") 4 2 32 64 (pos (inner get (name ++ "/conv2_d") 8 4 C 32 fun h w c => f h w c / 255))))))

/-- A residual block. -/
def blockAt [Field K] [LinearOrder K] (get : ParamFn K) (name : String) (H W C : Nat) (f : Pic K) : Pic K := fun h w c =>
  around get (name ++ "/conv2_d_1") H W C C (pos (around get (name ++ "/conv2_d") H W C C (pos f))) h w c + f h w c

/-- The blocks of a section from number `j` on. -/
def blocksAt [Field K] [LinearOrder K] (get : ParamFn K) (name : String) (i H W C : Nat) : Nat → Nat → Pic K → Pic K
  | _, 0, f => f
  | j, n + 1, f => blocksAt get name i H W C (j + 1) n (blockAt get (name ++ "/residual_" ++ toString i ++ "_" ++ toString j) H W C f)

/-- The name of the convolution of section `i`. -/
def convName (name : String) (i : Nat) : String := name ++ (if i = 0 then "/conv2_d" else "/conv2_d_" ++ toString i)

/-- The sections from number `i` on. -/
def sectionsAt [Field K] [LinearOrder K] (get : ParamFn K) (name : String) : Nat → Nat → Nat → Nat → List (Nat × Nat) → Pic K → Pic K
  | _, _, _, _, [], f => f
  | i, H, W, C, (ch, n) :: rest, f => sectionsAt get name (i + 1) (up H 2) (up W 2) ch rest (blocksAt get name i (up H 2) (up W 2) ch 0 n (largest H W (around get (convName name i) H W C ch f)))

/-- The parameters of the sections from number `i` on. -/
def sectionsParams (name : String) : Nat → Nat → List (Nat × Nat) → List Param
  | _, _, [] => []
  | i, C, (ch, n) :: rest => convParams (convName name i) 3 C ch ++
      ((List.range n).flatMap fun j => convParams (name ++ "/residual_" ++ toString i ++ "_" ++ toString j ++ "/conv2_d") 3 ch ch ++ convParams (name ++ "/residual_" ++ toString i ++ "_" ++ toString j ++ "/conv2_d_1") 3 ch ch) ++
      sectionsParams name (i + 1) ch rest

/-- The rows after the three sections of the deep torso. -/
def deepRows (H : Nat) : Nat := (H + 7) / 8

/-- The parameters of the deep torso. -/
def deepParams (name : String) (H W C : Nat) : List Param := sectionsParams name 0 C [(16, 2), (32, 2), (32, 2)] ++ [(name ++ "/linear", "w", [deepRows H * deepRows W * 32, 256]), (name ++ "/linear", "b", [256])]

/-- The output of the deep torso. -/
def deepAt [Field K] [LinearOrder K] (get : ParamFn K) (name : String) (H W C : Nat) (f : Pic K) : Nat → K :=
  vector get (name ++ "/linear") (deepRows H) (deepRows W) 32 256 (pos (sectionsAt get name 0 H W C [(16, 2), (32, 2), (32, 2)] fun h w c => f h w c / 255))

/-! ### Lemmas -/

section
variable [Field K] [LinearOrder K] {get : ParamFn K}

theorem conv_there {name : String} {k C ch : Nat} (h : ∀ p ∈ convParams name k C ch, There get p) : ConvParams get name true [k, k, C, ch] ch :=
  ⟨h _ (List.mem_cons_self ..), fun _ => h _ (List.mem_cons_of_mem _ (List.mem_cons_self ..))⟩

theorem outOf_span (n : Nat) {k s : Nat} (hs : 1 ≤ s) : outOf false n k s = span n k s := by
  rw [outOf_valid]
  unfold span
  split
  · next h =>
    have : Int.fdiv ((n : Int) - k) s < 0 := by
      rw [Int.fdiv_eq_ediv_of_nonneg _ (by omega)]
      exact Int.ediv_neg_of_neg_of_pos (by omega) (by omega)
    omega
  · next h =>
    rw [Int.fdiv_eq_ediv_of_nonneg _ (by omega)]
    have : ((n : Int) - k) / s = (((n - k) / s : Nat) : Int) := by
      rw [Int.natCast_ediv]
      congr 1
      omega
    rw [this]
    exact Int.toNat_natCast _

theorem span_lt {n k s h i : Nat} (hh : h < span n k s) (hi : i < k) : s * h + i < n := by
  unfold span at hh
  split at hh
  · omega
  · have : s * h ≤ n - k := by
      have h1 : h ≤ (n - k) / s := by omega
      exact (Nat.mul_le_mul_left s h1).trans (Nat.mul_div_le _ _)
    omega

theorem inner_is {name : String} {k s C ch : Nat} (hk : 1 ≤ k) (hs : 1 ≤ s) (hp : ∀ p ∈ convParams name k C ch, There get p) {x : Arr K} {N H W : Nat} {f : Elements K} (hx : Is x N H W C f) :
    ∃ y, conv2d get name ch k s "VALID" x = .ok y ∧ Is y N (span H k s) (span W k s) ch fun e => inner get name k s C ch (f e) := by
  have hm : Module.make (K := K) name 2 ch (.seq [(k : Int), k]) (.seq [(s : Int), s]) (.scalar 1) (.str "VALID".toList) true "NHWC".toList none 1 = .ok (square name ch k s false true) := rfl
  obtain ⟨y, h1, h2⟩ := square_is hm hk hs (conv_there hp) hx
  rw [outOf_span H hs, outOf_span W hs] at h2
  refine ⟨y, (bind_eq hm).trans h1, h2.shape, fun e he h hh w hw c hc => (h2.val e he h hh w hw c hc).trans ?_⟩
  refine congrArg₂ (· + ·) ?_ rfl
  refine Finset.sum_congr rfl fun i hi => Finset.sum_congr rfl fun j hj => Finset.sum_congr rfl fun ci _ => ?_
  refine congrArg (_ * ·) ?_
  exact padded_at (fun h w => f e h w ci) (by rw [pad_none, Int.mul_comm]; omega) (by rw [pad_none, Int.mul_comm]; omega) (span_lt hh (Finset.mem_range.mp hi)) (span_lt hw (Finset.mem_range.mp hj))

theorem same_one {n : Nat} (hn : 1 ≤ n) : (Verif.Conv.stringPad true n (3 : Nat) (1 : Nat)).1 = 1 := by
  rw [same_before hn (by omega) (by omega)]
  unfold samePad up
  have : ((n + 1 - 1) / 1 - 1) * 1 + 3 - n = 2 := by omega
  rw [this]
  rfl

theorem up_one (n : Nat) : up n 1 = n := by unfold up; omega

theorem around_is {name : String} {C ch : Nat} (hp : ∀ p ∈ convParams name 3 C ch, There get p) {x : Arr K} {N H W : Nat} {f : Elements K} (hx : Is x N H W C f) :
    ∃ y, conv2d get name ch 3 1 "SAME" x = .ok y ∧ Is y N H W ch fun e => around get name H W C ch (f e) := by
  have hm : Module.make (K := K) name 2 ch (.seq [((3 : Nat) : Int), (3 : Nat)]) (.seq [((1 : Nat) : Int), (1 : Nat)]) (.scalar 1) (.str "SAME".toList) true "NHWC".toList none 1 = .ok (square name ch 3 1 true true) := rfl
  obtain ⟨y, h1, h2⟩ := square_is hm (by omega) (by omega) (conv_there hp) hx
  rw [outOf_same (by omega) (by omega), outOf_same (by omega) (by omega), up_one, up_one] at h2
  refine ⟨y, (bind_eq hm).trans h1, h2.shape, fun e he h hh w hw c hc => (h2.val e he h hh w hw c hc).trans ?_⟩
  refine congrArg₂ (· + ·) ?_ rfl
  refine Finset.sum_congr rfl fun i _ => Finset.sum_congr rfl fun j _ => Finset.sum_congr rfl fun ci _ => ?_
  rw [same_one (by omega), same_one (by omega), Nat.cast_one, Int.mul_one, Int.mul_one]

theorem pos_is {x : Arr K} {N H W C : Nat} {f : Elements K} (hx : Is x N H W C f) : Is (relu x) N H W C fun e => pos (f e) := relu_is hx

theorem scaled_is {x : Arr K} {N H W C : Nat} {f : Elements K} (hx : Is x N H W C f) : Is (scaled x) N H W C fun e h w c => f e h w c / 255 :=
  ⟨hx.shape, fun e he h hh w hw c hc => congrArg (· / 255) (hx.val e he h hh w hw c hc)⟩

theorem largest_is {x : Arr K} {N H W C : Nat} {f : Elements K} (hx : Is x N H W C f) : ∃ y, maxPool x [1, 3, 3, 1] [1, 2, 2, 1] = .ok y ∧ Is y N (up H 2) (up W 2) C fun e => largest H W (f e) := maxPool_is hx

theorem flat_is {x : Arr K} {N H W C : Nat} {f : Elements K} (hx : Is x N H W C f) :
    (flatten x).shape = [N, H * W * C] ∧ ∀ e < N, ∀ p < H * W * C, (flatten x).val [e, p] = f e (p / (W * C)) (p % (W * C) / C) (p % C) := by
  have e1 : Verif.Shapes.size [W, C] = W * C := by simp [Verif.Shapes.size]
  have e2 : Verif.Shapes.size [C] = C := by simp [Verif.Shapes.size]
  have e3 : Verif.Shapes.size [H, W, C] = H * W * C := by simp [Verif.Shapes.size, Nat.mul_assoc]
  unfold flatten
  rw [if_neg (by rw [hx.shape]; simp), hx.shape]
  refine ⟨by rw [← e3]; rfl, fun e he p hp => ?_⟩
  show x.val (e :: Verif.Nd.unravel [H, W, C] p) = _
  have hC : 0 < C := Nat.pos_of_ne_zero fun h => by subst h; simp at hp
  have hW : 0 < W := Nat.pos_of_ne_zero fun h => by subst h; simp at hp
  have hu : Verif.Nd.unravel [H, W, C] p = [p / (W * C), p % (W * C) / C, p % C] := by
    simp only [Verif.Nd.unravel, e1, e2]
    rw [show Verif.Shapes.size [] = 1 from rfl, Nat.div_one, Nat.mod_mul_left_mod]
  rw [hu]
  refine hx.val e he _ ?_ _ ?_ _ (Nat.mod_lt _ hC)
  · rw [Nat.div_lt_iff_lt_mul (Nat.mul_pos hW hC), ← Nat.mul_assoc]
    exact hp
  · rw [Nat.div_lt_iff_lt_mul hC]
    exact Nat.mod_lt _ (Nat.mul_pos hW hC)

theorem vector_is {name : String} {H W C m : Nat} (hw : There get (name, "w", [H * W * C, m])) (hb : There get (name, "b", [m])) {x : Arr K} {N : Nat} {f : Elements K} (hx : Is x N H W C f) :
    ∃ y, linear get name m (flatten x) = .ok y ∧ (relu y).shape = [N, m] ∧ ∀ e < N, ∀ k < m, (relu y).val [e, k] = vector get name H W C m (f e) k := by
  obtain ⟨f1, f2⟩ := flat_is hx
  obtain ⟨y, h1, h2, h3⟩ := linear_is (l := ⟨name, none, some m, true⟩) (m := m) rfl hw (fun _ => hb) f1
  refine ⟨y, ?_, h2, fun e he k hk => ?_⟩
  · rw [← h1]; rfl
  · show max (y.val [e, k]) 0 = _
    rw [h3]
    unfold vector
    refine congrArg (max · 0) (congrArg₂ (· + ·) (Finset.sum_congr rfl fun p hp => ?_) rfl)
    rw [f2 e he p (Finset.mem_range.mp hp)]

theorem block_is {name : String} {C : Nat} (hp : ∀ p ∈ convParams (name ++ "/conv2_d") 3 C C ++ convParams (name ++ "/conv2_d_1") 3 C C, There get p) {x : Arr K} {N H W : Nat} {f : Elements K} (hx : Is x N H W C f) :
    ∃ y, residualBlock get name C x = .ok y ∧ Is y N H W C fun e => blockAt get name H W C (f e) := by
  have e0 : name ++ "/" ++ numbered "conv2_d" 0 = name ++ "/conv2_d" := by rw [String.append_assoc]; rfl
  have e1 : name ++ "/" ++ numbered "conv2_d" 1 = name ++ "/conv2_d_1" := by rw [String.append_assoc]; rfl
  obtain ⟨y, h1, h2⟩ := around_is (fun p h => hp p (List.mem_append_left _ h)) (pos_is hx)
  obtain ⟨z, k1, k2⟩ := around_is (fun p h => hp p (List.mem_append_right _ h)) (pos_is h2)
  obtain ⟨w, w1, w2, w3⟩ := zip_equal (f := (· + ·)) (x := z) (y := x) (hx.shape.trans k2.shape.symm)
  refine ⟨w, ?_, w2.trans k2.shape, fun e he h hh v hv c hc => ?_⟩
  · unfold residualBlock
    rw [e0, e1]
    exact (bind_eq h1).trans ((bind_eq k1).trans w1)
  · rw [w3 _ (by rw [k2.shape]; exact .cons he (.cons hh (.cons hv (.cons hc .nil)))), k2.val e he h hh v hv c hc, hx.val e he h hh v hv c hc]
    rfl

theorem blocks_is {name : String} {i C : Nat} : ∀ (n j : Nat), (∀ m < n, ∀ p ∈ convParams (name ++ "/residual_" ++ toString i ++ "_" ++ toString (j + m) ++ "/conv2_d") 3 C C ++
      convParams (name ++ "/residual_" ++ toString i ++ "_" ++ toString (j + m) ++ "/conv2_d_1") 3 C C, There get p) → ∀ {x : Arr K} {N H W : Nat} {f : Elements K}, Is x N H W C f →
    ∃ y, blocks get name i C j n x = .ok y ∧ Is y N H W C fun e => blocksAt get name i H W C j n (f e)
  | 0, _, _, x, _, _, _, _, hx => ⟨x, rfl, hx⟩
  | n + 1, j, hp, x, N, H, W, f, hx => by
    obtain ⟨y, h1, h2⟩ := block_is (hp 0 (Nat.succ_pos n)) hx
    obtain ⟨z, k1, k2⟩ := blocks_is n (j + 1) (fun m hm => by
      rw [show j + 1 + m = j + (m + 1) by omega]
      exact hp (m + 1) (Nat.succ_lt_succ hm)) h2
    exact ⟨z, (bind_eq h1).trans k1, k2⟩

theorem conv_name (name : String) (i : Nat) : name ++ "/" ++ numbered "conv2_d" i = convName name i := by
  unfold numbered convName
  rw [String.append_assoc]
  split
  · rfl
  · rw [show name ++ ("/" ++ ("conv2_d" ++ "_" ++ toString i)) = name ++ ("/" ++ ("conv2_d" ++ "_") ++ toString i) by simp only [String.append_assoc]]; rfl

/-- The sizes after sections. -/
def rowsAfter (H : Nat) : List (Nat × Nat) → Nat
  | [] => H
  | _ :: rest => rowsAfter (up H 2) rest

/-- The channels after sections. -/
def channelsAfter (C : Nat) : List (Nat × Nat) → Nat
  | [] => C
  | q :: rest => channelsAfter q.1 rest

theorem sections_is {name : String} : ∀ (l : List (Nat × Nat)) (i C : Nat), (∀ p ∈ sectionsParams name i C l, There get p) → ∀ {x : Arr K} {N H W : Nat} {f : Elements K}, Is x N H W C f →
    ∃ y, sections get name i l x = .ok y ∧ Is y N (rowsAfter H l) (rowsAfter W l) (channelsAfter C l) fun e => sectionsAt get name i H W C l (f e)
  | [], _, _, _, x, _, _, _, _, hx => ⟨x, rfl, hx⟩
  | (ch, n) :: rest, i, C, hp, x, N, H, W, f, hx => by
    obtain ⟨y, h1, h2⟩ := around_is (name := convName name i) (ch := ch) (fun p h => hp p (List.mem_append_left _ (List.mem_append_left _ h))) hx
    obtain ⟨z, k1, k2⟩ := largest_is h2
    obtain ⟨u, u1, u2⟩ := blocks_is (get := get) (name := name) (i := i) n 0 (fun m hm p h => hp p (List.mem_append_left _ (List.mem_append_right _ (List.mem_flatMap.2 ⟨m, List.mem_range.2 hm, by rwa [Nat.zero_add] at h⟩)))) k2
    obtain ⟨v, v1, v2⟩ := sections_is rest (i + 1) ch (fun p h => hp p (List.mem_append_right _ h)) u2
    refine ⟨v, ?_, v2⟩
    rw [sections, conv_name]
    exact (bind_eq h1).trans ((bind_eq k1).trans ((bind_eq u1).trans v1))

theorem deep_rows (H : Nat) : rowsAfter H [(16, 2), (32, 2), (32, 2)] = deepRows H := by
  simp only [rowsAfter, up, deepRows]
  omega

theorem shallow_calc {name : String} {C : Nat} {x : Arr K} {N H W : Nat} {f : Elements K} (hp : ∀ p ∈ shallowParams name H W C, There get p) (hx : Is x N H W C f) :
    ∃ y, shallow get name x = .ok y ∧ y.shape = [N, 512] ∧ ∀ e < N, ∀ k < 512, y.val [e, k] = shallowAt get name H W C (f e) k := by
  have e0 : name ++ "/" ++ numbered "conv2_d" 0 = name ++ "/conv2_d" := by rw [String.append_assoc]; rfl
  have e1 : name ++ "/" ++ numbered "conv2_d" 1 = name ++ "/conv2_d_1" := by rw [String.append_assoc]; rfl
  have e2 : name ++ "/" ++ numbered "conv2_d" 2 = name ++ "/conv2_d_2" := by rw [String.append_assoc]; rfl
  unfold shallowParams at hp
  simp only [List.mem_append] at hp
  obtain ⟨a, a1, a2⟩ := inner_is (s := 4) (by omega) (by omega) (fun p h => hp p (.inl (.inl (.inl h)))) (scaled_is hx)
  obtain ⟨b, b1, b2⟩ := inner_is (s := 2) (by omega) (by omega) (fun p h => hp p (.inl (.inl (.inr h)))) (pos_is a2)
  obtain ⟨c, c1, c2⟩ := inner_is (s := 1) (by omega) (by omega) (fun p h => hp p (.inl (.inr h))) (pos_is b2)
  obtain ⟨d, d1, d2, d3⟩ := vector_is (hp _ (.inr (List.mem_cons_self ..))) (hp _ (.inr (List.mem_cons_of_mem _ (List.mem_cons_self ..)))) (pos_is c2)
  refine ⟨relu d, ?_, d2, d3⟩
  unfold shallow
  rw [e0, e1, e2]
  exact (bind_eq a1).trans ((bind_eq b1).trans ((bind_eq c1).trans (bind_eq d1)))

theorem deep_calc {name : String} {C : Nat} {x : Arr K} {N H W : Nat} {f : Elements K} (hp : ∀ p ∈ deepParams name H W C, There get p) (hx : Is x N H W C f) :
    ∃ y, deep get name x = .ok y ∧ y.shape = [N, 256] ∧ ∀ e < N, ∀ k < 256, y.val [e, k] = deepAt get name H W C (f e) k := by
  unfold deepParams at hp
  simp only [List.mem_append] at hp
  obtain ⟨a, a1, a2⟩ := sections_is [(16, 2), (32, 2), (32, 2)] 0 C (fun p h => hp p (.inl h)) (scaled_is hx)
  rw [deep_rows, deep_rows] at a2
  obtain ⟨d, d1, d2, d3⟩ := vector_is (hp _ (.inr (List.mem_cons_self ..))) (hp _ (.inr (List.mem_cons_of_mem _ (List.mem_cons_self ..)))) (pos_is a2)
  exact ⟨relu d, (bind_eq a1).trans (bind_eq d1), d2, d3⟩

/-- A picture of a batch may be described by any function that agrees with it. -/
theorem is_with {x : Arr K} {N H W C : Nat} (hx : x.shape = [N, H, W, C]) (e : Nat) (g : Pic K) (h : ∀ a < H, ∀ b < W, ∀ c < C, x.val [e, a, b, c] = g a b c) :
    Is x N H W C fun e' => if e' = e then g else fun a b c => x.val [e', a, b, c] :=
  ⟨hx, fun e' _ a ha b hb c hc => by
    by_cases he : e' = e
    · subst he; rw [if_pos rfl]; exact h a ha b hb c hc
    · rw [if_neg he]⟩

/-! ### Claims -/

/-- C187: the shallow torso runs on every batch of pictures if its parameters have the sizes listed by `shallowParams`, and gives 512 numbers for each picture: those of the layers on that picture. -/
theorem shallow_is (name : String) (N H W C : Nat) (x : Arr K) (hp : ∀ p ∈ shallowParams name H W C, There get p) (hx : x.shape = [N, H, W, C]) :
    ∃ y, shallow get name x = .ok y ∧ y.shape = [N, 512] ∧ ∀ e < N, ∀ k < 512, y.val [e, k] = shallowAt get name H W C (fun h w c => x.val [e, h, w, c]) k :=
  shallow_calc hp (el_is hx)

/-- C187: so does the deep torso, with 256 numbers. -/
theorem deep_is (name : String) (N H W C : Nat) (x : Arr K) (hp : ∀ p ∈ deepParams name H W C, There get p) (hx : x.shape = [N, H, W, C]) :
    ∃ y, deep get name x = .ok y ∧ y.shape = [N, 256] ∧ ∀ e < N, ∀ k < 256, y.val [e, k] = deepAt get name H W C (fun h w c => x.val [e, h, w, c]) k :=
  deep_calc hp (el_is hx)

/-- C187: equal pictures get equal outputs, whatever else is in their batches and however large these are. -/
theorem torso_alone (name : String) (N N' H W C e e' : Nat) (x x' : Arr K) (hx : x.shape = [N, H, W, C]) (hx' : x'.shape = [N', H, W, C]) (he : e < N) (he' : e' < N')
    (h : ∀ a < H, ∀ b < W, ∀ c < C, x.val [e, a, b, c] = x'.val [e', a, b, c]) :
    ((∀ p ∈ shallowParams name H W C, There get p) → ∃ y y', shallow get name x = .ok y ∧ shallow get name x' = .ok y' ∧ ∀ k < 512, y.val [e, k] = y'.val [e', k]) ∧
    ((∀ p ∈ deepParams name H W C, There get p) → ∃ y y', deep get name x = .ok y ∧ deep get name x' = .ok y' ∧ ∀ k < 256, y.val [e, k] = y'.val [e', k]) := by
  have h1 := is_with hx e (fun a b c => x.val [e, a, b, c]) fun _ _ _ _ _ _ => rfl
  have h2 := is_with hx' e' (fun a b c => x.val [e, a, b, c]) fun a ha b hb c hc => (h a ha b hb c hc).symm
  refine ⟨fun hp => ?_, fun hp => ?_⟩
  · obtain ⟨y, y1, -, y3⟩ := shallow_calc hp h1
    obtain ⟨z, z1, -, z3⟩ := shallow_calc hp h2
    refine ⟨y, z, y1, z1, fun k hk => ?_⟩
    rw [y3 e he k hk, z3 e' he' k hk, if_pos rfl, if_pos rfl]
  · obtain ⟨y, y1, -, y3⟩ := deep_calc hp h1
    obtain ⟨z, z1, -, z3⟩ := deep_calc hp h2
    refine ⟨y, z, y1, z1, fun k hk => ?_⟩
    rw [y3 e he k hk, z3 e' he' k hk, if_pos rfl, if_pos rfl]

omit [Field K] [LinearOrder K] in
/-- C187: the shallow torso has nothing left of fewer than 36 rows; the deep torso rounds an eighth of the rows up. -/
theorem torso_rows (H : Nat) : (shallowRows H = 0 ↔ H < 36) ∧ (36 ≤ H → shallowRows H = (((H - 8) / 4 + 1 - 4) / 2 + 1) - 2) ∧ deepRows H = rowsAfter H layout ∧ (deepRows H = 0 ↔ H = 0) := by
  refine ⟨?_, fun h => ?_, (deep_rows H).symm, ?_⟩
  · simp only [shallowRows, span]
    split <;> (try split) <;> (try split) <;> omega
  · simp only [shallowRows, span]
    split <;> (try split) <;> (try split) <;> omega
  · unfold deepRows; omega

/-- C187: below 36 rows or columns the output of the shallow torso is the positive part of the bias of its last layer, whatever is in the picture. -/
theorem shallow_blind (name : String) (N H W C : Nat) (x : Arr K) (hp : ∀ p ∈ shallowParams name H W C, There get p) (hx : x.shape = [N, H, W, C]) (hs : H < 36 ∨ W < 36) :
    ∃ y, shallow get name x = .ok y ∧ ∀ e < N, ∀ k < 512, y.val [e, k] = max (par get (name ++ "/linear") "b" [512] [k]) 0 := by
  obtain ⟨y, y1, -, y3⟩ := shallow_is name N H W C x hp hx
  refine ⟨y, y1, fun e he k hk => ?_⟩
  rw [y3 e he k hk]
  have : shallowRows H * shallowRows W * 64 = 0 := by
    rcases hs with h | h
    · rw [(torso_rows H).1.2 h]; simp
    · rw [(torso_rows W).1.2 h]; simp
  unfold shallowAt vector
  rw [this]
  simp

end

/-! ### Cases -/

/-- Two Atari frames with 4 channels; the parameters exist in the sizes asked for. -/
def frames : Arr ℚ := ⟨[2, 84, 84, 4], fun i => i.sum⟩

example : frames.shape = [2, 84, 84, 4] ∧ (∀ p ∈ shallowParams "t" 84 84 4, There anyGet p) ∧ (∀ p ∈ deepParams "t" 84 84 4, There anyGet p) ∧ shallowRows 84 * shallowRows 84 * 64 = 3136 ∧ deepRows 84 * deepRows 84 * 32 = 3872 :=
  ⟨rfl, fun p _ => anyGet_there p, fun p _ => anyGet_there p, by decide, by decide⟩

/-- The first frame alone. -/
example : ∀ a < 84, ∀ b < 84, ∀ c < 4, frames.val [0, a, b, c] = (⟨[1, 84, 84, 4], fun i => i.sum⟩ : Arr ℚ).val [0, a, b, c] := fun _ _ _ _ _ _ => rfl

example : (⟨[3, 35, 84, 4], fun i => i.sum⟩ : Arr ℚ).shape = [3, 35, 84, 4] ∧ 35 < 36 := ⟨rfl, by decide⟩

end Verif.Props.AtariTorso
