import Mathlib.Algebra.BigOperators.Group.List.Basic
import Mathlib.Algebra.BigOperators.Ring.List
import Verif.Props.ConvArr

/-!
# Shifts, groups and linearity of convolutions (C109, C110, C111)
-/

set_option linter.unusedVariables false
set_option linter.unusedSectionVars false

namespace Verif.Props.ConvShift
open Verif.Shapes (Err)
open Verif.Utils
open Verif.Conv
open Verif.Props.Conv
open Verif.ConvArr (taps)
open Verif.Props.ConvArr
open Verif.Props.Utils (entry)
open Verif.Props.Reset (Valid mem_indices)

variable {K : Type}

/-! ### Specification -/

/-- `x'` is the part of `x` that starts at position `o`. -/
def Part (o : List Int) (x x' : Image K) : Prop :=
  x'.channels = x.channels ∧ x'.sizes.length = x.sizes.length ∧ ∀ p, inside x'.sizes p = true → inside x.sizes (List.zipWith (· + ·) p o) = true ∧ ∀ c, x'.val p c = x.val (List.zipWith (· + ·) p o) c

/-! ### Lemmas -/

/-- No padding. -/
def zeros (n : Nat) : List (Int × Int) := List.replicate n (0, 0)

theorem valid_pads : ∀ (ns ks ss : List Int) (n : Nat), ns.length = n → ks.length = n → ss.length = n → List.zipWith (fun nk s => stringPad false nk.1 nk.2 s) (ns.zip ks) ss = zeros n
  | [], [], [], 0, _, _, _ => rfl
  | a :: ns, k :: ks, s :: ss, n + 1, h1, h2, h3 => by
    show (0, 0) :: List.zipWith _ (ns.zip ks) ss = _
    rw [valid_pads ns ks ss n (Nat.succ.inj h1) (Nat.succ.inj h2) (Nat.succ.inj h3)]
    rfl

theorem tap_inside : ∀ (ns ks ss rs : List Int) (t : List Int) (j : List Nat) (n : Nat), ks.length = n → ss.length = n → rs.length = n → ns.length = n → (∀ s ∈ ss, 1 ≤ s) → (∀ r ∈ rs, 1 ≤ r) →
    inside (outSizes ns (List.zipWith (fun k r => dilate k r) ks rs) ss (zeros n)) t = true → Valid (ks.map Int.toNat) j → inside ns (tap ss rs (zeros n) t j) = true
  | [], [], [], [], [], [], 0, _, _, _, _, _, _, _, _ => rfl
  | [], [], [], [], _ :: _, _, 0, _, _, _, _, _, _, h, _ => by cases h
  | a :: ns, k :: ks, s :: ss, r :: rs, [], j, n + 1, _, _, _, _, _, _, h, _ => by cases h
  | a :: ns, k :: ks, s :: ss, r :: rs, t :: ts, [], n + 1, _, _, _, _, _, _, _, hj => by cases hj
  | a :: ns, k :: ks, s :: ss, r :: rs, t :: ts, j :: js, n + 1, h1, h2, h3, h4, hs, hr, h, hj => by
    have h' : (decide (0 ≤ t) && decide (t < outSize a (dilate k r) s 0 0) && inside (outSizes ns (List.zipWith (fun k r => dilate k r) ks rs) ss (zeros n)) ts) = true := h
    show (decide (0 ≤ t * s + j * r - 0) && decide (t * s + j * r - 0 < a) && inside ns (tap ss rs (zeros n) ts js)) = true
    simp only [Bool.and_eq_true, decide_eq_true_eq] at h' ⊢
    obtain ⟨⟨p1, p2⟩, p3⟩ := h'
    cases hj with
    | cons hj hjs =>
      have s1 := hs s (.head _)
      have r1 := hr r (.head _)
      have jk : (j : Int) < k := by omega
      refine ⟨⟨?_, ?_⟩, tap_inside ns ks ss rs ts js n (Nat.succ.inj h1) (Nat.succ.inj h2) (Nat.succ.inj h3) (Nat.succ.inj h4) (fun s h => hs s (.tail _ h)) (fun s h => hr s (.tail _ h)) p3 hjs⟩
      · have := Int.mul_nonneg p1 (show (0 : Int) ≤ s by omega)
        have := Int.mul_nonneg (Int.natCast_nonneg j) (show (0 : Int) ≤ r by omega)
        omega
      · have hd : dilate k r = (k - 1) * r + 1 := if_neg (by omega)
        unfold outSize at p2
        rw [Int.fdiv_eq_ediv_of_nonneg _ (by omega), hd] at p2
        have p3 : t ≤ (a + 0 + 0 - ((k - 1) * r + 1)) / s := by omega
        have p4 : t * s ≤ a + 0 + 0 - ((k - 1) * r + 1) := (Int.le_ediv_iff_mul_le (by omega)).mp p3
        have p5 : (j : Int) * r ≤ (k - 1) * r := Int.mul_le_mul_of_nonneg_right (by omega) (by omega)
        omega

theorem out_inside : ∀ (ns ks ss rs : List Int) (t : List Int) (n : Nat), ks.length = n → ss.length = n → rs.length = n → ns.length = n → t.length = n → (∀ s ∈ ss, 1 ≤ s) → (∀ k ∈ ks, 1 ≤ k) →
    inside ns (tap ss rs (zeros n) t (ks.map fun _ => 0)) = true → inside ns (tap ss rs (zeros n) t (ks.map fun k => k.toNat - 1)) = true →
    inside (outSizes ns (List.zipWith (fun k r => dilate k r) ks rs) ss (zeros n)) t = true
  | [], [], [], [], [], 0, _, _, _, _, _, _, _, _, _ => rfl
  | a :: ns, k :: ks, s :: ss, r :: rs, t :: ts, n + 1, h1, h2, h3, h4, h5, hs, hk, g1, g2 => by
    have g1' : (decide (0 ≤ t * s + ((0 : Nat) : Int) * r - 0) && decide (t * s + ((0 : Nat) : Int) * r - 0 < a) && inside ns (tap ss rs (zeros n) ts (ks.map fun _ => 0))) = true := g1
    have g2' : (decide (0 ≤ t * s + ((k.toNat - 1 : Nat) : Int) * r - 0) && decide (t * s + ((k.toNat - 1 : Nat) : Int) * r - 0 < a) && inside ns (tap ss rs (zeros n) ts (ks.map fun k => k.toNat - 1))) = true := g2
    show (decide (0 ≤ t) && decide (t < outSize a (dilate k r) s 0 0) && inside (outSizes ns (List.zipWith (fun k r => dilate k r) ks rs) ss (zeros n)) ts) = true
    simp only [Bool.and_eq_true, decide_eq_true_eq] at g1' g2' ⊢
    obtain ⟨⟨p1, p2⟩, p3⟩ := g1'
    obtain ⟨⟨q1, q2⟩, q3⟩ := g2'
    have s1 := hs s (.head _)
    have k1 := hk k (.head _)
    refine ⟨⟨?_, ?_⟩, out_inside ns ks ss rs ts n (Nat.succ.inj h1) (Nat.succ.inj h2) (Nat.succ.inj h3) (Nat.succ.inj h4) (Nat.succ.inj h5) (fun s h => hs s (.tail _ h)) (fun s h => hk s (.tail _ h)) p3 q3⟩
    · refine Int.not_lt.mp fun h => ?_
      have : t * s ≤ -1 * s := Int.mul_le_mul_of_nonneg_right (by omega) (by omega)
      omega
    · have hd : dilate k r = (k - 1) * r + 1 := if_neg (by omega)
      unfold outSize
      rw [Int.fdiv_eq_ediv_of_nonneg _ (by omega), hd]
      have e : ((k.toNat - 1 : Nat) : Int) = k - 1 := by omega
      rw [e] at q2
      have : t ≤ (a + 0 + 0 - ((k - 1) * r + 1)) / s := (Int.le_ediv_iff_mul_le (by omega)).mpr (by omega)
      omega

theorem tap_shift : ∀ (ss rs t o : List Int) (j : List Nat) (n : Nat), ss.length = n → rs.length = n → t.length = n → o.length = n → j.length = n →
    tap ss rs (zeros n) (List.zipWith (· + ·) t o) j = List.zipWith (· + ·) (tap ss rs (zeros n) t j) (List.zipWith (· * ·) o ss)
  | [], [], [], [], [], 0, _, _, _, _, _ => rfl
  | s :: ss, r :: rs, t :: ts, o :: os, j :: js, n + 1, h1, h2, h3, h4, h5 => by
    show ((t + o) * s + j * r - 0) :: tap ss rs (zeros n) (List.zipWith (· + ·) ts os) js = (t * s + j * r - 0 + o * s) :: List.zipWith (· + ·) (tap ss rs (zeros n) ts js) (List.zipWith (· * ·) os ss)
    rw [tap_shift ss rs ts os js n (Nat.succ.inj h1) (Nat.succ.inj h2) (Nat.succ.inj h3) (Nat.succ.inj h4) (Nat.succ.inj h5), Int.add_mul]
    congr 1
    omega

theorem valid_corner (ks : List Int) (hk : ∀ k ∈ ks, 1 ≤ k) : Valid (ks.map Int.toNat) (ks.map fun _ => 0) ∧ Valid (ks.map Int.toNat) (ks.map fun k => k.toNat - 1) := by
  induction ks with
  | nil => exact ⟨.nil, .nil⟩
  | cons k ks ih =>
    obtain ⟨h1, h2⟩ := ih fun k h => hk k (.tail _ h)
    have := hk k (.head _)
    exact ⟨.cons (by show 0 < k.toNat; omega) h1, .cons (by show k.toNat - 1 < k.toNat; omega) h2⟩

theorem inside_len : ∀ {ns p : List Int}, inside ns p = true → p.length = ns.length
  | [], [], _ => rfl
  | n :: ns, p :: ps, h => by
    have h' : (decide (0 ≤ p) && decide (p < n) && inside ns ps) = true := h
    rw [Bool.and_eq_true] at h'
    show ps.length + 1 = ns.length + 1
    rw [inside_len h'.2]

/-! ### C109 -/

/-- C109 A convolution with `VALID` padding commutes with taking a part of its input: if `x'` is the part of `x` that starts at `o` times the strides, the convolution of `x'` is the part of the convolution of `x` that starts at `o`.  Kernels have at least
one element; strides, dilations, groups and the number of dimensions are arbitrary. -/
theorem valid_shift [AddCommMonoid K] [Mul K] (N : Int) (oc g : Nat) (kernel stride rate : Arg Int) (s : List Char) (m : ConvND) (h : ConvND.make N oc kernel stride rate (.str s) g = .ok m) (hs : s.map Char.toUpper = "VALID".toList)
    (hk : ∀ k ∈ m.kernelShape, 1 ≤ k) (W : List Nat → Nat → Nat → K) (b : Nat → K) (x x' y : Image K) (o : List Int) (ho : o.length = N.toNat) (hx : Part (List.zipWith (· * ·) o m.stride) x x') (hy : m.call W b x = .ok y) :
    ∃ y', m.call W b x' = .ok y' ∧ Part o y y' := by
  obtain ⟨hN, hd, hg, hoc, hkk, hst, hr, hpad⟩ := make_ok h
  dsimp only at hpad
  rw [hs] at hpad
  have kk := (fitting_of_ok hkk).2.1
  have kr := (fitting_of_ok hr).2.1
  have ks := (fitting_of_ok hst).2.1
  obtain ⟨c1, c2, c3, c4, c5, c6, ps, c7, rfl⟩ := call_conds hy
  obtain ⟨x1, x2, x3⟩ := hx
  have hl : x.sizes.length = N.toNat := c1.trans hd
  have hz (z : Image K) (hz : z.sizes.length = N.toNat) : m.pads z.sizes = .ok (zeros N.toNat) := by
    unfold ConvND.pads
    rw [hpad]
    dsimp only
    refine (if_neg (by decide)).trans ((if_pos rfl).trans ?_)
    rw [valid_pads _ _ _ N.toNat hz (by rw [List.length_zipWith, kk, kr, Nat.min_self]) ks]
  have : ps = zeros N.toNat := Except.ok.inj (c7.symm.trans (hz x hl))
  subst this
  refine ⟨m.output W b x' (zeros N.toNat), ?_, rfl, ?_, fun t ht => ?_⟩
  · unfold ConvND.call
    have e3 : ¬ (m.stride.any (· ≤ 0) = true ∨ m.kernelDilation.any (· ≤ 0) = true ∨ m.kernelShape.any (· < 0) = true) := by
      simp only [List.any_eq_true, decide_eq_true_eq]
      rintro (⟨s, h, k⟩ | ⟨s, h, k⟩ | ⟨s, h, k⟩)
      · have := c4 s h; omega
      · have := c5 s h; omega
      · have := c6 s h; omega
    rw [if_neg (fun h => h (x2.trans c1)), if_neg (by rw [x1]; exact fun h => h.elim (fun h => h c3) c2), if_neg e3, hz x' (x2.trans hl)]
    rfl
  · exact (outSizes_length _ _ _ _ N.toNat (x2.trans hl) (by rw [List.length_zipWith, kk, kr, Nat.min_self]) ks (List.length_replicate ..)).trans
      (outSizes_length _ _ _ _ N.toNat hl (by rw [List.length_zipWith, kk, kr, Nat.min_self]) ks (List.length_replicate ..)).symm
  · replace ht : inside (outSizes x'.sizes (List.zipWith (fun k r => dilate k r) m.kernelShape m.kernelDilation) m.stride (zeros N.toNat)) t = true := ht
    have htl : t.length = N.toNat := by
      rw [inside_len ht]
      exact outSizes_length _ _ _ _ N.toNat (x2.trans hl) (by rw [List.length_zipWith, kk, kr, Nat.min_self]) ks (List.length_replicate ..)
    have key (j : List Nat) (hj : Valid (m.kernelShape.map Int.toNat) j) : inside x'.sizes (tap m.stride m.kernelDilation (zeros N.toNat) t j) = true ∧
        inside x.sizes (tap m.stride m.kernelDilation (zeros N.toNat) (List.zipWith (· + ·) t o) j) = true ∧
        ∀ c, x'.val (tap m.stride m.kernelDilation (zeros N.toNat) t j) c = x.val (tap m.stride m.kernelDilation (zeros N.toNat) (List.zipWith (· + ·) t o) j) c := by
      have hjl : j.length = N.toNat := by rw [hj.length_eq, List.length_map, kk]
      have hi := tap_inside x'.sizes m.kernelShape m.stride m.kernelDilation t j N.toNat kk ks kr (x2.trans hl) c4 c5 ht hj
      rw [tap_shift _ _ _ _ _ N.toNat ks kr htl ho hjl]
      exact ⟨hi, x3 _ hi⟩
    obtain ⟨v1, v2⟩ := valid_corner m.kernelShape hk
    refine ⟨?_, fun c => ?_⟩
    · exact out_inside x.sizes m.kernelShape m.stride m.kernelDilation _ N.toNat kk ks kr hl (by rw [List.length_zipWith, htl, ho, Nat.min_self]) c4 hk (key _ v1).2.1 (key _ v2).2.1
    · rw [output_val, output_val, x1]
      refine congrArg (· + b c) ?_
      unfold taps
      refine congrArg List.sum (List.map_congr_left fun j hj => congrArg List.sum (List.map_congr_left fun ci _ => congrArg (W j ci c * ·) ?_))
      obtain ⟨k1, k2, k3⟩ := key j (mem_indices.mp hj)
      unfold Image.get
      rw [if_pos k1, if_pos k2, k3]

/-! ### C110 -/

/-- One group of the channels of an image. -/
def group (x : Image K) (I i : Nat) : Image K := ⟨x.sizes, I, fun p c => x.val p (i * I + c)⟩

/-- C110 A convolution with groups is as many convolutions without groups, side by side: on group `i` of the input channels, with the weights and biases of group `i` of the output channels, the convolution with otherwise the same arguments and
`output_channels // groups` channels succeeds and returns group `i` of the output. -/
theorem groups_separate [AddCommMonoid K] [Mul K] (N : Int) (oc g : Nat) (kernel stride rate : Arg Int) (padding : PadArg) (m m' : ConvND) (h : ConvND.make N oc kernel stride rate padding g = .ok m)
    (h' : ConvND.make N (oc / g) kernel stride rate padding 1 = .ok m') (W : List Nat → Nat → Nat → K) (b : Nat → K) (x y : Image K) (hy : m.call W b x = .ok y) (i : Nat) :
    ∃ z, m'.call (fun j ci c => W j ci (i * (oc / g) + c)) (fun c => b (i * (oc / g) + c)) (group x (x.channels / g) i) = .ok z ∧ z.sizes = y.sizes ∧ z.channels = oc / g ∧
      ∀ t c, c < oc / g → z.val t c = y.val t (i * (oc / g) + c) := by
  obtain ⟨hN, hd, hg, hoc, hkk, hst, hr, hpad⟩ := make_ok h
  obtain ⟨_, hd', hg', hoc', hkk', hst', hr', hpad'⟩ := make_ok h'
  have ek : m'.kernelShape = m.kernelShape := Except.ok.inj (hkk'.symm.trans hkk)
  have es : m'.stride = m.stride := Except.ok.inj (hst'.symm.trans hst)
  have er : m'.kernelDilation = m.kernelDilation := Except.ok.inj (hr'.symm.trans hr)
  have ep : m'.padding = m.padding := by
    cases padding with
    | str s => exact hpad'.trans hpad.symm
    | fns p =>
      obtain ⟨ps, p1, p2⟩ := hpad
      obtain ⟨ps', p1', p2'⟩ := hpad'
      have : ps' = ps := Except.ok.inj (p1'.symm.trans p1)
      rw [p2, p2', this, ek, er]
  obtain ⟨c1, c2, c3, c4, c5, c6, ps, c7, rfl⟩ := call_conds hy
  have hpads : m'.pads x.sizes = .ok ps := by
    rw [← c7]
    unfold ConvND.pads
    rw [ek, es, er, ep]
  refine ⟨m'.output (fun j ci c => W j ci (i * (oc / g) + c)) (fun c => b (i * (oc / g) + c)) (group x (x.channels / g) i) ps, ?_, ?_, hoc', fun t c hc => ?_⟩
  · unfold ConvND.call
    have e3 : ¬ (m'.stride.any (· ≤ 0) = true ∨ m'.kernelDilation.any (· ≤ 0) = true ∨ m'.kernelShape.any (· < 0) = true) := by
      rw [ek, es, er]
      simp only [List.any_eq_true, decide_eq_true_eq]
      rintro (⟨s, h, k⟩ | ⟨s, h, k⟩ | ⟨s, h, k⟩)
      · have := c4 s h; omega
      · have := c5 s h; omega
      · have := c6 s h; omega
    rw [if_neg (fun h => h (c1.trans (hd.trans hd'.symm))), if_neg (by rw [hg']; exact fun h => h.elim (fun h => h (Nat.mod_one _)) (by decide)), if_neg e3]
    show Except.map _ (m'.pads x.sizes) = _
    rw [hpads]
    rfl
  · show outSizes x.sizes (List.zipWith (fun k r => dilate k r) m'.kernelShape m'.kernelDilation) m'.stride ps = outSizes x.sizes (List.zipWith (fun k r => dilate k r) m.kernelShape m.kernelDilation) m.stride ps
    rw [ek, es, er]
  · rw [output_val, output_val, hoc', hg', hoc, hg, ek, es, er]
    refine congrArg (· + _) ?_
    unfold taps
    show ((indices _).map fun j => ((List.range (x.channels / g / 1)).map fun ci => W j ci (i * (oc / g) + c) * (group x (x.channels / g) i).get _ (c / (oc / g / 1) * (x.channels / g / 1) + ci)).sum).sum = _
    rw [Nat.div_one, Nat.div_one, Nat.div_eq_of_lt hc, Nat.mul_add_div (by omega) i c |> fun e => (by rw [Nat.mul_comm] at e; exact e : (i * (oc / g) + c) / (oc / g) = i + c / (oc / g)), Nat.div_eq_of_lt hc, Nat.add_zero]
    refine congrArg List.sum (List.map_congr_left fun j _ => congrArg List.sum (List.map_congr_left fun ci _ => congrArg (W j ci (i * (oc / g) + c) * ·) ?_))
    rw [Nat.zero_mul, Nat.zero_add]
    rfl

/-! ### C111 -/

/-- `a * x + a' * x'` for images of the same sizes. -/
def comb [Add K] [Mul K] (a a' : K) (x x' : Image K) : Image K := ⟨x.sizes, x.channels, fun p c => a * x.val p c + a' * x'.val p c⟩

theorem sum_comb [CommSemiring K] {ι : Type} (a a' : K) (f f' : ι → K) (l : List ι) : (l.map fun i => a * f i + a' * f' i).sum = a * (l.map f).sum + a' * (l.map f').sum := by
  induction l with
  | nil => show (0 : K) = a * 0 + a' * 0; rw [mul_zero, mul_zero, add_zero]
  | cons i l ih =>
    rw [List.map_cons, List.sum_cons, ih, List.map_cons, List.sum_cons, List.map_cons, List.sum_cons, mul_add, mul_add, add_add_add_comm]

/-- C111 A convolution without bias is linear in its input: for images of the same sizes, the convolution of a linear combination is the linear combination of the convolutions. -/
theorem linear_input [CommSemiring K] (N : Int) (oc g : Nat) (kernel stride rate : Arg Int) (padding : PadArg) (m : ConvND) (h : ConvND.make N oc kernel stride rate padding g = .ok m) (W : List Nat → Nat → Nat → K) (a a' : K)
    (x x' y y' : Image K) (hs : x'.sizes = x.sizes) (hc : x'.channels = x.channels) (hy : m.call W (fun _ => 0) x = .ok y) (hy' : m.call W (fun _ => 0) x' = .ok y') :
    m.call W (fun _ => 0) (comb a a' x x') = .ok (comb a a' y y') := by
  obtain ⟨ps, h1, h2, h3⟩ := call_of (W' := W) (b' := fun _ => 0) (x' := comb a a' x x') hy rfl rfl
  obtain ⟨ps', k1, k2, k3⟩ := call_of (W' := W) (b' := fun _ => 0) (x' := x') hy hs hc
  have : ps' = ps := Except.ok.inj (k1.symm.trans h1)
  subst this
  have e := Except.ok.inj (hy'.symm.trans k3)
  rw [h3]
  refine congrArg Except.ok ?_
  have hv (t : List Int) (c : Nat) : (m.output W (fun _ => 0) (comb a a' x x') ps').val t c = a * y.val t c + a' * y'.val t c := by
    rw [h2, e, output_val, output_val, output_val, add_zero, add_zero, add_zero, hc]
    show taps W (comb a a' x x') _ _ _ _ (x.channels / _) _ t c = _
    unfold taps
    rw [← sum_comb]
    refine congrArg List.sum (List.map_congr_left fun j _ => ?_)
    rw [← sum_comb]
    refine congrArg List.sum (List.map_congr_left fun ci _ => ?_)
    rw [mul_left_comm, mul_left_comm a' (W j ci c), ← mul_add]
    refine congrArg (W j ci c * ·) ?_
    unfold Image.get
    rw [hs]
    show (if inside x.sizes _ = true then a * _ + a' * _ else 0) = _
    split
    · rfl
    · rw [mul_zero, mul_zero, add_zero]
  show (⟨_, _, _⟩ : Image K) = ⟨_, _, _⟩
  have e1 : (m.output W (fun _ => 0) (comb a a' x x') ps').sizes = y.sizes := by rw [h2]; rfl
  have e2 : (m.output W (fun _ => 0) (comb a a' x x') ps').channels = y.channels := by rw [h2]; rfl
  exact Image.mk.injEq .. |>.mpr ⟨e1, e2, funext fun t => funext fun c => hv t c⟩

/-- C111 It is also linear in its weights. -/
theorem linear_weights [CommSemiring K] (N : Int) (oc g : Nat) (kernel stride rate : Arg Int) (padding : PadArg) (m : ConvND) (h : ConvND.make N oc kernel stride rate padding g = .ok m) (W W' : List Nat → Nat → Nat → K) (a a' : K)
    (x y y' : Image K) (hy : m.call W (fun _ => 0) x = .ok y) (hy' : m.call W' (fun _ => 0) x = .ok y') :
    m.call (fun j ci c => a * W j ci c + a' * W' j ci c) (fun _ => 0) x = .ok (comb a a' y y') := by
  obtain ⟨ps, h1, h2, h3⟩ := call_of (W' := fun j ci c => a * W j ci c + a' * W' j ci c) (b' := fun _ => 0) (x' := x) hy rfl rfl
  obtain ⟨ps', k1, k2, k3⟩ := call_of (W' := W') (b' := fun _ => 0) (x' := x) hy rfl rfl
  have : ps' = ps := Except.ok.inj (k1.symm.trans h1)
  subst this
  have e := Except.ok.inj (hy'.symm.trans k3)
  rw [h3]
  refine congrArg Except.ok ?_
  have hv (t : List Int) (c : Nat) : (m.output (fun j ci c => a * W j ci c + a' * W' j ci c) (fun _ => 0) x ps').val t c = a * y.val t c + a' * y'.val t c := by
    rw [h2, e, output_val, output_val, output_val, add_zero, add_zero, add_zero]
    unfold taps
    rw [← sum_comb]
    refine congrArg List.sum (List.map_congr_left fun j _ => ?_)
    rw [← sum_comb]
    refine congrArg List.sum (List.map_congr_left fun ci _ => ?_)
    rw [add_mul, mul_assoc, mul_assoc]
  have e1 : (m.output (fun j ci c => a * W j ci c + a' * W' j ci c) (fun _ => 0) x ps').sizes = y.sizes := by rw [h2]; rfl
  have e2 : (m.output (fun j ci c => a * W j ci c + a' * W' j ci c) (fun _ => 0) x ps').channels = y.channels := by rw [h2]; rfl
  exact Image.mk.injEq .. |>.mpr ⟨e1, e2, funext fun t => funext fun c => hv t c⟩

/-! ### Examples -/

/-- A row of numbers with two channels. -/
def row (n : Int) (o : Int) : Image ℤ := ⟨[n], 2, fun p c => (p.headD 0 + o) * (p.headD 0 + o) + c⟩

def kernelWeights (j : List Nat) (ci c : Nat) : ℤ := j.sum + 2 * ci + 3 * c + 1

/-- A convolution with stride 2 and kernel size 2. -/
def strided (s : String) (oc g : Nat) : Except Err ConvND := ConvND.make 1 oc (.scalar 2) (.scalar 2) (.scalar 1) (.str s.toList) g

theorem row_part : Part (List.zipWith (· * ·) [1] [2]) (row 7 0) (row 4 2) := by
  refine ⟨rfl, rfl, fun p hp => ?_⟩
  match p, hp with
  | _ :: _ :: _, hp =>
    have := inside_len hp
    cases this
  | [a], hp =>
    have h : (decide (0 ≤ a) && decide (a < 4) && true) = true := hp
    simp only [Bool.and_eq_true, decide_eq_true_eq, and_true] at h
    refine ⟨?_, fun c => by show (a + 2) * (a + 2) + (c : ℤ) = (a + 1 * 2 + 0) * (a + 1 * 2 + 0) + c; rw [Int.add_zero]; rfl⟩
    show (decide (0 ≤ a + 1 * 2) && decide (a + 1 * 2 < 7) && true) = true
    simp only [Bool.and_eq_true, decide_eq_true_eq, and_true]
    omega

example : ∃ m y y', strided "valid" 2 2 = .ok m ∧ "valid".toList.map Char.toUpper = "VALID".toList ∧ m.stride = [2] ∧ m.kernelShape = [2] ∧ m.call kernelWeights (fun _ => 5) (row 7 0) = .ok y ∧ m.call kernelWeights (fun _ => 5) (row 4 2) = .ok y' ∧ y.sizes = [3] ∧
    y'.sizes = [2] ∧ y.val [2] 1 = 203 ∧ y'.val [1] 1 = 203 :=
  ⟨_, _, _, rfl, by decide +kernel, rfl, rfl, rfl, rfl, by decide +kernel, by decide +kernel, by decide +kernel, by decide +kernel⟩

example : ∃ m m' y z, strided "SAME" 4 2 = .ok m ∧ strided "SAME" (4 / 2) 1 = .ok m' ∧ m.call kernelWeights (fun _ => 5) (row 7 0) = .ok y ∧
    m'.call (fun j ci c => kernelWeights j ci (1 * (4 / 2) + c)) (fun _ => 5) (group (row 7 0) (2 / 2) 1) = .ok z ∧ z.val [1] 1 = 165 ∧ y.val [1] 3 = 165 :=
  ⟨_, _, _, _, rfl, rfl, rfl, rfl, by decide +kernel, by decide +kernel⟩

example : ∃ m y y' z, strided "SAME" 4 2 = .ok m ∧ m.call kernelWeights (fun _ => 0) (row 7 0) = .ok y ∧ m.call kernelWeights (fun _ => 0) (row 7 2) = .ok y' ∧ m.call kernelWeights (fun _ => 0) (comb 2 3 (row 7 0) (row 7 2)) = .ok z ∧
    y.val [1] 3 = 160 ∧ y'.val [1] 3 = 456 ∧ z.val [1] 3 = 1688 :=
  ⟨_, _, _, _, rfl, rfl, rfl, rfl, by decide +kernel, by decide +kernel, by decide +kernel⟩

end Verif.Props.ConvShift
