import Mathlib.Algebra.Field.Rat
import Verif.Base.Dict
import Verif.Lemmas.ConvArr

/-!
# Convolutions of arrays (C104, C105)
-/

set_option linter.unusedVariables false
set_option linter.unusedSectionVars false

namespace Verif.Props.ConvArr
open Verif.Shapes (Err)
open Verif.Pool (Arr)
open Verif.Utils
open Verif.Mlp (ParamFn getParameter)
open Verif.Nd (zip broadcastTo broadcasts_refl)
open Verif.Conv
open Verif.Props.Conv
open Verif.ConvArr
open Verif.Props.Reset (Valid mem_indices)
open Verif.Props.Norm (bind_eq bind_err zip_at spread_self)

variable {K : Type}

/-! ### Specification

`layout first sp c` is a position (or a shape) with the channel before or after the spatial part, `image first sp C x e` is example `e` of an array, both defined beside the lemmas.  One example is
convolved by `Conv.ConvND.call`, whose sizes and reads are C48. -/

/-- The weights that a convolution uses: the parameter, times the mask if there is one. -/
def weights [Mul K] (mask : Option (Arr K)) (w : Arr K) (j : List Nat) (ci c : Nat) : K :=
  match mask with
  | none => w.val (j ++ [ci, c])
  | some k => w.val (j ++ [ci, c]) * k.val (j ++ [ci, c])

/-- The parameters are there, with the shapes that the module asks for, and the mask fits. -/
structure Params (get : ParamFn K) (m : Module K) (first : Bool) (C : Nat) (w b : Arr K) : Prop where
  weight : get m.name "w" (m.conv.kernelShape.map Int.toNat ++ [C / m.conv.featureGroupCount, m.conv.outputChannels]) = .ok w
  weightShape : w.shape = m.conv.kernelShape.map Int.toNat ++ [C / m.conv.featureGroupCount, m.conv.outputChannels]
  bias : m.withBias = true → get m.name "b" (biasShape first m.conv.numSpatialDims m.conv.outputChannels) = .ok b ∧ b.shape = biasShape first m.conv.numSpatialDims m.conv.outputChannels
  mask : ∀ k, m.mask = some k → k.shape = m.conv.kernelShape.map Int.toNat ++ [C / m.conv.featureGroupCount, m.conv.outputChannels]

/-- What the module computes for one example. -/
def single [AddCommMonoid K] [Mul K] (m : Module K) (first : Bool) (w b : Arr K) (x : Image K) : Except Err (Image K) :=
  m.conv.call (weights m.mask w) (biasOf m.withBias first m.conv.numSpatialDims b) x

/-- An array with the same elements without the batch axis, at example `e`. -/
def slice (x : Arr K) (e : Nat) : Arr K := ⟨x.shape.tail, fun i => x.val (e :: i)⟩

/-- A single input as an image. -/
def picture (first : Bool) (sp : List Nat) (C : Nat) (x : Arr K) : Image K := ⟨sp.map Int.ofNat, C, fun p c => x.val (layout first (p.map Int.toNat) c)⟩

/-! ### Lemmas -/

theorem made {name : String} {N : Int} {oc g : Nat} {kernel stride rate : Arg Int} {padding : PadArg} {withBias : Bool} {fmt : List Char} {mask : Option (Arr K)} {m : Module K} {first : Bool}
    (h : Module.make name N oc kernel stride rate padding withBias fmt mask g = .ok m) (hf : getChannelIndex fmt = .ok (if first then 1 else -1)) :
    ∃ conv, ConvND.make N oc kernel stride rate padding g = .ok conv ∧ m = ⟨name, conv, if first then 1 else -1, ⟨imageDn first N.toNat, [N.toNat + 1, N.toNat] ++ List.range N.toNat, imageDn first N.toNat⟩, withBias, mask⟩ := by
  unfold Module.make at h
  obtain ⟨conv, h1, h⟩ := bind_ok h
  rw [bind_eq hf] at h
  have e : ((if first then 1 else -1 : Int) == -1) = !first := by cases first <;> rfl
  rw [e, numbers] at h
  exact ⟨conv, h1, (Except.ok.inj h).symm⟩

theorem dilates {ks : List Int} (h : ∀ k ∈ ks, 0 ≤ k) : (ks.map Int.toNat).map Int.ofNat = ks := by
  rw [List.map_map]
  conv => rhs; rw [← List.map_id ks]
  refine List.map_congr_left fun k hk => ?_
  exact Int.toNat_of_nonneg (h k hk)

theorem pads_lax {c : ConvND} {sizes : List Int} {ps : List (Int × Int)} (h : c.pads sizes = .ok ps) (hl : ∀ l, c.padding = .pairs l → l.length = sizes.length) :
    laxPads c.padding sizes (List.zipWith (fun k r => dilate k r) c.kernelShape c.kernelDilation) c.stride = .ok ps := by
  unfold ConvND.pads at h
  unfold laxPads
  cases hp : c.padding with
  | pairs l =>
    rw [hp] at h
    have h' : l = ps := Except.ok.inj h
    subst h'
    exact if_pos (hl l hp)
  | str s =>
    rw [hp] at h
    dsimp only at h ⊢
    by_cases h1 : s = "SAME".toList
    · replace h := (if_pos h1).symm.trans h
      refine (if_pos ?_).trans h
      rw [h1]
      decide
    · replace h := (if_neg h1).symm.trans h
      by_cases h2 : s = "VALID".toList
      · replace h := (if_pos h2).symm.trans h
        refine (if_neg ?_).trans ((if_pos ?_).trans h)
        · rw [h2]
          decide
        · rw [h2]
          decide
      · replace h := (if_neg h2).symm.trans h
        cases h

/-- What the success of the convolution of one example tells. -/
theorem call_conds [Zero K] [Add K] [Mul K] {c : ConvND} {W : List Nat → Nat → Nat → K} {b : Nat → K} {x y : Image K} (h : c.call W b x = .ok y) :
    x.sizes.length = c.numSpatialDims ∧ c.featureGroupCount ≠ 0 ∧ x.channels % c.featureGroupCount = 0 ∧ (∀ s ∈ c.stride, 1 ≤ s) ∧ (∀ r ∈ c.kernelDilation, 1 ≤ r) ∧ (∀ k ∈ c.kernelShape, 0 ≤ k) ∧
      ∃ ps, c.pads x.sizes = .ok ps ∧ y = c.output W b x ps := by
  unfold ConvND.call at h
  by_cases h1 : x.sizes.length ≠ c.numSpatialDims
  · rw [if_pos h1] at h; cases h
  rw [if_neg h1] at h
  by_cases h2 : x.channels % c.featureGroupCount ≠ 0 ∨ c.featureGroupCount = 0
  · rw [if_pos h2] at h; cases h
  rw [if_neg h2] at h
  by_cases h3 : c.stride.any (· ≤ 0) = true ∨ c.kernelDilation.any (· ≤ 0) = true ∨ c.kernelShape.any (· < 0) = true
  · rw [if_pos h3] at h; cases h
  rw [if_neg h3] at h
  obtain ⟨ps, h4, h5⟩ := map_ok h
  simp only [List.any_eq_true, decide_eq_true_eq, not_or, not_exists, not_and, Int.not_le, Int.not_lt] at h3
  refine ⟨Decidable.not_not.mp h1, fun h => h2 (.inr h), Decidable.not_not.mp fun h => h2 (.inl h), fun s hs => ?_, fun s hs => ?_, fun s hs => h3.2.2 s hs, ps, h4, h5.symm⟩
  · have := h3.1 s hs; omega
  · have := h3.2.1 s hs; omega

theorem call_of [Zero K] [Add K] [Mul K] {c : ConvND} {W W' : List Nat → Nat → Nat → K} {b b' : Nat → K} {x x' y : Image K} (h : c.call W b x = .ok y) (hs : x'.sizes = x.sizes) (hc : x'.channels = x.channels) :
    ∃ ps, c.pads x.sizes = .ok ps ∧ y = c.output W b x ps ∧ c.call W' b' x' = .ok (c.output W' b' x' ps) := by
  obtain ⟨h1, h2, h3, h4, h5, h6, ps, h7, h8⟩ := call_conds h
  refine ⟨ps, h7, h8, ?_⟩
  unfold ConvND.call
  have e3 : ¬ (c.stride.any (· ≤ 0) = true ∨ c.kernelDilation.any (· ≤ 0) = true ∨ c.kernelShape.any (· < 0) = true) := by
    simp only [List.any_eq_true, decide_eq_true_eq]
    rintro (⟨s, h, k⟩ | ⟨s, h, k⟩ | ⟨s, h, k⟩)
    · have := h4 s h; omega
    · have := h5 s h; omega
    · have := h6 s h; omega
  rw [if_neg (by rw [hs]; exact fun h => h h1), if_neg (by rw [hc]; rintro (h | h); exact h h3; exact h2 h), if_neg e3, hs, h7]
  rfl

/-- The elements of the convolution of one example. -/
theorem output_val [AddCommMonoid K] [Mul K] (c : ConvND) (W : List Nat → Nat → Nat → K) (b : Nat → K) (x : Image K) (ps : List (Int × Int)) (t : List Int) (ch : Nat) :
    (c.output W b x ps).val t ch =
      taps W x (c.kernelShape.map Int.toNat) c.stride c.kernelDilation ps (x.channels / c.featureGroupCount) (c.outputChannels / c.featureGroupCount) t ch + b ch := rfl

theorem taps_congr [AddCommMonoid K] [Mul K] {W W' : List Nat → Nat → Nat → K} {x x' : Image K} {kernel : List Nat} {ss dil : List Int} {ps : List (Int × Int)} {I P : Nat} {t : List Int} {c : Nat}
    (hW : ∀ j ci, Valid kernel j → ci < I → W j ci c = W' j ci c) (hx : ∀ p ch, x.get p ch = x'.get p ch) : taps W x kernel ss dil ps I P t c = taps W' x' kernel ss dil ps I P t c := by
  unfold taps
  refine congrArg List.sum (List.map_congr_left fun j hj => congrArg List.sum (List.map_congr_left fun ci hci => ?_))
  rw [hW j ci (mem_indices.mp hj) (List.mem_range.mp hci), hx]

theorem masked_weights [Mul K] {mask : Option (Arr K)} {w : Arr K} {kernel : List Nat} {I O : Nat} (hw : w.shape = kernel ++ [I, O]) (hm : ∀ k, mask = some k → k.shape = kernel ++ [I, O]) :
    ∃ w', masked mask w = .ok w' ∧ w'.shape = kernel ++ [I, O] ∧ ∀ j ci c, Valid kernel j → ci < I → c < O → w'.val (j ++ [ci, c]) = weights mask w j ci c := by
  cases mask with
  | none => exact ⟨w, rfl, hw, fun _ _ _ _ _ _ => rfl⟩
  | some k =>
    have hk := hm k rfl
    obtain ⟨z, h1, h2, h3⟩ := zip_at (f := (· * ·)) (x := w) (y := k) (by rw [hw, hk]; exact broadcasts_refl _)
    refine ⟨z, h1, h2.trans hw, fun j ci c hj hci hc => ?_⟩
    have hv : Valid (kernel ++ [I, O]) (j ++ [ci, c]) := Verif.Nd.valid_append hj (.cons hci (.cons hc .nil))
    rw [h3 _ (by rw [hw]; exact hv), spread_self (by rw [hk]; exact hv)]
    rfl

theorem channels_of {x : Arr K} {first : Bool} {B C : Nat} {sp : List Nat} (hx : x.shape = B :: layout first sp C) : channels x (if first then 1 else -1) = .ok C := by
  unfold channels
  cases first
  · refine (if_pos rfl).trans ?_
    rw [hx]
    have : (B :: layout false sp C).getLast? = some C := by
      show (B :: (sp ++ [C])).getLast? = some C
      rw [← List.cons_append, List.getLast?_concat]
    rw [this]
  · refine (if_neg (by decide)).trans ?_
    rw [hx]
    rfl

theorem outSizes_nonneg : ∀ (ns ks ss : List Int) (ps : List (Int × Int)), ∀ n ∈ outSizes ns ks ss ps, 0 ≤ n
  | n :: ns, k :: ks, s :: ss, p :: ps => by
    intro a ha
    rcases List.mem_cons.mp ha with rfl | ha
    · unfold outSize
      omega
    · exact outSizes_nonneg ns ks ss ps a ha
  | [], _, _, _ => fun a ha => by cases ha
  | _ :: _, [], _, _ => fun a ha => by cases ha
  | _ :: _, _ :: _, [], _ => fun a ha => by cases ha
  | _ :: _, _ :: _, _ :: _, [] => fun a ha => by cases ha

/-- A batch, example by example. -/
theorem batched_examples [AddCommMonoid K] [Mul K] {name : String} {N : Int} {oc g : Nat} {kernel stride rate : Arg Int} {padding : PadArg} {withBias : Bool} {fmt : List Char} {mask : Option (Arr K)} {m : Module K}
    {first : Bool} {get : ParamFn K} {x w b : Arr K} {B C : Nat} {sp : List Nat} {i0 : Image K} (h : Module.make name N oc kernel stride rate padding withBias fmt mask g = .ok m)
    (hf : getChannelIndex fmt = .ok (if first then 1 else -1)) (hx : x.shape = B :: layout first sp C) (hoc : oc % g = 0) (hp : Params get m first C w b)
    (hi : single m first w b (image first sp C x 0) = .ok i0) :
    ∃ y out, m.batched get x = .ok y ∧ y.shape = B :: layout first out oc ∧ i0.sizes = out.map Int.ofNat ∧ ∀ e < B, ∃ i, single m first w b (image first sp C x e) = .ok i ∧ i.sizes = out.map Int.ofNat ∧ i.channels = oc ∧
      ∀ t c, Valid out t → c < oc → y.val (e :: layout first t c) = i.val (t.map Int.ofNat) c := by
  obtain ⟨conv, hc, rfl⟩ := made h hf
  obtain ⟨hN, hd, hg, ho, hk, hst, hr, hpad⟩ := make_ok hc
  obtain ⟨h1, h2, h3, h4, h5, h6, ps, h7, h8⟩ := call_conds hi
  replace h7 : conv.pads (sp.map Int.ofNat) = .ok ps := h7
  have kk := (fitting_of_ok hk).2.1
  have kr := (fitting_of_ok hr).2.1
  have ks := (fitting_of_ok hst).2.1
  have hsp : sp.length = N.toNat := by
    have : (sp.map Int.ofNat).length = conv.numSpatialDims := h1
    rw [List.length_map] at this
    omega
  have hpl : ∀ l, conv.padding = .pairs l → l.length = (sp.map Int.ofNat).length := by
    intro l hl
    rw [List.length_map, hsp]
    cases padding with
    | str s =>
      dsimp only at hpad
      rw [hpad] at hl
      cases hl
    | fns p =>
      obtain ⟨qs, q1, q2⟩ := hpad
      rw [q2] at hl
      have := (fitting_of_ok q1).2.1
      cases hl
      rw [List.length_zipWith, List.length_zipWith, this, kk, kr, Nat.min_self, Nat.min_self]
  have hlax := pads_lax h7 hpl
  rw [← dilates h6] at hlax
  obtain ⟨w', hw1, hw2, hw3⟩ := masked_weights (mask := mask) hp.weightShape hp.mask
  have hC : C = C / conv.featureGroupCount * conv.featureGroupCount := by
    have := Nat.div_add_mod C conv.featureGroupCount
    have h3' : C % conv.featureGroupCount = 0 := h3
    rw [h3', Nat.add_zero, Nat.mul_comm] at this
    exact this.symm
  obtain ⟨y, hy1, hy2, hy3⟩ := conv_examples (x := x) (w := w') (n := N.toNat) (g := conv.featureGroupCount) (first := first) (padding := conv.padding) hx hsp hw2 (by rw [List.length_map]; exact kk) ks kr h4 h5 h2 hC
    (by rw [ho, hg]; exact hoc) hlax
  have hol : (outSizes (sp.map Int.ofNat) (List.zipWith (fun k r => dilate k r) ((conv.kernelShape.map Int.toNat).map Int.ofNat) conv.kernelDilation) conv.stride ps).length = N.toNat :=
    outSizes_length _ _ _ _ _ (by rw [List.length_map, hsp]) (by rw [List.length_zipWith, List.length_map, List.length_map, kk, kr, Nat.min_self]) ks
      (laxPads_length hlax (by rw [List.length_map, hsp]) (by rw [List.length_zipWith, List.length_map, List.length_map, kk, kr, Nat.min_self]) ks)
  have hnn : ∀ n ∈ outSizes (sp.map Int.ofNat) (List.zipWith (fun k r => dilate k r) ((conv.kernelShape.map Int.toNat).map Int.ofNat) conv.kernelDilation) conv.stride ps, 0 ≤ n := outSizes_nonneg _ _ _ _
  generalize hout : (outSizes (sp.map Int.ofNat) (List.zipWith (fun k r => dilate k r) ((conv.kernelShape.map Int.toNat).map Int.ofNat) conv.kernelDilation) conv.stride ps).map Int.toNat = out at hy2
  have houtl : out.length = conv.numSpatialDims := by
    rw [← hout, List.length_map, hol, hd]
  have hb' := hp.bias
  dsimp only at hb'
  rw [← houtl] at hb'
  obtain ⟨z, hz1, hz2, hz3⟩ := biased_examples (get := get) (module := name) (withBias := withBias) (b := b) hy2 hb'
  have hsz : outSizes (sp.map Int.ofNat) (List.zipWith (fun k r => dilate k r) conv.kernelShape conv.kernelDilation) conv.stride ps = out.map Int.ofNat := by
    rw [← hout, List.map_map]
    rw [dilates h6] at hnn ⊢
    conv => lhs; rw [← List.map_id (outSizes _ _ _ _)]
    refine List.map_congr_left fun n hn => ?_
    exact (Int.toNat_of_nonneg (hnn n hn)).symm
  refine ⟨z, out, ?_, by rw [hz2, hy2, ho], by rw [h8]; exact hsz, ?_⟩
  · unfold Module.batched
    dsimp only
    rw [bind_eq (channels_of hx), if_neg h2, if_neg (fun h => h (by exact h3))]
    have ek : ¬ (conv.kernelShape.any (· < 0) = true) := by
      simp only [List.any_eq_true, decide_eq_true_eq]
      rintro ⟨s, h, k⟩
      have := h6 s h
      omega
    have em : ¬ (mask.any (fun k => decide (k.shape ≠ conv.kernelShape.map Int.toNat ++ [C / conv.featureGroupCount, conv.outputChannels])) = true) := by
      cases mask with
      | none => exact Bool.false_ne_true
      | some k =>
        intro hh
        exact (of_decide_eq_true hh) (hp.mask k rfl)
    rw [if_neg ek, if_neg em]
    have hg : getParameter get name "w" (conv.kernelShape.map Int.toNat ++ [C / conv.featureGroupCount, conv.outputChannels]) = .ok w := by
      unfold getParameter
      rw [bind_eq hp.weight]
      exact if_pos hp.weightShape
    rw [bind_eq hg, bind_eq hw1, bind_eq hy1]
    have hbs : (if (if first then 1 else -1 : Int) = -1 then [conv.outputChannels] else conv.outputChannels :: List.replicate conv.numSpatialDims 1) = biasShape first out.length conv.outputChannels := by
      rw [houtl]
      cases first <;> rfl
    rw [hbs]
    exact hz1
  · intro e he
    have hsame : image first sp C x e = ⟨sp.map Int.ofNat, C, (image first sp C x e).val⟩ := rfl
    obtain ⟨ps', q1, q2, q3⟩ := call_of (W' := weights mask w) (b' := biasOf withBias first conv.numSpatialDims b) (x' := image first sp C x e) hi rfl rfl
    have : ps' = ps := Except.ok.inj (q1.symm.trans h7)
    subst this
    refine ⟨_, q3, ?_, ho, ?_⟩
    · exact hsz
    · intro t c ht hc
      rw [hz3 e t c he ht (by rw [ho]; exact hc), hy3 e t c (by rw [ht.length_eq, houtl, hd]), output_val, houtl]
      refine congrArg (· + _) (taps_congr (fun j ci hj hci => ?_) fun _ _ => rfl)
      exact hw3 j ci c hj hci (by rw [ho]; exact hc)

theorem toUpper_idem (c : Char) : c.toUpper.toUpper = c.toUpper := by
  unfold Char.toUpper
  by_cases h : 'a'.val ≤ c.val ∧ c.val ≤ 'z'.val
  · rw [dif_pos h]
    rw [dif_neg]
    dsimp only
    rintro ⟨h1, h2⟩
    have a1 : 97 ≤ c.val.toNat := UInt32.le_iff_toNat_le.mp h.1
    have a2 : c.val.toNat ≤ 122 := UInt32.le_iff_toNat_le.mp h.2
    have a3 : 97 ≤ (c.val + ('A'.val - 'a'.val)).toNat := UInt32.le_iff_toNat_le.mp h1
    rw [UInt32.toNat_add, show ('A'.val - 'a'.val : UInt32).toNat = 4294967264 from by decide] at a3
    omega
  · rw [dif_neg h, dif_neg h]

theorem upper_idem (s : List Char) : (s.map Char.toUpper).map Char.toUpper = s.map Char.toUpper := by
  rw [List.map_map]
  exact List.map_congr_left fun c _ => toUpper_idem c

theorem shape_split {s : List Nat} {n : Nat} (h : s.length = n + 1) (first : Bool) : ∃ sp C, s = layout first sp C ∧ sp.length = n := by
  cases first
  · refine ⟨s.dropLast, s.getLastD 0, ?_, by rw [List.length_dropLast, h]; rfl⟩
    show s = s.dropLast ++ [s.getLastD 0]
    cases hs : s.getLast? with
    | none => rw [List.getLast?_eq_none_iff] at hs; rw [hs] at h; cases h
    | some a =>
      obtain ⟨l, hl⟩ := List.getLast?_eq_some_iff.mp hs
      rw [hl, List.dropLast_concat, List.getLastD_concat]
  · cases s with
    | nil => cases h
    | cons a s => exact ⟨s, a, rfl, Nat.succ.inj h⟩

theorem parameter_ok {get : ParamFn K} {module name : String} {shape : List Nat} {p : Arr K} (h : getParameter get module name shape = .ok p) : get module name shape = .ok p ∧ p.shape = shape := by
  unfold getParameter at h
  obtain ⟨q, h1, h2⟩ := bind_ok h
  by_cases hs : q.shape = shape
  · rw [if_pos hs] at h2
    cases h2
    exact ⟨h1, hs⟩
  · rw [if_neg hs] at h2
    cases h2

theorem lax_pads {c : ConvND} {sizes : List Int} {ps : List (Int × Int)} (hpad : (∃ s : List Char, c.padding = .str (s.map Char.toUpper)) ∨ ∃ l, c.padding = .pairs l)
    (h : laxPads c.padding sizes (List.zipWith (fun k r => dilate k r) c.kernelShape c.kernelDilation) c.stride = .ok ps) : c.pads sizes = .ok ps := by
  unfold ConvND.pads
  unfold laxPads at h
  rcases hpad with ⟨s, hpad⟩ | ⟨l, hpad⟩
  · rw [hpad] at h ⊢
    dsimp only at h ⊢
    rw [upper_idem] at h
    exact h
  · rw [hpad] at h ⊢
    dsimp only at h ⊢
    split at h
    · exact h
    · cases h

theorem conv_inv [AddCommMonoid K] [Mul K] {x w y : Arr K} {n B C I O g : Nat} {first : Bool} {sp kernel : List Nat} {strides dil : List Int} {padding : Padding}
    (hx : x.shape = B :: layout first sp C) (hsp : sp.length = n) (hw : w.shape = kernel ++ [I, O]) (hk : kernel.length = n)
    (h : convGeneralDilated x w strides padding dil ⟨imageDn first n, [n + 1, n] ++ List.range n, imageDn first n⟩ g = .ok y) :
    (∀ s ∈ strides, 1 ≤ s) ∧ (∀ r ∈ dil, 1 ≤ r) ∧ g ≠ 0 ∧ C = I * g ∧ O % g = 0 ∧
      ∃ ps, laxPads padding (sp.map Int.ofNat) (List.zipWith (fun k r => dilate k r) (kernel.map Int.ofNat) dil) strides = .ok ps := by
  unfold convGeneralDilated at h
  by_cases e1 : x.shape.length ≠ strides.length + 2 ∨ w.shape.length ≠ strides.length + 2 ∨ dil.length ≠ strides.length
  · rw [if_pos e1] at h; cases h
  rw [if_neg e1] at h
  by_cases e2 : strides.any (· ≤ 0) = true ∨ dil.any (· ≤ 0) = true
  · rw [if_pos e2] at h; cases h
  rw [if_neg e2] at h
  dsimp only at h
  rw [hx, hw, pick_image first B C hsp, pick_kernel O I hk] at h
  by_cases e3 : g = 0 ∨ (B :: C :: sp).getD 1 0 ≠ (O :: I :: kernel).getD 1 0 * g ∨ (O :: I :: kernel).getD 0 0 % g ≠ 0
  · rw [if_pos e3] at h; cases h
  rw [if_neg e3] at h
  obtain ⟨ps, h1, _⟩ := bind_ok h
  simp only [List.any_eq_true, decide_eq_true_eq, not_or, not_exists, not_and, Int.not_le] at e2
  refine ⟨fun s hs => ?_, fun s hs => ?_, fun h => e3 (.inl h), Decidable.not_not.mp fun h => e3 (.inr (.inl h)), Decidable.not_not.mp fun h => e3 (.inr (.inr h)), ps, h1⟩
  · have := e2.1 s hs; omega
  · have := e2.2 s hs; omega

/-- What the success of a call on a batch tells. -/
theorem batched_inv [AddCommMonoid K] [Mul K] {name : String} {N : Int} {oc g : Nat} {kernel stride rate : Arg Int} {padding : PadArg} {withBias : Bool} {fmt : List Char} {mask : Option (Arr K)} {m : Module K}
    {first : Bool} {get : ParamFn K} {x y : Arr K} {B C : Nat} {sp : List Nat} (h : Module.make name N oc kernel stride rate padding withBias fmt mask g = .ok m)
    (hf : getChannelIndex fmt = .ok (if first then 1 else -1)) (hx : x.shape = B :: layout first sp C) (hsp : sp.length = N.toNat) (hy : m.batched get x = .ok y) :
    ∃ w b i0, Params get m first C w b ∧ oc % g = 0 ∧ single m first w b (image first sp C x 0) = .ok i0 := by
  obtain ⟨conv, hc, rfl⟩ := made h hf
  obtain ⟨hN, hd, hg, ho, hk, hst, hr, hpad⟩ := make_ok hc
  have kk := (fitting_of_ok hk).2.1
  unfold Module.batched at hy
  dsimp only at hy
  rw [bind_eq (channels_of hx)] at hy
  by_cases e1 : conv.featureGroupCount = 0
  · rw [if_pos e1] at hy; cases hy
  rw [if_neg e1] at hy
  by_cases e2 : C % conv.featureGroupCount ≠ 0
  · rw [if_pos e2] at hy; cases hy
  rw [if_neg e2] at hy
  by_cases e3 : conv.kernelShape.any (· < 0) = true
  · rw [if_pos e3] at hy; cases hy
  rw [if_neg e3] at hy
  by_cases e4 : mask.any (fun k => decide (k.shape ≠ conv.kernelShape.map Int.toNat ++ [C / conv.featureGroupCount, conv.outputChannels])) = true
  · rw [if_pos e4] at hy; cases hy
  rw [if_neg e4] at hy
  have hm : ∀ k, mask = some k → k.shape = conv.kernelShape.map Int.toNat ++ [C / conv.featureGroupCount, conv.outputChannels] := by
    intro k hk
    subst hk
    exact Decidable.not_not.mp fun hne => e4 (decide_eq_true hne)
  have hkn : ∀ k ∈ conv.kernelShape, 0 ≤ k := by
    simp only [List.any_eq_true, decide_eq_true_eq, not_exists, not_and, Int.not_lt] at e3
    exact e3
  obtain ⟨w, h1, hy⟩ := bind_ok hy
  obtain ⟨w', h2, hy⟩ := bind_ok hy
  obtain ⟨z, h3, hz⟩ := bind_ok hy
  obtain ⟨h1a, h1b⟩ := parameter_ok h1
  obtain ⟨w'', q1, q2, _⟩ := masked_weights (mask := mask) h1b hm
  have : w'' = w' := Except.ok.inj (q1.symm.trans h2)
  subst this
  obtain ⟨s1, s2, s3, s4, s5, ps, s6⟩ := conv_inv hx hsp q2 (by rw [List.length_map]; exact kk) h3
  rw [dilates hkn] at s6
  have hpads := lax_pads (by
    cases padding with
    | str s => exact .inl ⟨s, hpad⟩
    | fns p => obtain ⟨qs, _, q⟩ := hpad; exact .inr ⟨_, q⟩) s6
  have hb : ∃ b : Arr K, withBias = true → get name "b" (biasShape first conv.numSpatialDims conv.outputChannels) = .ok b ∧ b.shape = biasShape first conv.numSpatialDims conv.outputChannels := by
    cases withBias with
    | false => exact ⟨w, fun h => by cases h⟩
    | true =>
      unfold biased at hz
      rw [if_pos rfl] at hz
      obtain ⟨b, hb, _⟩ := bind_ok hz
      have hbs : (if (if first then 1 else -1 : Int) = -1 then [conv.outputChannels] else conv.outputChannels :: List.replicate conv.numSpatialDims 1) =
          biasShape first conv.numSpatialDims conv.outputChannels := by
        cases first <;> rfl
      rw [hbs] at hb
      exact ⟨b, fun _ => parameter_ok hb⟩
  obtain ⟨b, hb⟩ := hb
  refine ⟨w, b, conv.output (weights mask w) (biasOf withBias first conv.numSpatialDims b) (image first sp C x 0) ps, ⟨h1a, h1b, hb, hm⟩, by rw [← ho, ← hg]; exact s5, ?_⟩
  unfold single ConvND.call
  dsimp only
  have e5 : ¬ (conv.stride.any (· ≤ 0) = true ∨ conv.kernelDilation.any (· ≤ 0) = true ∨ conv.kernelShape.any (· < 0) = true) := by
    simp only [List.any_eq_true, decide_eq_true_eq]
    rintro (⟨s, h, k⟩ | ⟨s, h, k⟩ | ⟨s, h, k⟩)
    · have := s1 s h; omega
    · have := s2 s h; omega
    · have := hkn s h; omega
  rw [if_neg (fun hh => hh (by show (sp.map Int.ofNat).length = _; rw [List.length_map, hsp, hd])), if_neg (by rintro (hh | hh); exact e2 hh; exact e1 hh), if_neg e5]
  show (conv.pads (sp.map Int.ofNat)).map _ = _
  rw [hpads]
  rfl

theorem spatial {name : String} {N : Int} {oc g : Nat} {kernel stride rate : Arg Int} {padding : PadArg} {withBias : Bool} {fmt : List Char} {mask : Option (Arr K)} {m : Module K}
    (h : Module.make name N oc kernel stride rate padding withBias fmt mask g = .ok m) : m.conv.numSpatialDims = N.toNat ∧ ∃ first : Bool, getChannelIndex fmt = .ok (if first then 1 else -1) := by
  have h0 := h
  unfold Module.make at h
  obtain ⟨conv, h1, h⟩ := bind_ok h
  obtain ⟨c, h2, h⟩ := bind_ok h
  have hm := Except.ok.inj h
  subst hm
  refine ⟨(make_ok h1).2.1, ?_⟩
  have hc : c = 1 ∨ c = -1 := by
    unfold getChannelIndex at h2
    split at h2
    · cases h2; exact .inl rfl
    split at h2
    · cases h2; exact .inr rfl
    split at h2
    · cases h2; exact .inl rfl
    split at h2
    · cases h2; exact .inr rfl
    split at h2
    · cases h2; exact .inr rfl
    · cases h2
  rcases hc with rfl | rfl
  · exact ⟨true, h2⟩
  · exact ⟨false, h2⟩

theorem call_batch_eq [AddCommMonoid K] [Mul K] {get : ParamFn K} {m : Module K} {x : Arr K} {n : Nat} (hd : m.conv.numSpatialDims = n) (hx : x.shape.length = n + 2) : m.call get x = m.batched get x := by
  unfold Module.call
  dsimp only
  rw [hd, if_neg (fun h => h.2 hx), if_neg (by omega)]

theorem call_single_eq [AddCommMonoid K] [Mul K] {get : ParamFn K} {m : Module K} {x : Arr K} {n : Nat} (hd : m.conv.numSpatialDims = n) (hx : x.shape.length = n + 1) :
    m.call get x = (m.batched get ⟨1 :: x.shape, fun i => x.val i.tail⟩ >>= fun y => .ok ⟨y.shape.tail, fun i => y.val (0 :: i)⟩) := by
  unfold Module.call
  dsimp only
  rw [hd, if_neg (fun h => h.1 hx), if_pos hx]

theorem layout_inj {first : Bool} {sp sp' : List Nat} {c c' : Nat} (h : layout first sp c = layout first sp' c') : sp = sp' ∧ c = c' := by
  cases first
  · have := List.append_inj' (show sp ++ [c] = sp' ++ [c'] from h) rfl
    exact ⟨this.1, List.head_eq_of_cons_eq this.2⟩
  · have h : c :: sp = c' :: sp' := h
    cases h
    exact ⟨rfl, rfl⟩

theorem valid_layout {first : Bool} {sp : List Nat} {C : Nat} {i : List Nat} (h : Valid (layout first sp C) i) : ∃ t c, i = layout first t c ∧ Valid sp t ∧ c < C := by
  cases first
  · obtain ⟨a, b, rfl, h1, h2⟩ := Verif.Nd.valid_append_inv (show Valid (sp ++ [C]) i from h)
    cases h2 with
    | cons h3 h4 => cases h4; exact ⟨a, _, rfl, h1, h3⟩
  · cases (show Valid (C :: sp) i from h) with
    | cons h3 h4 => exact ⟨_, _, rfl, h4, h3⟩

/-! ### C104 -/

/-- C104 A convolution treats the examples of a batch one by one.  Whenever a call on a batch `x` succeeds (in either data format, with any mask, bias, groups, stride, dilation and padding), the result has one entry for
each example, and that entry is what the call on the example alone returns, which succeeds too. -/
theorem batch_examples [AddCommMonoid K] [Mul K] (name : String) (N : Int) (oc g : Nat) (kernel stride rate : Arg Int) (padding : PadArg) (withBias : Bool) (fmt : List Char) (mask : Option (Arr K)) (m : Module K)
    (h : Module.make name N oc kernel stride rate padding withBias fmt mask g = .ok m) (get : ParamFn K) (x y : Arr K) (B : Nat) (s : List Nat) (hx : x.shape = B :: s) (hs : s.length = N.toNat + 1)
    (hy : m.call get x = .ok y) (e : Nat) (he : e < B) :
    ∃ z, m.call get (slice x e) = .ok z ∧ y.shape = B :: z.shape ∧ ∀ i, Valid z.shape i → y.val (e :: i) = z.val i := by
  obtain ⟨hd, first, hf⟩ := spatial h
  obtain ⟨sp, C, rfl, hsp⟩ := shape_split hs first
  rw [call_batch_eq hd (by rw [hx, List.length_cons, hs])] at hy
  obtain ⟨w, b, i0, hp, ho, hi⟩ := batched_inv h hf hx hsp hy
  obtain ⟨y', out, h1, h2, _, h3⟩ := batched_examples h hf hx ho hp hi
  have : y' = y := Except.ok.inj (h1.symm.trans hy)
  subst this
  obtain ⟨i, h4, h5, h6, h7⟩ := h3 e he
  have hx1 : (⟨1 :: (slice x e).shape, fun i => (slice x e).val i.tail⟩ : Arr K).shape = 1 :: layout first sp C := by
    show 1 :: x.shape.tail = _
    rw [hx]
    rfl
  obtain ⟨z, out', k1, k2, _, k3⟩ := batched_examples (i0 := i) h hf hx1 ho hp (by
    refine Eq.trans ?_ h4
    rfl)
  obtain ⟨i', k4, k5, k6, k7⟩ := k3 0 Nat.one_pos
  have hii : i' = i := by
    refine Except.ok.inj (k4.symm.trans (Eq.trans ?_ h4))
    rfl
  subst hii
  have hout : out' = out := by
    have : out'.map Int.ofNat = out.map Int.ofNat := k5.symm.trans h5
    exact List.map_injective_iff.mpr (fun a b h => Int.ofNat.inj h) this
  subst hout
  refine ⟨⟨z.shape.tail, fun i => z.val (0 :: i)⟩, ?_, ?_, ?_⟩
  · rw [call_single_eq hd (by show x.shape.tail.length = _; rw [hx]; exact hs), bind_eq k1]
  · rw [h2, k2]
    rfl
  · intro i hi
    rw [k2] at hi
    obtain ⟨t, c, rfl, ht, hc⟩ := valid_layout (show Valid (layout first out' oc) i from hi)
    rw [h7 t c ht hc]
    exact (k7 t c ht hc).symm

/-- C104 In terms of one example: a successful call on a batch gives at example `e`, position `t` and channel `c` the element at `t` and `c` of the convolution of that example as an image (C48 tells its
sizes and which inputs it reads), with the parameters that the module asked for.  The channel axis of input and output is the second or the last as the data format says. -/
theorem batch_computes [AddCommMonoid K] [Mul K] (name : String) (N : Int) (oc g : Nat) (kernel stride rate : Arg Int) (padding : PadArg) (withBias : Bool) (fmt : List Char) (mask : Option (Arr K)) (m : Module K)
    (h : Module.make name N oc kernel stride rate padding withBias fmt mask g = .ok m) (first : Bool) (hf : getChannelIndex fmt = .ok (if first then 1 else -1)) (get : ParamFn K) (x y : Arr K) (B C : Nat)
    (sp : List Nat) (hx : x.shape = B :: layout first sp C) (hsp : sp.length = N.toNat) (hy : m.call get x = .ok y) :
    ∃ w b out, Params get m first C w b ∧ y.shape = B :: layout first out oc ∧ ∀ e < B, ∃ i, single m first w b (image first sp C x e) = .ok i ∧ i.sizes = out.map Int.ofNat ∧ i.channels = oc ∧
      ∀ t c, Valid out t → c < oc → y.val (e :: layout first t c) = i.val (t.map Int.ofNat) c := by
  obtain ⟨hd, _⟩ := spatial h
  rw [call_batch_eq hd (by rw [hx, List.length_cons, layout_length, hsp])] at hy
  obtain ⟨w, b, i0, hp, ho, hi⟩ := batched_inv h hf hx hsp hy
  obtain ⟨y', out, h1, h2, _, h3⟩ := batched_examples h hf hx ho hp hi
  have : y' = y := Except.ok.inj (h1.symm.trans hy)
  subst this
  exact ⟨w, b, out, hp, h2, h3⟩

/-- C104 The data format only moves the channel axis: when a channels-last convolution succeeds, the channels-first convolution with the same arguments, the same weights and the same biases (stored with
trailing axes of size 1) succeeds on the transposed batch and returns the transposed result. -/
theorem data_format [AddCommMonoid K] [Mul K] (name : String) (N : Int) (oc g : Nat) (kernel stride rate : Arg Int) (padding : PadArg) (withBias : Bool) (fmt fmt' : List Char) (mask : Option (Arr K)) (m m' : Module K)
    (h : Module.make name N oc kernel stride rate padding withBias fmt mask g = .ok m) (h' : Module.make name N oc kernel stride rate padding withBias fmt' mask g = .ok m')
    (hf : getChannelIndex fmt = .ok (-1)) (hf' : getChannelIndex fmt' = .ok 1) (get get' : ParamFn K) (hw : ∀ s, get' name "w" s = get name "w" s)
    (hb : ∀ b, get name "b" [oc] = .ok b → get' name "b" (oc :: List.replicate N.toNat 1) = .ok ⟨oc :: List.replicate N.toNat 1, fun i => b.val [i.headD 0]⟩) (x y : Arr K) (B C : Nat)
    (sp : List Nat) (hx : x.shape = B :: (sp ++ [C])) (hsp : sp.length = N.toNat) (hy : m.call get x = .ok y) :
    ∃ y' out, m'.call get' ⟨B :: C :: sp, fun i => x.val (i.headD 0 :: (i.drop 2 ++ [i.getD 1 0]))⟩ = .ok y' ∧ y.shape = B :: (out ++ [oc]) ∧ y'.shape = B :: oc :: out ∧
      ∀ e t c, e < B → Valid out t → c < oc → y'.val (e :: c :: t) = y.val (e :: (t ++ [c])) := by
  have hF : getChannelIndex fmt = .ok (if false then 1 else -1) := hf
  have hF' : getChannelIndex fmt' = .ok (if true then 1 else -1) := hf'
  obtain ⟨conv, hc, rfl⟩ := made (first := false) h hF
  obtain ⟨conv', hc', rfl⟩ := made (first := true) h' hF'
  have hcc : conv' = conv := Except.ok.inj (hc'.symm.trans hc)
  subst hcc
  obtain ⟨hN, hd, hg, hoc, _⟩ := make_ok hc
  rw [call_batch_eq (n := N.toNat) hd (by rw [hx, List.length_cons, List.length_append, hsp]; rfl)] at hy
  obtain ⟨w, b, i0, hp, ho, hi⟩ := batched_inv (first := false) h hF hx hsp hy
  obtain ⟨y1, out, h1, h2, h0, h3⟩ := batched_examples (first := false) h hF hx ho hp hi
  have : y1 = y := Except.ok.inj (h1.symm.trans hy)
  subst this
  have hp' : Params get' ⟨name, conv', if true then 1 else -1, ⟨imageDn true N.toNat, [N.toNat + 1, N.toNat] ++ List.range N.toNat, imageDn true N.toNat⟩, withBias, mask⟩ true C w
      ⟨oc :: List.replicate N.toNat 1, fun i => b.val [i.headD 0]⟩ := by
    refine ⟨(hw _).trans hp.weight, hp.weightShape, fun hh => ?_, hp.mask⟩
    have q := (hp.bias hh).1
    dsimp only at q ⊢
    rw [hoc] at q
    rw [hoc, hd]
    exact ⟨hb b q, rfl⟩
  obtain ⟨y', out', k1, k2, k0, k3⟩ := batched_examples (first := true) (x := ⟨B :: C :: sp, fun i => x.val (i.headD 0 :: (i.drop 2 ++ [i.getD 1 0]))⟩) (B := B) (C := C) (sp := sp) (i0 := i0) h' hF' rfl ho hp' hi
  have hout : out' = out := List.map_injective_iff.mpr (fun a b h => Int.ofNat.inj h) (k0.symm.trans h0)
  subst hout
  refine ⟨y', out', ?_, h2, k2, ?_⟩
  · rw [call_batch_eq (n := N.toNat) hd (by show sp.length + 2 = _; rw [hsp])]
    exact k1
  · intro e t c he ht hcc
    obtain ⟨i, a1, a2, a3, a4⟩ := h3 e he
    obtain ⟨i', b1, b2, b3, b4⟩ := k3 e he
    have hii : i' = i := Except.ok.inj (b1.symm.trans a1)
    subst hii
    exact (b4 t c ht hcc).trans (a4 t c ht hcc).symm

/-- C104 Inputs of any other rank, and channels that cannot be divided into the groups, are rejected with a `ValueError` before any parameter is asked for. -/
theorem call_rejects [AddCommMonoid K] [Mul K] (name : String) (N : Int) (oc g : Nat) (kernel stride rate : Arg Int) (padding : PadArg) (withBias : Bool) (fmt : List Char) (mask : Option (Arr K)) (m : Module K)
    (h : Module.make name N oc kernel stride rate padding withBias fmt mask g = .ok m) (first : Bool) (hf : getChannelIndex fmt = .ok (if first then 1 else -1)) (get : ParamFn K) (x : Arr K) :
    ((x.shape.length : Int) ≠ N + 1 → (x.shape.length : Int) ≠ N + 2 → m.call get x = .error .value) ∧
      ∀ B C sp, x.shape = B :: layout first sp C → sp.length = N.toNat → g ≠ 0 → C % g ≠ 0 → m.call get x = .error .value := by
  obtain ⟨hd, _⟩ := spatial h
  obtain ⟨conv, hc, rfl⟩ := made h hf
  obtain ⟨hN, _, hg, ho, _⟩ := make_ok hc
  refine ⟨fun h1 h2 => ?_, fun B C sp hx hsp g0 g1 => ?_⟩
  · unfold Module.call
    dsimp only
    rw [if_pos]
    rw [hd]
    omega
  · rw [call_batch_eq hd (by rw [hx, List.length_cons, layout_length, hsp])]
    unfold Module.batched
    dsimp only
    rw [bind_eq (channels_of hx), if_neg (by rw [hg]; exact g0), if_pos (by rw [hg]; exact g1)]

/-! ### C105 -/

/-- C105 The weights that a mask sets to zero do not matter: a convolution with a mask gives the same result for any two parameters that agree where the mask is not zero. -/
theorem mask_hides [NonUnitalNonAssocSemiring K] (name : String) (N : Int) (oc g : Nat) (kernel stride rate : Arg Int) (padding : PadArg) (withBias : Bool) (fmt : List Char) (k : Arr K) (m : Module K)
    (h : Module.make name N oc kernel stride rate padding withBias fmt (some k) g = .ok m) (get get' : ParamFn K) (hb : ∀ s, get' name "b" s = get name "b" s)
    (hw : ∀ s w, get name "w" s = .ok w → ∃ w', get' name "w" s = .ok w' ∧ w'.shape = w.shape ∧ ∀ i, Valid w.shape i → k.val i ≠ 0 → w'.val i = w.val i)
    (x y : Arr K) (hx : x.shape.length = N.toNat + 2) (hy : m.call get x = .ok y) :
    ∃ y', m.call get' x = .ok y' ∧ y'.shape = y.shape ∧ ∀ i, Valid y.shape i → y'.val i = y.val i := by
  obtain ⟨hd, first, hf⟩ := spatial h
  obtain ⟨B, s, hs⟩ : ∃ B s, x.shape = B :: s := by
    cases hq : x.shape with
    | nil => rw [hq] at hx; cases hx
    | cons B s => exact ⟨B, s, rfl⟩
  obtain ⟨sp, C, rfl, hsp⟩ := shape_split (n := N.toNat) (s := s) (by rw [hs] at hx; exact Nat.succ.inj hx) first
  rw [call_batch_eq hd hx] at hy ⊢
  obtain ⟨w, b, i0, hp, ho, hi⟩ := batched_inv h hf hs hsp hy
  obtain ⟨y1, out, h1, h2, h0, h3⟩ := batched_examples h hf hs ho hp hi
  have : y1 = y := Except.ok.inj (h1.symm.trans hy)
  subst this
  obtain ⟨conv, hc, rfl⟩ := made h hf
  obtain ⟨w', hw1, hw2, hw3⟩ := hw _ w hp.weight
  have hp' : Params get' ⟨name, conv, if first then 1 else -1, ⟨imageDn first N.toNat, [N.toNat + 1, N.toNat] ++ List.range N.toNat, imageDn first N.toNat⟩, withBias, some k⟩ first C w' b :=
    ⟨hw1, hw2.trans hp.weightShape, fun hh => by rw [hb]; exact hp.bias hh, hp.mask⟩
  obtain ⟨ps, q1, q2, q3⟩ := call_of (W' := weights (some k) w') (b' := biasOf withBias first conv.numSpatialDims b) (x' := image first sp C x 0) hi rfl rfl
  obtain ⟨y', out', k1, k2, k0, k3⟩ := batched_examples h hf hs ho hp' q3
  have hout : out' = out := by
    refine List.map_injective_iff.mpr (fun a b h => Int.ofNat.inj h) (k0.symm.trans (Eq.trans ?_ h0))
    rw [q2]
    rfl
  subst hout
  refine ⟨y', k1, by rw [k2, h2], fun i hi' => ?_⟩
  rw [h2] at hi'
  cases hi' with
  | @cons e _ i _ he hi'' =>
    obtain ⟨t, c, rfl, ht, hcc⟩ := valid_layout hi''
    obtain ⟨i, a1, a2, a3, a4⟩ := h3 e he
    obtain ⟨i', b1, b2, b3, b4⟩ := k3 e he
    rw [a4 t c ht hcc, b4 t c ht hcc]
    obtain ⟨_, _, _, _, _, _, ps1, r1, r2⟩ := call_conds a1
    obtain ⟨_, _, _, _, _, _, ps2, r3, r4⟩ := call_conds b1
    have : ps2 = ps1 := Except.ok.inj (r3.symm.trans r1)
    subst this
    rw [r2, r4, output_val, output_val]
    refine congrArg (· + _) (taps_congr (fun j ci hj hci => ?_) fun _ _ => rfl)
    show w'.val (j ++ [ci, c]) * k.val (j ++ [ci, c]) = w.val (j ++ [ci, c]) * k.val (j ++ [ci, c])
    by_cases hz : k.val (j ++ [ci, c]) = 0
    · rw [hz, mul_zero, mul_zero]
    · rw [hw3 _ (by rw [hp.weightShape]; exact Verif.Nd.valid_append hj (.cons hci (.cons (by rw [(make_ok hc).2.2.2.1]; exact hcc) .nil))) hz]

/-- C105 A mask whose shape is not that of the weights (kernel sizes, input channels of a group, output channels) is rejected with a `ValueError` before any parameter is asked for. -/
theorem mask_rejects [AddCommMonoid K] [Mul K] (name : String) (N : Int) (oc g : Nat) (kernel stride rate : Arg Int) (padding : PadArg) (withBias : Bool) (fmt : List Char) (k : Arr K) (m : Module K)
    (h : Module.make name N oc kernel stride rate padding withBias fmt (some k) g = .ok m) (first : Bool) (hf : getChannelIndex fmt = .ok (if first then 1 else -1)) (get : ParamFn K) (x : Arr K) (B C : Nat)
    (sp : List Nat) (hx : x.shape = B :: layout first sp C) (hsp : sp.length = N.toNat) (hg : g ≠ 0) (hC : C % g = 0) (ks : List Nat) (hk : m.conv.kernelShape = ks.map Int.ofNat)
    (hm : k.shape ≠ ks ++ [C / g, oc]) : m.call get x = .error .value := by
  obtain ⟨hd, _⟩ := spatial h
  obtain ⟨conv, hc, rfl⟩ := made h hf
  obtain ⟨hN, _, hg', ho, _⟩ := make_ok hc
  rw [call_batch_eq hd (by rw [hx, List.length_cons, layout_length, hsp])]
  unfold Module.batched
  dsimp only at hk ⊢
  have hks : conv.kernelShape.map Int.toNat = ks := by
    rw [hk, List.map_map]
    exact List.map_id'' (fun _ => rfl) ks
  have ek : ¬ (conv.kernelShape.any (· < 0) = true) := by
    rw [hk]
    simp only [List.any_eq_true, decide_eq_true_eq]
    rintro ⟨s, h, q⟩
    obtain ⟨a, _, rfl⟩ := List.mem_map.mp h
    exact absurd q (by show ¬ (Int.ofNat a < 0); exact Int.not_lt.mpr (Int.natCast_nonneg a))
  rw [bind_eq (channels_of hx), hg', if_neg hg, if_neg (fun h => h hC), if_neg ek, hks, ho]
  exact if_pos (decide_eq_true hm)

/-! ### Examples -/

/-- Parameters for the examples. -/
def params : ParamFn ℤ := fun _ n s => .ok ⟨s, fun i => if n = "b" then ((i.headD 0 : Nat) : ℤ) + 1 else (i.sum : ℤ) + 1⟩

/-- The same parameters, with other weights where the first input channel is read. -/
def params' : ParamFn ℤ := fun _ n s => .ok ⟨s, fun i => if n = "b" then ((i.headD 0 : Nat) : ℤ) + 1 else if i.getD 1 0 = 0 then 7 else (i.sum : ℤ) + 1⟩

/-- A batch of two examples of length 3 with two channels. -/
def batch : Arr ℤ := ⟨[2, 3, 2], fun i => (i.sum : ℤ) + 1⟩

/-- A 1-D convolution with kernel size 2 and two output channels. -/
def conv (groups : Nat) (fmt : List Char) (mask : Option (Arr ℤ)) : Except Err (Module ℤ) := Module.make "c" 1 2 (.scalar 2) (.scalar 1) (.scalar 1) (.str "valid".toList) true fmt mask groups

example : ∃ m y z, conv 2 "NWC".toList none = .ok m ∧ m.call params batch = .ok y ∧ m.call params (slice batch 1) = .ok z ∧ y.shape = [2, 2, 2] ∧ y.val [1, 1, 1] = 25 ∧ z.shape = [2, 2] ∧ z.val [1, 1] = 25 :=
  ⟨_, _, _, rfl, rfl, rfl, by decide +kernel, by decide +kernel, by decide +kernel, by decide +kernel⟩

example : getChannelIndex "NWC".toList = .ok (-1) ∧ getChannelIndex "NCW".toList = .ok 1 ∧ (∀ b, params "c" "b" [2] = .ok b → params "c" "b" (2 :: List.replicate (1 : Int).toNat 1) = .ok ⟨2 :: List.replicate (1 : Int).toNat 1, fun i => b.val [i.headD 0]⟩) ∧
    ∃ m y, conv 2 "NCW".toList none = .ok m ∧ m.call params ⟨[2, 2, 3], fun i => batch.val (i.headD 0 :: (i.drop 2 ++ [i.getD 1 0]))⟩ = .ok y ∧ y.shape = [2, 2, 2] ∧ y.val [1, 1, 0] = 20 ∧ y.val [1, 0, 1] = 12 := by
  refine ⟨by decide +kernel, by decide +kernel, ?_, _, _, rfl, rfl, by decide +kernel, by decide +kernel, by decide +kernel⟩
  intro b hb
  cases hb
  rfl

example : ∃ m, conv 2 "NWC".toList none = .ok m ∧ m.call params ⟨[3], fun _ => 0⟩ = .error .value ∧ m.call params ⟨[2, 3, 3], fun _ => 0⟩ = .error .value :=
  ⟨_, rfl, rfl, rfl⟩

example : ∃ m y y', conv 1 "NWC".toList (some ⟨[2, 2, 2], fun i => if i.getD 1 0 = 0 then 0 else 1⟩) = .ok m ∧ m.call params batch = .ok y ∧ m.call params' batch = .ok y' ∧ y.val [1, 1, 1] = 34 ∧ y'.val [1, 1, 1] = 34 :=
  ⟨_, _, _, rfl, rfl, rfl, by decide +kernel, by decide +kernel⟩

example : ∃ m, conv 1 "NWC".toList (some ⟨[2, 2, 1], fun _ => 1⟩) = .ok m ∧ m.call params batch = .error .value := ⟨_, rfl, rfl⟩

end Verif.Props.ConvArr
