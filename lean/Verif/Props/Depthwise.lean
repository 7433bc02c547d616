import Mathlib.Algebra.BigOperators.Ring.Finset
import Mathlib.Algebra.Ring.Rat
import Verif.Props.ConvArr
import Verif.Props.ConvT

/-!
# Depthwise convolutions (C106, C107)
-/

set_option linter.unusedVariables false
set_option linter.unusedSectionVars false

namespace Verif.Props.Depthwise
open Verif.Shapes (Err)
open Verif.Pool (Arr)
open Verif.Utils
open Verif.Mlp (ParamFn getParameter)
open Verif.Conv
open Verif.Props.Conv
open Verif.Props.Utils (entry)
open Verif.ConvArr
open Verif.Props.ConvArr
open Verif.Props.Reset (Valid mem_indices)
open Verif.Props.Norm (bind_eq bind_err)

variable {K : Type}

/-! ### Lemmas -/

/-- The dimension numbers of a depthwise convolution are those of a 2-D convolution. -/
theorem dn_eq (first : Bool) : (if (if first then 1 else -1 : Int) = -1 then parseDimensionNumbers "NHWC".toList "HWIO".toList else parseDimensionNumbers "NCHW".toList "HWIO".toList) =
    ⟨imageDn first 2, [3, 2] ++ List.range 2, imageDn first 2⟩ := by
  cases first <;> decide +kernel

theorem channel_cases {fmt : List Char} {c : Int} (h : getChannelIndex fmt = .ok c) : ∃ first : Bool, c = if first then 1 else -1 := by
  unfold getChannelIndex at h
  split at h
  · cases h; exact ⟨true, rfl⟩
  split at h
  · cases h; exact ⟨false, rfl⟩
  split at h
  · cases h; exact ⟨true, rfl⟩
  split at h
  · cases h; exact ⟨false, rfl⟩
  split at h
  · cases h; exact ⟨false, rfl⟩
  · cases h

theorem pair_of {l : List Int} (h : l.length = 2) : ∃ a b, l = [a, b] := by
  match l, h with
  | [a, b], _ => exact ⟨a, b, rfl⟩

theorem depth_made {name : String} {mult : Nat} {kernel stride : Arg Int} {padding : Padding} {withBias : Bool} {fmt : List Char} {m : Depthwise}
    (h : Depthwise.make name mult kernel stride padding withBias fmt = .ok m) :
    ∃ k0 k1 s0 s1 first, replicate kernel 2 = .ok [k0, k1] ∧ replicate stride 2 = .ok [s0, s1] ∧ getChannelIndex fmt = .ok (if first then 1 else -1) ∧
      m = ⟨name, mult, [k0, k1], [s0, s1], padding, if first then 1 else -1, ⟨imageDn first 2, [3, 2] ++ List.range 2, imageDn first 2⟩, withBias⟩ := by
  unfold Depthwise.make at h
  obtain ⟨ks, h1, h⟩ := bind_ok h
  obtain ⟨ss, h2, h⟩ := bind_ok h
  obtain ⟨c, h3, h⟩ := bind_ok h
  obtain ⟨first, rfl⟩ := channel_cases h3
  dsimp only at h
  rw [dn_eq] at h
  obtain ⟨k0, k1, rfl⟩ := pair_of (fitting_of_ok (n := 2) h1).2.1
  obtain ⟨s0, s1, rfl⟩ := pair_of (fitting_of_ok (n := 2) h2).2.1
  exact ⟨k0, k1, s0, s1, first, h1, h2, h3, (Except.ok.inj h).symm⟩

/-- The parameters of a depthwise convolution are there. -/
structure DParams (get : ParamFn K) (name : String) (mult k0 k1 C : Nat) (withBias first : Bool) (w b : Arr K) : Prop where
  weight : get name "w" [k0, k1, 1, mult * C] = .ok w
  weightShape : w.shape = [k0, k1, 1, mult * C]
  bias : withBias = true → get name "b" (biasShape first 2 (mult * C)) = .ok b ∧ b.shape = biasShape first 2 (mult * C)

/-- One channel of a depthwise convolution of one example. -/
def channel [AddCommMonoid K] [Mul K] (w : Arr K) (x : Image K) (k0 k1 : Nat) (ss : List Int) (ps : List (Int × Int)) (mult : Nat) (t : List Nat) (c : Nat) : K :=
  ((indices [k0, k1]).map fun j => w.val (j ++ [0, c]) * x.get (tap ss [1, 1] ps (t.map Int.ofNat) j) (c / mult)).sum

theorem taps_channel [AddCommMonoid K] [Mul K] {w : Arr K} {x : Image K} {k0 k1 : Nat} {ss : List Int} {ps : List (Int × Int)} {mult : Nat} {t : List Nat} {c : Nat} :
    taps (fun j ci c => w.val (j ++ [ci, c])) x [k0, k1] ss [1, 1] ps 1 mult (t.map Int.ofNat) c = channel w x k0 k1 ss ps mult t c := by
  unfold taps channel
  refine congrArg List.sum (List.map_congr_left fun j hj => ?_)
  show (w.val (j ++ [0, c]) * x.get (tap ss [1, 1] ps (t.map Int.ofNat) j) (c / mult * 1 + 0) + 0) = _
  rw [add_zero, Nat.mul_one, Nat.add_zero]

/-- The result of a depthwise convolution. -/
theorem depth_run [AddCommMonoid K] [Mul K] {name : String} {mult k0 k1 : Nat} {s0 s1 : Int} {padding : Padding} {withBias first : Bool} {get : ParamFn K} {x w b : Arr K} {B C n0 n1 : Nat} {ps : List (Int × Int)}
    (hx : x.shape = B :: layout first [n0, n1] C) (hC : C ≠ 0) (h0 : 1 ≤ s0) (h1 : 1 ≤ s1) (hps : laxPads padding [(n0 : Int), n1] [dilate k0 1, dilate k1 1] [s0, s1] = .ok ps) (hp : DParams get name mult k0 k1 C withBias first w b) :
    ∃ y out, (⟨name, mult, [(k0 : Int), k1], [s0, s1], padding, if first then 1 else -1, ⟨imageDn first 2, [3, 2] ++ List.range 2, imageDn first 2⟩, withBias⟩ : Depthwise).call get x = .ok y ∧
      out = (outSizes [(n0 : Int), n1] [dilate k0 1, dilate k1 1] [s0, s1] ps).map Int.toNat ∧ y.shape = B :: layout first out (mult * C) ∧ out.length = 2 ∧
      ∀ e t c, e < B → Valid out t → c < mult * C → y.val (e :: layout first t c) = channel w (image first [n0, n1] C x e) k0 k1 [s0, s1] ps mult t c + biasOf withBias first 2 b c := by
  obtain ⟨y, hy1, hy2, hy3⟩ := conv_examples (x := x) (w := w) (n := 2) (g := C) (first := first) (sp := [n0, n1]) (kernel := [k0, k1]) (I := 1) (O := mult * C) (strides := [s0, s1]) (dil := [1, 1]) (padding := padding) (ps := ps) hx rfl hp.weightShape rfl rfl rfl
    (by intro s hs; simp only [List.mem_cons, List.not_mem_nil, or_false] at hs; rcases hs with rfl | rfl <;> assumption) (by intro s hs; simp only [List.mem_cons, List.not_mem_nil, or_false] at hs; rcases hs with rfl | rfl <;> exact Int.le_refl 1) hC (Nat.one_mul C).symm
    (Nat.mul_mod_left mult C) hps
  have hpl : ps.length = 2 := laxPads_length hps rfl rfl rfl
  have hol : ((outSizes [(n0 : Int), n1] [dilate k0 1, dilate k1 1] [s0, s1] ps).map Int.toNat).length = 2 := by
    rw [List.length_map]
    exact outSizes_length _ _ _ _ 2 rfl rfl rfl hpl
  replace hy2 : y.shape = B :: layout first ((outSizes [(n0 : Int), n1] [dilate k0 1, dilate k1 1] [s0, s1] ps).map Int.toNat) (mult * C) := hy2
  generalize hout : (outSizes [(n0 : Int), n1] [dilate k0 1, dilate k1 1] [s0, s1] ps).map Int.toNat = out at hy2 hol
  obtain ⟨z, hz1, hz2, hz3⟩ := biased_examples (get := get) (module := name) (withBias := withBias) (b := b) hy2 (by rw [hol]; exact hp.bias)
  rw [hol] at hz1 hz3
  refine ⟨z, out, ?_, rfl, hz2.trans hy2, hol, ?_⟩
  · unfold Depthwise.call
    dsimp only
    rw [bind_eq (channels_of hx), if_neg (show ¬ ([(k0 : Int), k1].any (· < 0) = true) from by
      simp only [List.any_eq_true, decide_eq_true_eq, List.mem_cons, List.not_mem_nil, or_false]
      rintro ⟨s, rfl | rfl, h⟩ <;> omega)]
    have hg : getParameter get name "w" ([(k0 : Int), k1].map Int.toNat ++ [1, mult * C]) = .ok w := by
      unfold getParameter
      show (get name "w" [k0, k1, 1, mult * C] >>= fun p => _) = _
      rw [bind_eq hp.weight]
      exact if_pos hp.weightShape
    rw [bind_eq hg, bind_eq hy1]
    refine Eq.trans ?_ hz1
    refine congrArg (fun s => biased get name withBias s y) ?_
    cases first <;> rfl
  · intro e t c he ht hc
    rw [hz3 e t c he ht hc, hy3 e t c (by rw [ht.length_eq, hol]), Nat.mul_div_cancel mult (Nat.pos_of_ne_zero hC)]
    exact congrArg (· + _) taps_channel

theorem nat_of {k : Int} (h : 0 ≤ k) : ∃ n : Nat, k = n := ⟨k.toNat, (Int.toNat_of_nonneg h).symm⟩

theorem conv_rank [AddCommMonoid K] [Mul K] {x w y : Arr K} {strides dil : List Int} {padding : Padding} {dn : DimNums} {g : Nat} (h : convGeneralDilated x w strides padding dil dn g = .ok y) :
    x.shape.length = strides.length + 2 := by
  unfold convGeneralDilated at h
  by_cases e1 : x.shape.length ≠ strides.length + 2 ∨ w.shape.length ≠ strides.length + 2 ∨ dil.length ≠ strides.length
  · rw [if_pos e1] at h; cases h
  · exact Decidable.not_not.mp fun hh => e1 (.inl hh)

theorem two_of {l : List Nat} (h : l.length = 2) : ∃ a b, l = [a, b] := by
  match l, h with
  | [a, b], _ => exact ⟨a, b, rfl⟩

/-- What the success of a depthwise convolution tells. -/
theorem depth_inv [AddCommMonoid K] [Mul K] {name : String} {mult : Nat} {k0 k1 s0 s1 : Int} {padding : Padding} {withBias first : Bool} {get : ParamFn K} {x y : Arr K}
    (h : (⟨name, mult, [k0, k1], [s0, s1], padding, if first then 1 else -1, ⟨imageDn first 2, [3, 2] ++ List.range 2, imageDn first 2⟩, withBias⟩ : Depthwise).call get x = .ok y) :
    ∃ B C n0 n1 ps w b, ∃ a0 a1 : Nat, k0 = a0 ∧ k1 = a1 ∧ x.shape = B :: layout first [n0, n1] C ∧ C ≠ 0 ∧ 1 ≤ s0 ∧ 1 ≤ s1 ∧ laxPads padding [(n0 : Int), n1] [dilate a0 1, dilate a1 1] [s0, s1] = .ok ps ∧
      DParams get name mult a0 a1 C withBias first w b := by
  unfold Depthwise.call at h
  dsimp only at h
  obtain ⟨c, h1, h⟩ := bind_ok h
  by_cases e1 : [k0, k1].any (· < 0) = true
  · rw [if_pos e1] at h; cases h
  rw [if_neg e1] at h
  simp only [List.any_eq_true, decide_eq_true_eq, List.mem_cons, List.not_mem_nil, or_false, not_exists, not_and, Int.not_lt] at e1
  obtain ⟨a0, rfl⟩ := nat_of (e1 k0 (.inl rfl))
  obtain ⟨a1, rfl⟩ := nat_of (e1 k1 (.inr rfl))
  obtain ⟨w, h2, h⟩ := bind_ok h
  obtain ⟨z, h3, hz⟩ := bind_ok h
  have hr := conv_rank h3
  obtain ⟨B, s, hs⟩ : ∃ B s, x.shape = B :: s := by
    cases hq : x.shape with
    | nil => rw [hq] at hr; cases hr
    | cons B s => exact ⟨B, s, rfl⟩
  obtain ⟨sp, C, rfl, hsp⟩ := shape_split (n := 2) (s := s) (by rw [hs] at hr; exact Nat.succ.inj hr) first
  obtain ⟨n0, n1, rfl⟩ := two_of hsp
  have hc : c = C := Except.ok.inj (h1.symm.trans (channels_of hs))
  subst hc
  obtain ⟨h2a, h2b⟩ := parameter_ok h2
  obtain ⟨q1, q2, q3, q4, q5, ps, q6⟩ := conv_inv (n := 2) (kernel := [a0, a1]) (I := 1) (O := mult * c) hs rfl h2b rfl h3
  have hb : ∃ b : Arr K, withBias = true → get name "b" (biasShape first 2 (mult * c)) = .ok b ∧ b.shape = biasShape first 2 (mult * c) := by
    cases withBias with
    | false => exact ⟨w, fun h => by cases h⟩
    | true =>
      unfold biased at hz
      rw [if_pos rfl] at hz
      obtain ⟨b, hb, _⟩ := bind_ok hz
      have hbs : (if (if first then 1 else -1 : Int) = -1 then [mult * c] else [mult * c, 1, 1]) = biasShape first 2 (mult * c) := by
        cases first <;> rfl
      rw [hbs] at hb
      exact ⟨b, fun _ => parameter_ok hb⟩
  obtain ⟨b, hb⟩ := hb
  exact ⟨B, c, n0, n1, ps, w, b, a0, a1, rfl, rfl, hs, q3, q1 s0 (.head _), q1 s1 (.tail _ (.head _)), q6, h2a, h2b, hb⟩

/-! ### C106 -/

/-- C106 A successful `DepthwiseConv2D` returns `channel_multiplier * C` channels for `C` input channels.  Output channel `c` is the convolution of input channel `c // channel_multiplier` alone with slice `c` of the
weights, plus the bias of channel `c`; the padding `ps` is the one that `lax` takes for the given sizes. -/
theorem depthwise_computes [AddCommMonoid K] [Mul K] (name : String) (mult : Nat) (kernel stride : Arg Int) (padding : Padding) (withBias : Bool) (fmt : List Char) (m : Depthwise)
    (h : Depthwise.make name mult kernel stride padding withBias fmt = .ok m) (first : Bool) (hf : getChannelIndex fmt = .ok (if first then 1 else -1)) (get : ParamFn K) (x y : Arr K) (hy : m.call get x = .ok y) :
    ∃ B C n0 n1 ps w b out, ∃ (k0 k1 : Nat) (s0 s1 : Int), entry kernel 0 = some (k0 : Int) ∧ entry kernel 1 = some (k1 : Int) ∧ entry stride 0 = some s0 ∧ entry stride 1 = some s1 ∧
      x.shape = B :: layout first [n0, n1] C ∧ laxPads padding [(n0 : Int), n1] [dilate k0 1, dilate k1 1] [s0, s1] = .ok ps ∧ DParams get name mult k0 k1 C withBias first w b ∧
      out = (outSizes [(n0 : Int), n1] [dilate k0 1, dilate k1 1] [s0, s1] ps).map Int.toNat ∧ y.shape = B :: layout first out (mult * C) ∧
      ∀ e t c, e < B → Valid out t → c < mult * C → y.val (e :: layout first t c) = channel w (image first [n0, n1] C x e) k0 k1 [s0, s1] ps mult t c + biasOf withBias first 2 b c := by
  obtain ⟨k0, k1, s0, s1, first', h1, h2, h3, rfl⟩ := depth_made h
  have hff : first' = first := by
    have := Except.ok.inj (h3.symm.trans hf)
    cases first <;> cases first' <;> first | rfl | (exact absurd this (by decide))
  subst hff
  obtain ⟨B, C, n0, n1, ps, w, b, a0, a1, rfl, rfl, q1, q2, q3, q4, q5, q6⟩ := depth_inv hy
  obtain ⟨y', out, r1, r2, r3, _, r4⟩ := depth_run q1 q2 q3 q4 q5 q6
  have : y' = y := Except.ok.inj (r1.symm.trans hy)
  subst this
  have f1 := (fitting_of_ok (n := 2) h1).2.2
  have f2 := (fitting_of_ok (n := 2) h2).2.2
  exact ⟨B, C, n0, n1, ps, w, b, out, a0, a1, s0, s1, (f1 0 (by decide)).symm, (f1 1 (by decide)).symm, (f2 0 (by decide)).symm, (f2 1 (by decide)).symm, q1, q5, q6, r2, r3, r4⟩

theorem get_channel [Zero K] {first : Bool} {sp : List Nat} {C e c : Nat} {x x' : Arr K} (h : ∀ t, Valid sp t → x'.val (e :: layout first t c) = x.val (e :: layout first t c)) (p : List Int) :
    (image first sp C x' e).get p c = (image first sp C x e).get p c := by
  unfold Image.get
  by_cases hi : inside (sp.map Int.ofNat) p = true
  · refine (if_pos hi).trans (Eq.trans ?_ (if_pos hi).symm)
    obtain ⟨i, rfl, hv⟩ := Verif.Props.ConvT.inside_iff.mp hi
    refine h _ ?_
    rw [List.map_map]
    have : (i.map (Int.toNat ∘ Int.ofNat)) = i := List.map_id'' (fun _ => rfl) i
    rw [this]
    rw [List.forall₂_map_left_iff] at hv
    exact (List.Forall₂.flip hv).imp fun a b h => Int.ofNat_lt.mp h
  · exact (if_neg hi).trans (if_neg hi).symm

/-- C106 The channels do not mix: changing the input in every channel but `c // channel_multiplier` does not change output channel `c`, and the call still succeeds. -/
theorem depthwise_separate [AddCommMonoid K] [Mul K] (name : String) (mult : Nat) (kernel stride : Arg Int) (padding : Padding) (withBias : Bool) (fmt : List Char) (m : Depthwise)
    (h : Depthwise.make name mult kernel stride padding withBias fmt = .ok m) (first : Bool) (hf : getChannelIndex fmt = .ok (if first then 1 else -1)) (get : ParamFn K) (x x' y : Arr K) (hy : m.call get x = .ok y) (B C : Nat) (sp : List Nat)
    (hx : x.shape = B :: layout first sp C) (hx' : x'.shape = x.shape) (c : Nat) (hc : c < mult * C) (hxx : ∀ e t, Valid sp t → x'.val (e :: layout first t (c / mult)) = x.val (e :: layout first t (c / mult))) :
    ∃ y' out, m.call get x' = .ok y' ∧ y.shape = B :: layout first out (mult * C) ∧ y'.shape = y.shape ∧ ∀ e t, e < B → Valid out t → y'.val (e :: layout first t c) = y.val (e :: layout first t c) := by
  obtain ⟨k0, k1, s0, s1, first', h1, h2, h3, rfl⟩ := depth_made h
  have hff : first' = first := by
    have := Except.ok.inj (h3.symm.trans hf)
    cases first <;> cases first' <;> first | rfl | (exact absurd this (by decide))
  subst hff
  obtain ⟨B', C', n0, n1, ps, w, b, a0, a1, rfl, rfl, q1, q2, q3, q4, q5, q6⟩ := depth_inv hy
  obtain ⟨y1, out, r1, r2, r3, _, r4⟩ := depth_run q1 q2 q3 q4 q5 q6
  have : y1 = y := Except.ok.inj (r1.symm.trans hy)
  subst this
  have hs := hx.symm.trans q1
  have hB : B = B' := List.head_eq_of_cons_eq hs
  obtain ⟨hsp, hC⟩ := layout_inj (List.tail_eq_of_cons_eq hs)
  subst hB
  subst hC
  subst hsp
  obtain ⟨y', out', t1, t2, t3, _, t4⟩ := depth_run (x := x') (hx'.trans q1) q2 q3 q4 q5 q6
  have hout : out' = out := t2.trans r2.symm
  subst hout
  refine ⟨y', out', t1, r3, t3.trans r3.symm, fun e t he ht => ?_⟩
  rw [r4 e t c he ht hc, t4 e t c he ht hc]
  refine congrArg (· + _) ?_
  unfold channel
  refine congrArg List.sum (List.map_congr_left fun j hj => ?_)
  rw [get_channel (fun t ht => hxx e t ht)]

/-- C106 A depthwise convolution with a padding string is the 2-D `ConvND` with as many groups as input channels and `channel_multiplier` output channels for each: the two calls agree on every
input of rank 4, whether they succeed or raise. -/
theorem depthwise_grouped [AddCommMonoid K] [Mul K] (name : String) (mult : Nat) (kernel stride : Arg Int) (s : List Char) (withBias : Bool) (fmt : List Char) (m : Depthwise) (m' : Module K) (C : Nat) (hC : C ≠ 0)
    (h : Depthwise.make name mult kernel stride (.str s) withBias fmt = .ok m) (h' : Module.make name 2 (mult * C) kernel stride (.scalar 1) (.str s) withBias fmt none C = .ok m') (first : Bool)
    (hf : getChannelIndex fmt = .ok (if first then 1 else -1)) (get : ParamFn K) (x : Arr K) (B n0 n1 : Nat) (hx : x.shape = B :: layout first [n0, n1] C) : m.call get x = m'.call get x := by
  obtain ⟨k0, k1, s0, s1, first', h1, h2, h3, rfl⟩ := depth_made h
  have hff : first' = first := by
    have := Except.ok.inj (h3.symm.trans hf)
    cases first <;> cases first' <;> first | rfl | (exact absurd this (by decide))
  subst hff
  obtain ⟨conv, hc, rfl⟩ := made h' hf
  obtain ⟨hN, hd, hg, ho, hk, hst, hr, hpad⟩ := make_ok hc
  have ek : conv.kernelShape = [k0, k1] := Except.ok.inj (hk.symm.trans h1)
  have es : conv.stride = [s0, s1] := Except.ok.inj (hst.symm.trans h2)
  have er : conv.kernelDilation = [1, 1] := Except.ok.inj hr.symm
  rw [call_batch_eq (n := 2) hd (by rw [hx, List.length_cons, layout_length]; rfl)]
  unfold Module.batched Depthwise.call
  dsimp only
  rw [bind_eq (channels_of hx), bind_eq (channels_of hx), hg, if_neg hC, Nat.mod_self, if_neg (show ¬ ((0 : Nat) ≠ 0) from fun h => h rfl), ek, es, er, ho, hd, Nat.div_self (Nat.pos_of_ne_zero hC)]
  by_cases e1 : [k0, k1].any (· < 0) = true
  · rw [if_pos e1, if_pos e1]
  rw [if_neg e1, if_neg e1]
  refine Eq.trans ?_ (if_neg (Bool.false_ne_true)).symm
  have hl (a b c : List Int) : laxPads (.str s) a b c = laxPads conv.padding a b c := by
    rw [show conv.padding = .str (s.map Char.toUpper) from hpad]
    unfold laxPads
    dsimp only
    rw [upper_idem]
  have hcv (w : Arr K) : convGeneralDilated x w [s0, s1] (.str s) [1, 1] ⟨imageDn first' 2, [3, 2] ++ List.range 2, imageDn first' 2⟩ C =
      convGeneralDilated x w [s0, s1] conv.padding [1, 1] ⟨imageDn first' 2, [3, 2] ++ List.range 2, imageDn first' 2⟩ C := by
    unfold convGeneralDilated
    dsimp only
    rw [hl]
  cases hgw : getParameter get name "w" ([k0, k1].map Int.toNat ++ [1, mult * C]) with
  | error e => rfl
  | ok w =>
    show (convGeneralDilated x w [s0, s1] (.str s) [1, 1] ⟨imageDn first' 2, [3, 2] ++ List.range 2, imageDn first' 2⟩ C >>= _) = (convGeneralDilated x w [s0, s1] conv.padding [1, 1] _ C >>= _)
    rw [hcv]
    rfl

/-! ### C107 -/

theorem range_sum [AddCommMonoid K] (n : Nat) (f : Nat → K) : ((List.range n).map f).sum = ∑ i ∈ Finset.range n, f i := rfl

theorem sum_flatMap [AddCommMonoid K] {β : Type} (f : β → List K) : ∀ l : List β, (l.flatMap f).sum = (l.map fun b => (f b).sum).sum
  | [] => rfl
  | b :: l => by
    rw [List.flatMap_cons, List.sum_append, sum_flatMap f l]
    rfl

theorem sum_two [AddCommMonoid K] (a b : Nat) (f : List Nat → K) : ((indices [a, b]).map f).sum = ∑ i ∈ Finset.range a, ∑ j ∈ Finset.range b, f [i, j] := by
  rw [← range_sum]
  show (((List.range a).flatMap fun i => (indices [b]).map (i :: ·)).map f).sum = _
  rw [List.map_flatMap, sum_flatMap]
  refine congrArg List.sum (List.map_congr_left fun i _ => ?_)
  rw [← range_sum]
  show ((((List.range b).flatMap fun j => [[j]]).map (i :: ·)).map f).sum = _
  rw [List.map_map, List.map_flatMap, sum_flatMap]
  refine congrArg List.sum (List.map_congr_left fun j _ => ?_)
  exact add_zero _

theorem dilate_one (k : Nat) : dilate k 1 = k := by
  unfold dilate
  split <;> omega

/-- The padding string that `lax` understands. -/
def Str (b : Bool) (s : List Char) : Prop := s.map Char.toUpper = if b then "SAME".toList else "VALID".toList

theorem lax_str {s : List Char} {a b c : List Int} {ps : List (Int × Int)} (h : laxPads (.str s) a b c = .ok ps) :
    ∃ same, Str same s ∧ ps = List.zipWith (fun nk s => stringPad same nk.1 nk.2 s) (a.zip b) c := by
  unfold laxPads at h
  dsimp only at h
  by_cases h1 : s.map Char.toUpper = "SAME".toList
  · exact ⟨true, h1, (Except.ok.inj ((if_pos h1).symm.trans h)).symm⟩
  · replace h := (if_neg h1).symm.trans h
    by_cases h2 : s.map Char.toUpper = "VALID".toList
    · exact ⟨false, h2, (Except.ok.inj ((if_pos h2).symm.trans h)).symm⟩
    · replace h := (if_neg h2).symm.trans h
      cases h

theorem str_lax {s : List Char} {same : Bool} (h : Str same s) (a b c : List Int) : laxPads (.str s) a b c = .ok (List.zipWith (fun nk s => stringPad same nk.1 nk.2 s) (a.zip b) c) := by
  unfold laxPads
  dsimp only
  cases same with
  | true => exact if_pos h
  | false =>
    have h' : s.map Char.toUpper = "VALID".toList := h
    have hne : ¬ s.map Char.toUpper = "SAME".toList := by
      rw [h']
      decide
    exact (if_neg hne).trans (if_pos h')

theorem str_unique {s : List Char} {a b : Bool} (h : Str a s) (h' : Str b s) : a = b := by
  have := h.symm.trans h'
  cases a <;> cases b <;> first | rfl | exact absurd this (by decide)

/-- A kernel of size 1 needs no padding. -/
theorem pad_one (same : Bool) (n : Nat) : stringPad same n 1 1 = (0, 0) := by
  cases same with
  | false => rfl
  | true =>
    unfold stringPad
    rw [if_pos rfl]
    dsimp only
    rw [Int.fdiv_one]
    have : max 0 ((- -(n : Int) - 1) * 1 + 1 - n) = 0 := by omega
    rw [this]
    rfl

theorem size_unit (n : Nat) : outSize n 1 1 0 0 = n := by
  rw [size_one]
  omega

theorem outSize_nonneg (n k s lo hi : Int) : 0 ≤ outSize n k s lo hi := by
  unfold outSize
  omega

theorem depth_make (name : String) (mult : Nat) (kernel stride : Arg Int) (padding : Padding) (withBias : Bool) (fmt : List Char) {k0 k1 s0 s1 : Int} {first : Bool} (h1 : replicate kernel 2 = .ok [k0, k1])
    (h2 : replicate stride 2 = .ok [s0, s1]) (h3 : getChannelIndex fmt = .ok (if first then 1 else -1)) :
    Depthwise.make name mult kernel stride padding withBias fmt =
      .ok ⟨name, mult, [k0, k1], [s0, s1], padding, if first then 1 else -1, ⟨imageDn first 2, [3, 2] ++ List.range 2, imageDn first 2⟩, withBias⟩ := by
  unfold Depthwise.make
  rw [bind_eq h1, bind_eq h2, bind_eq h3]
  dsimp only
  rw [dn_eq]

/-- C107 `SeparableDepthwiseConv2D` with a padding string and stride 1 along the second axis is the depthwise convolution whose kernel is the product of its two kernels: whenever it succeeds, `DepthwiseConv2D` with the same
arguments, the weights `w[i, j, 0, c] = w2[0, j, 0, c] * w1[i, 0, 0, c]` and the bias of the second convolution succeeds, and returns the same array.  Missing: other strides along the second axis and explicit paddings, where this is
false (`separable_stride`, `separable_padding`). -/
theorem separable_product_partial [Semiring K] (name1 name2 name : String) (mult : Nat) (kernel stride : Arg Int) (s : List Char) (withBias : Bool) (fmt : List Char) (m : Separable) (m' : Depthwise)
    (h : Separable.make name1 name2 mult kernel stride (.str s) withBias fmt = .ok m) (h' : Depthwise.make name mult kernel stride (.str s) withBias fmt = .ok m') (hs : entry stride 1 = some 1) (get get' : ParamFn K)
    (hw : ∀ k0 k1 c w1 w2, get name1 "w" [k0, 1, 1, c] = .ok w1 → get name2 "w" [1, k1, 1, c] = .ok w2 →
      get' name "w" [k0, k1, 1, c] = .ok ⟨[k0, k1, 1, c], fun i => w2.val [0, i.getD 1 0, 0, i.getD 3 0] * w1.val [i.getD 0 0, 0, 0, i.getD 3 0]⟩)
    (hb : ∀ s b, get name2 "b" s = .ok b → get' name "b" s = .ok b) (x y : Arr K) (hy : m.call get x = .ok y) :
    ∃ y', m'.call get' x = .ok y' ∧ y'.shape = y.shape ∧ ∀ i, Valid y.shape i → y'.val i = y.val i := by
  obtain ⟨k0, k1, s0, s1, f, h1, h2, h3, rfl⟩ := depth_made h'
  have hs1 : s1 = 1 := by
    have := (fitting_of_ok (n := 2) h2).2.2 1 (by decide)
    rw [hs] at this
    exact Option.some.inj this
  subst hs1
  unfold Separable.make at h
  rw [bind_eq h1] at h
  rw [bind_eq (depth_make name1 mult (.seq [[k0, k1].getD 0 0, 1]) stride (.str s) false fmt rfl h2 h3), bind_eq (depth_make name2 1 (.seq [1, [k0, k1].getD 1 0]) (.scalar 1) (.str s) withBias fmt rfl rfl h3)] at h
  have hm := Except.ok.inj h
  subst hm
  unfold Separable.call at hy
  obtain ⟨z, hz, hy⟩ := bind_ok hy
  dsimp only at hz hy
  obtain ⟨B, C, n0, n1, ps, w1, bb, A0, A1, rfl, hA1, r1, r2, r3, r4, r5, r6⟩ := depth_inv hz
  have : A1 = 1 := by omega
  subst this
  obtain ⟨z', out, t1, t2, t3, t4, t5⟩ := depth_run r1 r2 r3 r4 r5 r6
  have : z' = z := Except.ok.inj (t1.symm.trans hz)
  subst this
  obtain ⟨B', C', m0, m1, ps', w2, b, D0, D1, hD0, rfl, u1, u2, u3, u4, u5, u6⟩ := depth_inv hy
  have : D0 = 1 := by omega
  subst this
  obtain ⟨y', out', v1, v2, v3, v4, v5⟩ := depth_run u1 u2 u3 u4 u5 u6
  have : y' = y := Except.ok.inj (v1.symm.trans hy)
  subst this
  have hshape := t3.symm.trans u1
  have hB : B = B' := List.head_eq_of_cons_eq hshape
  obtain ⟨hsp, hCC⟩ := layout_inj (List.tail_eq_of_cons_eq hshape)
  subst hB
  subst hCC
  obtain ⟨same, hsame, rfl⟩ := lax_str r5
  obtain ⟨same', hsame', rfl⟩ := lax_str u5
  have := str_unique hsame' hsame
  subst this
  have hdil : dilate ((1 : Nat) : Int) 1 = 1 := by decide
  have ho1 : out = [(outSize n0 A0 s0 (stringPad same' n0 A0 s0).1 (stringPad same' n0 A0 s0).2).toNat, n1] := by
    rw [t2]
    show [(outSize n0 (dilate A0 1) s0 (stringPad same' n0 (dilate A0 1) s0).1 (stringPad same' n0 (dilate A0 1) s0).2).toNat,
      (outSize n1 (dilate ((1 : Nat) : Int) 1) 1 (stringPad same' n1 (dilate ((1 : Nat) : Int) 1) 1).1 (stringPad same' n1 (dilate ((1 : Nat) : Int) 1) 1).2).toNat] = _
    rw [hdil, pad_one, size_unit, dilate_one]
    rfl
  generalize hP : stringPad same' n0 A0 s0 = P at ho1
  rw [ho1] at hsp
  obtain ⟨hm0, hm1⟩ := List.cons.inj hsp
  obtain ⟨hm1, _⟩ := List.cons.inj hm1
  subst hm0
  subst hm1
  have ho2 : out' = [(outSize n0 A0 s0 P.1 P.2).toNat, (outSize n1 D1 1 (stringPad same' n1 D1 1).1 (stringPad same' n1 D1 1).2).toNat] := by
    rw [v2]
    show [(outSize (((outSize n0 A0 s0 P.1 P.2).toNat : Nat) : Int) (dilate ((1 : Nat) : Int) 1) 1 (stringPad same' (((outSize n0 A0 s0 P.1 P.2).toNat : Nat) : Int) (dilate ((1 : Nat) : Int) 1) 1).1
        (stringPad same' (((outSize n0 A0 s0 P.1 P.2).toNat : Nat) : Int) (dilate ((1 : Nat) : Int) 1) 1).2).toNat,
      (outSize n1 (dilate D1 1) 1 (stringPad same' n1 (dilate D1 1) 1).1 (stringPad same' n1 (dilate D1 1) 1).2).toNat] = _
    rw [hdil, pad_one, size_unit, dilate_one]
    rfl
  generalize hR : stringPad same' n1 D1 1 = R at ho2
  have hp : DParams get' name mult A0 D1 C withBias f ⟨[A0, D1, 1, mult * C], fun i => w2.val [0, i.getD 1 0, 0, i.getD 3 0] * w1.val [i.getD 0 0, 0, 0, i.getD 3 0]⟩ b := by
    have hu := u6.weight
    rw [Nat.one_mul] at hu
    refine ⟨hw A0 D1 (mult * C) w1 w2 r6.weight hu, rfl, fun hh => ?_⟩
    have := u6.bias hh
    rw [Nat.one_mul] at this
    exact ⟨hb _ b this.1, this.2⟩
  obtain ⟨Y, outY, x1, x2, x3, x4, x5⟩ := depth_run (first := f) r1 r2 r3 r4 (str_lax hsame' [(n0 : Int), n1] [dilate A0 1, dilate D1 1] [s0, 1]) hp
  have ho3 : outY = out' := by
    rw [x2, ho2]
    show [(outSize n0 (dilate A0 1) s0 (stringPad same' n0 (dilate A0 1) s0).1 (stringPad same' n0 (dilate A0 1) s0).2).toNat,
      (outSize n1 (dilate D1 1) 1 (stringPad same' n1 (dilate D1 1) 1).1 (stringPad same' n1 (dilate D1 1) 1).2).toNat] = _
    rw [dilate_one, dilate_one, hP, hR]
  rw [ho3] at x3 x5
  rw [Nat.one_mul] at v3 v5
  refine ⟨Y, x1, x3.trans v3.symm, fun i hi => ?_⟩
  rw [v3] at hi
  cases hi with
  | @cons e _ i _ he hi =>
    obtain ⟨t, c, rfl, ht, hc⟩ := valid_layout hi
    rw [x5 e t c he ht hc, v5 e t c he ht hc]
    refine congrArg (· + _) ?_
    have ht' := ht
    rw [ho2] at ht'
    obtain ⟨t0, t1, rfl⟩ := two_of ht'.length_eq
    cases ht' with
    | cons ht0 ht' =>
      have e1 : List.zipWith (fun nk s => stringPad same' nk.1 nk.2 s) ([(n0 : Int), n1].zip [dilate A0 1, dilate D1 1]) [s0, 1] = [P, R] := by
        show [stringPad same' n0 (dilate A0 1) s0, stringPad same' n1 (dilate D1 1) 1] = _
        rw [dilate_one, dilate_one, hP, hR]
      have e2 : List.zipWith (fun nk s => stringPad same' nk.1 nk.2 s) ([(((outSize n0 A0 s0 P.1 P.2).toNat : Nat) : Int), n1].zip [dilate ((1 : Nat) : Int) 1, dilate D1 1]) [1, 1] = [(0, 0), R] := by
        show [stringPad same' (((outSize n0 A0 s0 P.1 P.2).toNat : Nat) : Int) (dilate ((1 : Nat) : Int) 1) 1, stringPad same' n1 (dilate D1 1) 1] = _
        rw [hdil, pad_one, dilate_one, hR]
      have e3 : List.zipWith (fun nk s => stringPad same' nk.1 nk.2 s) ([(n0 : Int), n1].zip [dilate A0 1, dilate ((1 : Nat) : Int) 1]) [s0, 1] = [P, (0, 0)] := by
        show [stringPad same' n0 (dilate A0 1) s0, stringPad same' n1 (dilate ((1 : Nat) : Int) 1) 1] = _
        rw [hdil, pad_one, dilate_one, hP]
      rw [e1, e2]
      rw [e3] at t5
      unfold channel
      rw [sum_two, sum_two, Finset.sum_range_one, Finset.sum_comm]
      refine Finset.sum_congr rfl fun j _ => ?_
      show ∑ i ∈ Finset.range A0, (w2.val [0, j, 0, c] * w1.val [i, 0, 0, c]) * (image f [n0, n1] C x e).get [(t0 : Int) * s0 + (i : Int) * 1 - P.1, (t1 : Int) * 1 + (j : Int) * 1 - R.1] (c / mult) =
        w2.val [0, j, 0, c] * (image f [(outSize n0 A0 s0 P.1 P.2).toNat, n1] (mult * C) z' e).get [(t0 : Int) * 1 + ((0 : Nat) : Int) * 1 - 0, (t1 : Int) * 1 + (j : Int) * 1 - R.1] (c / 1)
      generalize hq : (t1 : Int) * 1 + (j : Int) * 1 - R.1 = q
      rw [Nat.div_one, show (t0 : Int) * 1 + ((0 : Nat) : Int) * 1 - 0 = t0 by omega]
      by_cases hin : 0 ≤ q ∧ q < n1
      · obtain ⟨qn, rfl⟩ := nat_of hin.1
        have hqn : qn < n1 := by omega
        have hz' : (image f [(outSize n0 A0 s0 P.1 P.2).toNat, n1] (mult * C) z' e).get [(t0 : Int), (qn : Int)] c = z'.val (e :: layout f [t0, qn] c) := by
          refine if_pos ?_
          show (decide (0 ≤ (t0 : Int)) && decide ((t0 : Int) < ((outSize n0 A0 s0 P.1 P.2).toNat : Nat)) && (decide (0 ≤ (qn : Int)) && decide ((qn : Int) < (n1 : Int)) && true)) = true
          simp only [Bool.and_eq_true, decide_eq_true_eq]
          exact ⟨⟨by omega, by exact_mod_cast ht0⟩, ⟨by omega, by exact_mod_cast hqn⟩, trivial⟩
        rw [hz', t5 e [t0, qn] c he (by rw [ho1]; exact .cons ht0 (.cons hqn .nil)) hc]
        unfold channel
        rw [sum_two]
        show _ = w2.val [0, j, 0, c] * (_ + 0)
        rw [add_zero, Finset.mul_sum]
        refine Finset.sum_congr rfl fun i _ => ?_
        rw [Finset.sum_range_one, mul_assoc]
        show _ = w2.val [0, j, 0, c] * (w1.val [i, 0, 0, c] * (image f [n0, n1] C x e).get [(t0 : Int) * s0 + (i : Int) * 1 - P.1, (qn : Int) * 1 + ((0 : Nat) : Int) * 1 - 0] (c / mult))
        rw [show (qn : Int) * 1 + ((0 : Nat) : Int) * 1 - 0 = qn by omega]
      · have out0 (n : Nat) (p : Int) : inside ([n, n1].map Int.ofNat) [p, q] = false := by
          show (decide (0 ≤ p) && decide (p < (n : Int)) && (decide (0 ≤ q) && decide (q < (n1 : Int)) && true)) = false
          rw [Bool.and_true, Bool.and_eq_false_iff]
          refine .inr ?_
          rw [← Bool.decide_and, decide_eq_false_iff_not]
          exact hin
        have g1 (p : Int) (ch : Nat) : (image f [n0, n1] C x e).get [p, q] ch = 0 := if_neg (by
          show ¬ inside ([n0, n1].map Int.ofNat) [p, q] = true
          rw [out0]
          exact Bool.false_ne_true)
        have g2 : (image f [(outSize n0 A0 s0 P.1 P.2).toNat, n1] (mult * C) z' e).get [(t0 : Int), q] c = 0 := if_neg (by
          show ¬ inside ([(outSize n0 A0 s0 P.1 P.2).toNat, n1].map Int.ofNat) [(t0 : Int), q] = true
          rw [out0]
          exact Bool.false_ne_true)
        rw [g2, mul_zero]
        refine Finset.sum_eq_zero fun i _ => ?_
        rw [g1, mul_zero]

/-! ### Examples -/

/-- The parameters of one depthwise convolution that correspond to those of the examples for a separable one. -/
def product : ParamFn ℤ := fun m n s => if n = "b" then params m n s else
  .ok ⟨s, fun i => (([0, i.getD 1 0, 0, i.getD 3 0].sum : Nat) + 1) * (([i.getD 0 0, 0, 0, i.getD 3 0].sum : Nat) + 1)⟩

theorem product_weights (n1 n2 n : String) (k0 k1 c : Nat) (w1 w2 : Arr ℤ) (h1 : params n1 "w" [k0, 1, 1, c] = .ok w1) (h2 : params n2 "w" [1, k1, 1, c] = .ok w2) :
    product n "w" [k0, k1, 1, c] = .ok ⟨[k0, k1, 1, c], fun i => w2.val [0, i.getD 1 0, 0, i.getD 3 0] * w1.val [i.getD 0 0, 0, 0, i.getD 3 0]⟩ := by
  cases h1
  cases h2
  rfl

/-- A picture of the given size with the given number of channels. -/
def pixels (n c : Nat) : Arr ℤ := ⟨[1, n, n, c], fun i => ((i.getD 1 0 * i.getD 1 0 + 2 * i.getD 2 0 + 5 * i.getD 3 0 : Nat) : ℤ)⟩

/-- C107 With stride 2 the separable convolution is not the depthwise convolution with the product of the kernels: the first convolution also takes every second column, although its kernel is one column wide, and the second one combines what is
left.  On a 4 by 4 picture with `VALID` padding and kernel size 2 the sizes differ; on a 3 by 3 picture the sizes agree and the values do not. -/
theorem separable_stride : ∃ m m', Separable.make "a" "b" 1 (.scalar 2) (.scalar 2) (.str "VALID".toList) true "NHWC".toList = .ok m ∧ Depthwise.make "d" 1 (.scalar 2) (.scalar 2) (.str "VALID".toList) true "NHWC".toList = .ok m' ∧
    (∃ y y', m.call params (pixels 4 1) = .ok y ∧ m'.call product (pixels 4 1) = .ok y' ∧ y.shape = [1, 2, 1, 1] ∧ y'.shape = [1, 2, 2, 1]) ∧
    ∃ y y', m.call params (pixels 3 1) = .ok y ∧ m'.call product (pixels 3 1) = .ok y' ∧ y.shape = [1, 1, 1, 1] ∧ y'.shape = [1, 1, 1, 1] ∧ y.val [0, 0, 0, 0] = 31 ∧ y'.val [0, 0, 0, 0] = 19 :=
  ⟨_, _, rfl, rfl, ⟨_, _, rfl, rfl, by decide +kernel, by decide +kernel⟩, _, _, rfl, rfl, by decide +kernel, by decide +kernel, by decide +kernel, by decide +kernel⟩

/-- C107 With explicit padding the separable convolution pads twice, each time along both axes: kernel size 3 with one element on every side returns a 4 by 4 picture for a 2 by 2 one, where the depthwise convolution keeps the size. -/
theorem separable_padding : ∃ m m' y y', Separable.make "a" "b" 1 (.scalar 3) (.scalar 1) (.pairs [(1, 1), (1, 1)]) true "NHWC".toList = .ok m ∧ Depthwise.make "d" 1 (.scalar 3) (.scalar 1) (.pairs [(1, 1), (1, 1)]) true "NHWC".toList = .ok m' ∧
    m.call params (pixels 2 1) = .ok y ∧ m'.call product (pixels 2 1) = .ok y' ∧ y.shape = [1, 4, 4, 1] ∧ y'.shape = [1, 2, 2, 1] :=
  ⟨_, _, _, _, rfl, rfl, rfl, rfl, by decide +kernel, by decide +kernel⟩

example : ∃ m m' y y', Separable.make "a" "b" 2 (.seq [2, 3]) (.seq [2, 1]) (.str "SAME".toList) true "NHWC".toList = .ok m ∧ entry (.seq [2, 1] : Arg Int) 1 = some 1 ∧ (∀ k0 k1 c w1 w2, params "a" "w" [k0, 1, 1, c] = .ok w1 → params "b" "w" [1, k1, 1, c] = .ok w2 →
      product "d" "w" [k0, k1, 1, c] = .ok ⟨[k0, k1, 1, c], fun i => w2.val [0, i.getD 1 0, 0, i.getD 3 0] * w1.val [i.getD 0 0, 0, 0, i.getD 3 0]⟩) ∧ (∀ s b, params "b" "b" s = .ok b → product "d" "b" s = .ok b) ∧
    m.call params (pixels 3 2) = .ok y ∧ y.shape = [1, 2, 3, 4] ∧ y.val [0, 0, 1, 3] = 1060 ∧
    Depthwise.make "d" 2 (.seq [2, 3]) (.seq [2, 1]) (.str "SAME".toList) true "NHWC".toList = .ok m' ∧ m'.call product (pixels 3 2) = .ok y' ∧ y'.val [0, 0, 1, 3] = 1060 :=
  ⟨_, _, _, _, rfl, rfl, product_weights "a" "b" "d", fun _ _ h => h, rfl, by decide +kernel, by decide +kernel, rfl, rfl, by decide +kernel⟩

/-- A picture whose channels differ from `pixels` in all but the second one. -/
def pixels' : Arr ℤ := ⟨[1, 3, 3, 2], fun i => if i.getD 3 0 = 1 then (pixels 3 2).val i else 100⟩

example : ∃ m y y', Depthwise.make "d" 2 (.scalar 2) (.scalar 1) (.str "VALID".toList) true "NHWC".toList = .ok m ∧ getChannelIndex "NHWC".toList = .ok (if false then 1 else -1) ∧ m.call params (pixels 3 2) = .ok y ∧ m.call params pixels' = .ok y' ∧
    y.shape = [1, 2, 2, 4] ∧ y.val [0, 1, 1, 2] = 176 ∧ y'.val [0, 1, 1, 2] = 176 ∧ y'.val [0, 1, 1, 1] = 1202 ∧ y.val [0, 1, 1, 1] = 73 :=
  ⟨_, _, _, rfl, rfl, rfl, rfl, by decide +kernel, by decide +kernel, by decide +kernel, by decide +kernel, by decide +kernel⟩

example : ∃ m : Module ℤ, ∃ y, Module.make "d" 2 (2 * 2) (.scalar 2) (.scalar 1) (.scalar 1) (.str "VALID".toList) true "NHWC".toList none 2 = .ok m ∧ (pixels 3 2).shape = 1 :: layout false [3, 3] 2 ∧ m.call params (pixels 3 2) = .ok y ∧ y.shape = [1, 2, 2, 4] ∧
    y.val [0, 1, 1, 2] = 176 :=
  ⟨_, _, rfl, rfl, rfl, by decide +kernel, by decide +kernel⟩

end Verif.Props.Depthwise
