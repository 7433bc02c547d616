import Verif.Model.ResNet
import Verif.Props.ConvArr
import Verif.Props.BatchNorm
import Verif.Props.Pool
import Verif.Props.Cores
import Verif.Props.Mlp
import Mathlib.Data.Finset.Card

/-!
# Layers of a network as stages on batches

A stage maps the states of the batch normalisations and a batch to states and a batch.  `Good` says that a stage succeeds on every batch of given sizes, what it does to the states, and that it treats the examples of a batch alike.
-/

set_option linter.unusedVariables false
set_option linter.unusedSectionVars false
set_option linter.dupNamespace false

namespace Verif.Stage
open Verif.Shapes (Err)
open Verif.Pool (Arr)
open Verif.Conv (indices stringPad outSize)
open Verif.Mlp (ParamFn getParameter Linear)
open Verif.Recurrent (project)
open Verif.Props.Reset (Valid mem_indices)
open Verif.Props.Conv (bind_ok)
open Verif.Props.Norm
open Verif.Props.Cores (Has)
open Verif.Nd
open Verif.Norm
open Verif.ResNet

variable {K : Type}

/-- A layer with states. -/
abbrev Stage (K : Type) := States K → Arr K → Except Err (Arr K × States K)

/-- The moving average has values for `c` channels. -/
def AvgOk (c : Nat) (e : EmaState K) : Prop := ∃ a, e.average = some a ∧ a.shape = [1, 1, 1, c]

/-- The moving average is new, or has values for `c` channels. -/
def HidOk (c : Nat) (e : EmaState K) : Prop := ∀ h, e.hidden = some h → h.shape = [1, 1, 1, c]

/-- A batch normalisation of `c` channels can run on this state: in training it may be empty, otherwise it needs the averages unless local statistics are used. -/
def Ready (tr tl : Bool) (c : Nat) (s : BnState K) : Prop :=
  (tr = true → HidOk c s.mean ∧ HidOk c s.var) ∧ (tr = false → tl = false → AvgOk c s.mean ∧ AvgOk c s.var)

/-- The state has averages for `c` channels. -/
def Full (c : Nat) (s : BnState K) : Prop := (HidOk c s.mean ∧ HidOk c s.var) ∧ AvgOk c s.mean ∧ AvgOk c s.var

theorem Full.ready {c : Nat} {s : BnState K} (h : Full c s) (tr tl : Bool) : Ready tr tl c s := ⟨fun _ => h.1, fun _ _ => h.2⟩

/-- Example `e` of `x'` is example `ρ e` of `x`, on all positions of the sizes `s`. -/
def Pulls (ρ : Nat → Nat) (N' : Nat) (s : List Nat) (x x' : Arr K) : Prop := ∀ e < N', ∀ i, Valid s i → x'.val (e :: i) = x.val (ρ e :: i)

/-- `ρ` chooses `N'` examples among `N`; where the examples of a batch are mixed, it only changes their order. -/
structure Select (mixing : Bool) (N N' : Nat) (ρ : Nat → Nat) : Prop where
  lt : ∀ e < N', ρ e < N
  perm : mixing = true → N' = N ∧ ∀ e < N, ∀ e' < N, ρ e = ρ e' → e = e'

/-- The stage succeeds on all batches of examples of sizes `s` and gives examples of sizes `t`, changes no states but those of `bns` (name and channels), which are full after training, and none without training; and for a choice of
examples it gives that choice of the outputs and the same states. -/
def Good (tr tl : Bool) (f : Stage K) (bns : List (String × Nat)) (s t : List Nat) : Prop :=
  ∀ N st x, x.shape = N :: s → (∀ b ∈ bns, Ready tr tl b.2 (st b.1)) → ∃ y st', f st x = .ok (y, st') ∧ y.shape = N :: t ∧ (∀ n, n ∉ bns.map Prod.fst → st' n = st n) ∧
    (tr = true → ∀ b ∈ bns, Full b.2 (st' b.1)) ∧ (tr = false → st' = st) ∧
    ∀ N' x' ρ, x'.shape = N' :: s → Select (tr || tl) N N' ρ → Pulls ρ N' s x x' → ∃ y', f st x' = .ok (y', st') ∧ y'.shape = N' :: t ∧ Pulls ρ N' t y y'

/-! ### Combinations -/

/-- One stage after the other. -/
def comp (f g : Stage K) : Stage K := fun st x => f st x >>= fun p => g p.2 p.1

/-- A layer without state. -/
def lift (F : Arr K → Except Err (Arr K)) : Stage K := fun st x => F x >>= fun y => .ok (y, st)

/-- Two stages on the same input, and the sum of their results. -/
def residual [Add K] (f g : Stage K) : Stage K := fun st x => f st x >>= fun p => g p.2 x >>= fun q => Verif.Nd.zip (· + ·) q.1 p.1 >>= fun z => .ok (z, q.2)

/-- No name occurs in both. -/
def Apart (a b : List (String × Nat)) : Prop := ∀ n ∈ a.map Prod.fst, n ∉ b.map Prod.fst

variable {tr tl : Bool}

theorem good_comp {f g : Stage K} {b1 b2 : List (String × Nat)} {s t u : List Nat} (hf : Good tr tl f b1 s t) (hg : Good tr tl g b2 t u) (hd : Apart b1 b2) : Good tr tl (comp f g) (b1 ++ b2) s u := by
  intro N st x hx hr
  obtain ⟨y, st1, h1, h2, h3, h4, h5, h6⟩ := hf N st x hx fun b hb => hr b (List.mem_append_left _ hb)
  have key : ∀ b ∈ b2, st1 b.1 = st b.1 := fun b hb => h3 _ fun h => hd _ h (List.mem_map_of_mem hb)
  obtain ⟨z, st2, k1, k2, k3, k4, k5, k6⟩ := hg N st1 y h2 fun b hb => by rw [key b hb]; exact hr b (List.mem_append_right _ hb)
  refine ⟨z, st2, (bind_eq h1).trans k1, k2, fun n hn => ?_, fun ht b hb => ?_, fun ht => (k5 ht).trans (h5 ht), fun N' x' ρ hx' hρ hp => ?_⟩
  · rw [List.map_append] at hn
    rw [k3 n fun h => hn (List.mem_append_right _ h), h3 n fun h => hn (List.mem_append_left _ h)]
  · rcases List.mem_append.mp hb with hb | hb
    · rw [k3 _ (hd _ (List.mem_map_of_mem hb))]
      exact h4 ht b hb
    · exact k4 ht b hb
  · obtain ⟨y', a1, a2, a3⟩ := h6 N' x' ρ hx' hρ hp
    obtain ⟨z', c1, c2, c3⟩ := k6 N' y' ρ a2 hρ a3
    exact ⟨z', (bind_eq a1).trans c1, c2, c3⟩

theorem good_id (s : List Nat) : Good tr tl (fun st (x : Arr K) => .ok (x, st)) [] s s := fun N st x hx _ =>
  ⟨x, st, rfl, hx, fun _ _ => rfl, fun _ b hb => absurd hb List.not_mem_nil, fun _ => rfl, fun N' x' ρ hx' _ hp => ⟨x', rfl, hx', hp⟩⟩

/-- A layer without state, from what it does on one batch. -/
theorem good_lift {F : Arr K → Except Err (Arr K)} {s t : List Nat}
    (h : ∀ N x, x.shape = N :: s → ∃ y, F x = .ok y ∧ y.shape = N :: t ∧ ∀ N' x' (ρ : Nat → Nat), x'.shape = N' :: s → (∀ e < N', ρ e < N) → Pulls ρ N' s x x' → ∃ y', F x' = .ok y' ∧ y'.shape = N' :: t ∧ Pulls ρ N' t y y') :
    Good tr tl (lift F) [] s t := fun N st x hx _ => by
  obtain ⟨y, h1, h2, h3⟩ := h N x hx
  refine ⟨y, st, bind_eq h1, h2, fun _ _ => rfl, fun _ b hb => absurd hb List.not_mem_nil, fun _ => rfl, fun N' x' ρ hx' hρ hp => ?_⟩
  obtain ⟨y', a1, a2, a3⟩ := h3 N' x' ρ hx' hρ.lt hp
  exact ⟨y', bind_eq a1, a2, a3⟩

theorem zip_equal {f : K → K → K} {x y : Arr K} (h : y.shape = x.shape) : ∃ z, Verif.Nd.zip f x y = .ok z ∧ z.shape = x.shape ∧ ∀ i, Valid x.shape i → z.val i = f (x.val i) (y.val i) := by
  obtain ⟨z, h1, h2, h3⟩ := zip_at (f := f) (x := x) (y := y) (by rw [h]; exact broadcasts_refl _)
  refine ⟨z, h1, h2, fun i hi => ?_⟩
  rw [h3 i hi, spread_self (by rw [h]; exact hi)]

theorem good_residual [Add K] {f g : Stage K} {b1 b2 : List (String × Nat)} {s t : List Nat} (hf : Good tr tl f b1 s t) (hg : Good tr tl g b2 s t) (hd : Apart b1 b2) : Good tr tl (residual f g) (b1 ++ b2) s t := by
  intro N st x hx hr
  obtain ⟨y, st1, h1, h2, h3, h4, h5, h6⟩ := hf N st x hx fun b hb => hr b (List.mem_append_left _ hb)
  have key : ∀ b ∈ b2, st1 b.1 = st b.1 := fun b hb => h3 _ fun h => hd _ h (List.mem_map_of_mem hb)
  obtain ⟨z, st2, k1, k2, k3, k4, k5, k6⟩ := hg N st1 x hx fun b hb => by rw [key b hb]; exact hr b (List.mem_append_right _ hb)
  obtain ⟨w, w1, w2, w3⟩ := zip_equal (f := (· + ·)) (x := z) (y := y) (h2.trans k2.symm)
  refine ⟨w, st2, (bind_eq h1).trans ((bind_eq k1).trans (bind_eq w1)), w2.trans k2, fun n hn => ?_, fun ht b hb => ?_, fun ht => (k5 ht).trans (h5 ht), fun N' x' ρ hx' hρ hp => ?_⟩
  · rw [List.map_append] at hn
    rw [k3 n fun h => hn (List.mem_append_right _ h), h3 n fun h => hn (List.mem_append_left _ h)]
  · rcases List.mem_append.mp hb with hb | hb
    · rw [k3 _ (hd _ (List.mem_map_of_mem hb))]
      exact h4 ht b hb
    · exact k4 ht b hb
  · obtain ⟨y', a1, a2, a3⟩ := h6 N' x' ρ hx' hρ hp
    obtain ⟨z', c1, c2, c3⟩ := k6 N' x' ρ hx' hρ hp
    obtain ⟨w', d1, d2, d3⟩ := zip_equal (f := (· + ·)) (x := z') (y := y') (a2.trans c2.symm)
    refine ⟨w', (bind_eq a1).trans ((bind_eq c1).trans (bind_eq d1)), d2.trans c2, fun e he i hi => ?_⟩
    rw [d3 _ (by rw [c2]; exact .cons he hi), w3 _ (by rw [k2]; exact .cons (hρ.lt e he) hi), a3 e he i hi, c3 e he i hi]

/-! ### `relu` -/

theorem good_relu [Field K] [LinearOrder K] (s : List Nat) : Good tr tl (lift fun x : Arr K => .ok (relu x)) [] s s :=
  good_lift fun N x hx => ⟨relu x, rfl, hx, fun N' x' ρ hx' _ hp => ⟨relu x', rfl, hx', fun e he i hi => congrArg (fun v => max v 0) (hp e he i hi)⟩⟩

/-! ### Convolutions -/

open Verif.ConvArr Verif.Utils Verif.Conv in
/-- Two images with the same elements inside are convolved alike. -/
theorem call_same [AddCommMonoid K] [Mul K] {c : ConvND} (hg : c.featureGroupCount = 1) {W : List Nat → Nat → Nat → K} {b : Nat → K} {x x' y : Image K} (h : c.call W b x = .ok y) (hs : x'.sizes = x.sizes)
    (hc : x'.channels = x.channels) (hv : ∀ p ch, ch < x.channels → x'.get p ch = x.get p ch) {y' : Image K} (h' : c.call W b x' = .ok y') (t : List Int) (ch : Nat) (hch : ch < c.outputChannels) : y'.val t ch = y.val t ch := by
  obtain ⟨ps, _, e, k⟩ := Verif.Props.ConvArr.call_of (W' := W) (b' := b) h hs hc
  have e' : y' = c.output W b x' ps := Except.ok.inj (h'.symm.trans k)
  subst e e'
  rw [Verif.Props.ConvArr.output_val, Verif.Props.ConvArr.output_val, hg, hc, Nat.div_one, Nat.div_one]
  unfold taps
  refine congrArg (· + b ch) (congrArg List.sum (List.map_congr_left fun j hj => congrArg List.sum (List.map_congr_left fun ci hci => ?_)))
  rw [hv _ _ (by rw [Nat.div_eq_of_lt hch, Nat.zero_mul, Nat.zero_add]; exact List.mem_range.mp hci)]

open Verif.ConvArr Verif.Utils Verif.Conv Verif.Props.ConvArr in
/-- A convolution of pictures, given what it does to the sizes. -/
theorem good_conv [AddCommMonoid K] [Mul K] {name : String} {oc : Nat} {kernel stride rate : Arg Int} {padding : PadArg} {withBias : Bool} {fmt : List Char} {m : Module K} {get : ParamFn K}
    (h : Module.make name 2 oc kernel stride rate padding withBias fmt none 1 = .ok m) (hf : getChannelIndex fmt = .ok (-1)) {w b : Arr K} {H W C : Nat} {out : List Nat} (hp : Params get m false C w b)
    (hs : ∀ x : Image K, x.sizes = [(H : Int), (W : Int)] → x.channels = C → ∃ i, single m false w b x = .ok i ∧ i.sizes = out.map Int.ofNat) :
    Good tr tl (lift (m.call get)) [] [H, W, C] (out ++ [oc]) := by
  have hF : getChannelIndex fmt = .ok (if false then 1 else -1) := hf
  obtain ⟨conv, hc, hm⟩ := made (first := false) h hF
  have hgo : m.conv.featureGroupCount = 1 ∧ m.conv.outputChannels = oc ∧ m.conv.numSpatialDims = 2 := by
    obtain ⟨_, a1, a2, a3, _⟩ := Verif.Props.Conv.make_ok hc
    rw [hm]
    exact ⟨a2, a3, a1⟩
  have run : ∀ (N : Nat) (x : Arr K), x.shape = [N, H, W, C] → ∃ y, m.call get x = .ok y ∧ y.shape = N :: (out ++ [oc]) ∧ ∀ e < N, ∃ i, single m false w b (image false [H, W] C x e) = .ok i ∧
      ∀ t c, Valid out t → c < oc → y.val (e :: (t ++ [c])) = i.val (t.map Int.ofNat) c := by
    intro N x hx
    obtain ⟨i0, hi0, hsz⟩ := hs (image false [H, W] C x 0) rfl rfl
    obtain ⟨y, out', y1, y2, y3, y4⟩ := batched_examples (first := false) (B := N) (sp := [H, W]) (C := C) h hF hx (Nat.mod_one _) hp hi0
    have : out' = out := List.map_injective_iff.mpr (fun a b h => Int.ofNat.inj h) (y3.symm.trans hsz)
    subst this
    refine ⟨y, ?_, y2, fun e he => ?_⟩
    · rw [call_batch_eq (n := 2) hgo.2.2 (by rw [hx]; rfl)]
      exact y1
    · obtain ⟨i, i1, i2, i3, i4⟩ := y4 e he
      exact ⟨i, i1, i4⟩
  refine good_lift fun N x hx => ?_
  obtain ⟨y, y1, y2, y3⟩ := run N x hx
  refine ⟨y, y1, y2, fun N' x' ρ hx' hρ hpull => ?_⟩
  obtain ⟨y', a1, a2, a3⟩ := run N' x' hx'
  refine ⟨y', a1, a2, fun e he i hi => ?_⟩
  obtain ⟨t, c, rfl, ht, hcc⟩ := valid_layout (first := false) (show Valid (layout false out oc) i from hi)
  obtain ⟨i1, b1, b2⟩ := y3 (ρ e) (hρ e he)
  obtain ⟨i2, c1, c2⟩ := a3 e he
  refine (c2 t c ht hcc).trans (Eq.trans ?_ (b2 t c ht hcc).symm)
  refine call_same (x := image false [H, W] C x (ρ e)) (x' := image false [H, W] C x' e) hgo.1 b1 rfl rfl (fun p ch hch => ?_) c1 _ _ (by rw [hgo.2.1]; exact hcc)
  unfold Image.get
  show (if inside [(H : Int), (W : Int)] p = true then x'.val (e :: layout false (p.map Int.toNat) ch) else 0) = if inside [(H : Int), (W : Int)] p = true then x.val (ρ e :: layout false (p.map Int.toNat) ch) else 0
  by_cases hin : inside [(H : Int), (W : Int)] p = true
  · rw [if_pos hin, if_pos hin]
    refine hpull e he _ ?_
    match p, hin with
    | [a, b], hin =>
      simp only [inside, Bool.and_eq_true, decide_eq_true_eq, Bool.and_true] at hin
      show Valid [H, W, C] [a.toNat, b.toNat, ch]
      exact .cons (by omega) (.cons (by omega) (.cons hch .nil))
    | [], hin => cases hin
    | [_], hin => simp [inside] at hin
    | _ :: _ :: _ :: _, hin => simp [inside] at hin
  · rw [if_neg hin, if_neg hin]

/-! ### `"SAME"` sizes -/

/-- `n / s`, rounded up. -/
def up (n s : Nat) : Nat := (n + s - 1) / s

theorem same_size {n k s : Nat} (hk : 1 ≤ k) (hs : 1 ≤ s) : outSize n k s (stringPad true n k s).1 (stringPad true n k s).2 = (up n s : Int) := by
  have hs' : (1 : Int) ≤ (s : Int) := by omega
  have hsum := Verif.Props.Pool.stringPad_sum n (k := k) hs'
  unfold outSize up
  rw [show (n : Int) + (stringPad true n k s).1 + (stringPad true n k s).2 - k = n + ((stringPad true n k s).1 + (stringPad true n k s).2) - k by omega, hsum, Int.fdiv_eq_ediv_of_nonneg _ (by omega)]
  have hc : (((n + s - 1) / s : Nat) : Int) = ((n : Int) + s - 1) / s := by
    rw [Int.natCast_ediv]
    congr 1
    omega
  rw [hc]
  have h0 : 0 ≤ ((n : Int) + s - 1) / s := Int.ediv_nonneg (by omega) (by omega)
  have h1 := Int.emod_add_mul_ediv ((n : Int) + s - 1) s
  have h2 := Int.emod_nonneg ((n : Int) + s - 1) (show (s : Int) ≠ 0 by omega)
  have h3 := Int.emod_lt_of_pos ((n : Int) + s - 1) (show 0 < (s : Int) by omega)
  generalize ((n : Int) + s - 1) / s = c at *
  have h4 : (c - 1) * s = s * c - s := by rw [Int.sub_mul, Int.one_mul, Int.mul_comm]
  by_cases hp : 0 ≤ (c - 1) * s + k - n
  · rw [max_eq_right hp, show (n : Int) + ((c - 1) * s + k - n) - k = (c - 1) * s by omega, Int.mul_ediv_cancel _ (by omega)]
    omega
  · rw [show max 0 ((c - 1) * (s : Int) + k - n) = 0 from max_eq_left (by omega)]
    have : ((n : Int) + 0 - k) / s = c - 1 := by
      refine (Int.ediv_eq_iff_of_pos (by omega)).mpr ⟨?_, ?_⟩
      · omega
      · rw [h4]; omega
    rw [this]
    omega

/-! ### The convolutions of residual networks -/

open Verif.ConvArr Verif.Conv in
/-- The module that `conv2d` makes. -/
def convModule (name : String) (oc k s : Nat) : Module K :=
  ⟨name, ⟨2, oc, [(k : Int), (k : Int)], [(s : Int), (s : Int)], [1, 1], 1, .str "SAME".toList⟩, -1, toDimensionNumbers 2 true false, false, none⟩

theorem conv2d_eq (name : String) (oc k s : Nat) : conv2d (K := K) name oc k (.scalar (s : Int)) = .ok (convModule name oc k s) := rfl

open Verif.ConvArr Verif.Utils Verif.Conv Verif.Props.ConvArr in
theorem conv_sizes [AddCommMonoid K] [Mul K] (name : String) (oc : Nat) {k s H W C : Nat} (hk : 1 ≤ k) (hs : 1 ≤ s) (w b : Arr K) (x : Image K) (hx : x.sizes = [(H : Int), (W : Int)]) :
    ∃ i, single (convModule name oc k s) false w b x = .ok i ∧ i.sizes = [up H s, up W s].map Int.ofNat := by
  have hsz : Verif.Props.Conv.Sizes (convModule (K := K) name oc k s).conv x := by
    refine ⟨by rw [hx]; rfl, ?_, ?_, ?_, ?_, Nat.one_ne_zero, Nat.mod_one _⟩
    · rw [hx]
      intro n hn
      rcases List.mem_cons.mp hn with rfl | hn
      · omega
      · rw [List.mem_singleton.mp hn]; omega
    · intro n hn
      rcases List.mem_cons.mp hn with rfl | hn
      · omega
      · rw [List.mem_singleton.mp hn]; omega
    · intro n hn
      rcases List.mem_cons.mp hn with rfl | hn
      · omega
      · rw [List.mem_singleton.mp hn]
    · intro n hn
      rcases List.mem_cons.mp hn with rfl | hn
      · omega
      · rw [List.mem_singleton.mp hn]; omega
  unfold single
  rw [hsz.call, hx]
  have hd : dilate (k : Int) 1 = k := by
    unfold dilate
    by_cases h : (k : Int) = 0
    · rw [if_pos h, h]
    · rw [if_neg h]; omega
  refine ⟨_, rfl, ?_⟩
  show outSizes x.sizes [dilate k 1, dilate k 1] [(s : Int), (s : Int)] [stringPad true H (dilate k 1) s, stringPad true W (dilate k 1) s] = _
  rw [hx, hd]
  show [outSize H k s _ _, outSize W k s _ _] = _
  rw [same_size hk hs, same_size hk hs]
  rfl

/-- The parameter exists with this shape. -/
def There (get : ParamFn K) (p : String × String × List Nat) : Prop := ∃ a, Has get p.1 p.2.1 p.2.2 a

theorem good_conv2d [AddCommMonoid K] [Mul K] {get : ParamFn K} {name : String} {oc k s H W C : Nat} (hk : 1 ≤ k) (hs : 1 ≤ s) (hp : There get (name, "w", [k, k, C, oc])) :
    Good tr tl (lift ((convModule name oc k s).call get)) [] [H, W, C] [up H s, up W s, oc] := by
  obtain ⟨w, h1, h2⟩ := hp
  refine good_conv (w := w) (b := w) (conv2d_eq name oc k s) rfl ⟨?_, ?_, (fun h => by cases h), (fun q h => by cases h)⟩ fun x hx _ => conv_sizes (C := C) name oc hk hs w w x hx
  · show get name "w" [(k : Int).toNat, (k : Int).toNat, C / 1, oc] = _
    rw [Nat.div_one]
    exact h1
  · show w.shape = [(k : Int).toNat, (k : Int).toNat, C / 1, oc]
    rw [Nat.div_one]
    exact h2

/-! ### Batch normalisation -/

section Bn
variable [Field K]

/-- The variance that the model computes. -/
def varArr (x : Arr K) : Arr K := ⟨keepShape [0, 1, 2] x.shape, fun i => (meanArr (map (fun v => v * v) x) [0, 1, 2]).val (project (keepShape [0, 1, 2] x.shape) i) -
  (map (fun v => v * v) (meanArr x [0, 1, 2])).val (project (keepShape [0, 1, 2] x.shape) i)⟩

theorem stats4 {m : BatchNorm K} (ha : m.axis = none) (hc : m.crossReplica = false) (hi : m.channelIndex = -1) {x : Arr K} {N H W C : Nat} (hx : x.shape = [N, H, W, C]) :
    m.stats x [] = .ok (meanArr x [0, 1, 2], varArr x) := by
  have hax : m.axes 4 = [0, 1, 2] := by
    unfold BatchNorm.axes
    rw [ha, hi]
    rfl
  have e0 : ∀ f : K → K, mean (map f x) (m.axes x.shape.length) = .ok (meanArr (map f x) [0, 1, 2]) := fun f => mean_eq (x := map f x) (by
    show canonAxes x.shape.length _ = _
    rw [hx]
    show canonAxes 4 (m.axes 4) = _
    rw [hax]
    rfl)
  have hz := zip_right (f := (· - ·)) (x := meanArr (map (fun v => v * v) x) [0, 1, 2]) (y := map (fun v => v * v) (meanArr x [0, 1, 2])) (broadcasts_refl (keepShape [0, 1, 2] x.shape))
  unfold BatchNorm.stats
  refine (bind_eq (e0 fun v => v)).trans ((bind_eq (e0 fun v => v * v)).trans ?_)
  rw [hc, if_neg Bool.false_ne_true]
  exact bind_eq hz

theorem meanArr_perm {x x' : Arr K} {N H W C : Nat} (hx : x.shape = [N, H, W, C]) (hx' : x'.shape = [N, H, W, C]) {ρ : Nat → Nat} (hlt : ∀ e < N, ρ e < N)
    (hinj : ∀ e < N, ∀ e' < N, ρ e = ρ e' → e = e') (hp : Pulls ρ N [H, W, C] x x') : meanArr x' [0, 1, 2] = meanArr x [0, 1, 2] := by
  unfold meanArr
  rw [hx, hx']
  refine congrArg (Arr.mk _) (funext fun i => ?_)
  unfold avg
  congr 1
  have form : ∀ j ∈ slice [0, 1, 2] [N, H, W, C] i, ∃ e t, j = e :: t ∧ e < N ∧ Valid [H, W, C] t := by
    intro j hj
    obtain ⟨hv, _⟩ := mem_slice.mp hj
    cases hv with
    | cons h1 h2 => exact ⟨_, _, rfl, h1, h2⟩
  have maps : ∀ j ∈ slice [0, 1, 2] [N, H, W, C] i, (ρ (j.headD 0) :: j.tail) ∈ slice [0, 1, 2] [N, H, W, C] i := by
    intro j hj
    obtain ⟨e, t, rfl, he, ht⟩ := form j hj
    obtain ⟨_, h⟩ := mem_slice.mp hj
    refine mem_slice.mpr ⟨.cons (hlt e he) ht, fun k hk hm => ?_⟩
    rw [← h k hk hm]
    cases k with
    | zero => exact absurd (List.mem_cons_self ..) hm
    | succ k => rfl
  have inj : Set.InjOn (fun j : List Nat => ρ (j.headD 0) :: j.tail) (slice [0, 1, 2] [N, H, W, C] i) := by
    intro a ha b hb hab
    obtain ⟨e, t, rfl, he, ht⟩ := form a ha
    obtain ⟨e', t', rfl, he', ht'⟩ := form b hb
    obtain ⟨h1, h2⟩ := List.cons.inj hab
    have h1 := hinj e he e' he' h1
    have h2 : t = t' := h2
    rw [h1, h2]
  refine Finset.sum_nbij (fun j : List Nat => ρ (j.headD 0) :: j.tail) maps inj (Finset.surjOn_of_injOn_of_card_le _ maps inj (Nat.le_refl _)) fun j hj => ?_
  obtain ⟨e, t, rfl, he, ht⟩ := form j hj
  exact hp e he t ht

/-- An array of one number for each channel, or a single number. -/
def PerChannel (C : Nat) (p : Arr K) : Prop := p.shape = [1, 1, 1, C] ∨ p.shape = []

theorem PerChannel.broadcasts {C : Nat} {p : Arr K} (h : PerChannel C p) (N H W : Nat) : BroadcastsTo p.shape [N, H, W, C] := by
  rcases h with h | h <;> rw [h]
  · exact ⟨[], _, rfl, .cons (.inl rfl) (.cons (.inl rfl) (.cons (.inl rfl) (.cons (.inr rfl) .nil)))⟩
  · exact broadcasts_nil _

theorem PerChannel.spread {C : Nat} {p : Arr K} (h : PerChannel C p) (e e' : Nat) {H W : Nat} {i : List Nat} (hi : Valid [H, W, C] i) : spread p (e :: i) = spread p (e' :: i) := by
  have hl : i.length = 3 := hi.length
  unfold Verif.Props.Norm.spread
  rcases h with h | h <;> rw [h] <;> simp [hl]

theorem ema_ok {m : Verif.Ema.EMA K} {e : EmaState K} {v : Arr K} {c : Nat} (hv : v.shape = [1, 1, 1, c]) (hh : HidOk c e) : ∃ e', emaCall m e v = .ok e' ∧ HidOk c e' ∧ AvgOk c e' := by
  unfold emaCall
  dsimp only
  have hs : (e.hidden.getD ⟨v.shape, fun _ => 0⟩).shape = [1, 1, 1, c] := by
    cases hx : e.hidden with
    | none => exact hv
    | some q => exact hh q hx
  rw [bind_eq (zip_right (f := (· + ·)) (by show BroadcastsTo v.shape (e.hidden.getD ⟨v.shape, fun _ => 0⟩).shape; rw [hs, hv]; exact broadcasts_refl _))]
  refine ⟨_, rfl, fun q hq => ?_, ?_⟩
  · rw [← Option.some.inj hq]
    exact hs
  · refine ⟨_, rfl, ?_⟩
    split
    · exact hs
    · exact hs

/-- The scale and offset of a batch normalisation are there, if it has them. -/
def BnParams (get : ParamFn K) (m : BatchNorm K) (C : Nat) : Prop :=
  (m.createScale = true → There get (m.name, "scale", [1, 1, 1, C])) ∧ (m.createOffset = true → There get (m.name, "offset", [1, 1, 1, C]))

/-- It has the settings of the networks: channels last, all other axes, one device. -/
structure Plain (m : BatchNorm K) : Prop where
  axis : m.axis = none
  cross : m.crossReplica = false
  channel : m.channelIndex = -1

theorem affine_there {get : ParamFn K} {create : Bool} {name what : String} {C : Nat} {d : K} (h : create = true → There get (name, what, [1, 1, 1, C])) :
    ∃ g : Arr K, affine get create name what [1, 1, 1, C] none d = .ok g ∧ PerChannel C g := by
  cases create with
  | false => exact ⟨scalar d, rfl, .inr rfl⟩
  | true =>
    obtain ⟨a, h1, h2⟩ := h rfl
    exact ⟨a, (affine_of (.inl ⟨rfl, rfl, h1, h2⟩)).1, .inl h2⟩

/-- A call of a batch normalisation, from the statistics that it uses. -/
theorem bn_call {get : ParamFn K} {rsqrt : K → K} {m : BatchNorm K} (hm : Plain m) {s s' : BnState K} {x mu v g b : Arr K} {N H W C : Nat} (hx : x.shape = [N, H, W, C])
    (hst : m.chosenStats s x [] tr tl = .ok (mu, v)) (hup : m.updated s mu v tr = .ok s') (hmu : PerChannel C mu) (hv : PerChannel C v)
    (hg : affine get m.createScale m.name "scale" [1, 1, 1, C] none 1 = .ok g) (hb : affine get m.createOffset m.name "offset" [1, 1, 1, C] none 0 = .ok b) (hgs : PerChannel C g) (hbs : PerChannel C b) :
    ∃ y, m.call get rsqrt s x [] tr tl none none = .ok (y, s') ∧ y.shape = [N, H, W, C] ∧
      ∀ i, Valid [N, H, W, C] i → y.val i = (x.val i - spread mu i) * (spread g i * rsqrt (spread v i + m.eps)) + spread b i := by
  have hw : (x.shape.mapIdx fun i n => if Int.ofNat i ∈ m.axes x.shape.length then 1 else n) = [1, 1, 1, C] := by
    rw [hx]
    unfold BatchNorm.axes
    rw [hm.axis, hm.channel]
    rfl
  obtain ⟨y, h1, h2, h3⟩ := Verif.Props.BatchNorm.tail_eq (rsqrt := rsqrt) (eps := m.eps) (x := x) (mu := mu) (v := v) (g := g) (b := b) (by rw [hx]; exact hmu.broadcasts ..) (by rw [hx]; exact hv.broadcasts ..)
    (by rw [hx]; exact hgs.broadcasts ..) (by rw [hx]; exact hbs.broadcasts ..) (fun out => Except.ok (out, s'))
  refine ⟨y, ?_, h2.trans hx, fun i hi => h3 i (by rw [hx]; exact hi)⟩
  unfold BatchNorm.call
  rw [if_neg (fun h => by cases h.2), if_neg (fun h => by cases h.2)]
  refine (bind_eq hst).trans ((bind_eq hup).trans ?_)
  dsimp only
  rw [hw]
  exact (bind_eq hg).trans ((bind_eq hb).trans h1)

/-- What a batch normalisation computes, with the statistics that it uses: those of the batch, or the stored averages. -/
theorem bn_stats {get : ParamFn K} {rsqrt : K → K} {m : BatchNorm K} (hm : Plain m) {N H W C : Nat} (hp : BnParams get m C) {st : States K} {x : Arr K} (hx : x.shape = [N, H, W, C]) (hr : Ready tr tl C (st m.name)) :
    ∃ mu v g b y st', affine get m.createScale m.name "scale" [1, 1, 1, C] none 1 = .ok g ∧ affine get m.createOffset m.name "offset" [1, 1, 1, C] none 0 = .ok b ∧
      runBn get rsqrt tr tl m st x = .ok (y, st') ∧ y.shape = [N, H, W, C] ∧ (∀ i, Valid [N, H, W, C] i → y.val i = (x.val i - spread mu i) * (spread g i * rsqrt (spread v i + m.eps)) + spread b i) ∧
      ((tr || tl) = true → mu = meanArr x [0, 1, 2] ∧ v = varArr x) ∧ ((tr || tl) = false → (st m.name).mean.average = some mu ∧ (st m.name).var.average = some v ∧ mu.shape = [1, 1, 1, C] ∧ v.shape = [1, 1, 1, C]) := by
  obtain ⟨g, hg, hgs⟩ := affine_there (d := 1) hp.1
  obtain ⟨b, hb, hbs⟩ := affine_there (d := 0) hp.2
  have key : ∃ mu v, m.chosenStats (st m.name) x [] tr tl = .ok (mu, v) ∧ PerChannel C mu ∧ PerChannel C v ∧ (tr = true → mu.shape = [1, 1, 1, C] ∧ v.shape = [1, 1, 1, C]) ∧
      ((tr || tl) = true → mu = meanArr x [0, 1, 2] ∧ v = varArr x) ∧ ((tr || tl) = false → (st m.name).mean.average = some mu ∧ (st m.name).var.average = some v ∧ mu.shape = [1, 1, 1, C] ∧ v.shape = [1, 1, 1, C]) := by
    unfold BatchNorm.chosenStats
    cases hmix : tr || tl with
    | true =>
      have h : keepShape [0, 1, 2] x.shape = [1, 1, 1, C] := by rw [hx]; rfl
      refine ⟨meanArr x [0, 1, 2], varArr x, ?_, .inl h, .inl h, fun _ => ⟨h, h⟩, fun _ => ⟨rfl, rfl⟩, (fun h => by cases h)⟩
      rw [if_pos rfl]; exact stats4 hm.axis hm.cross hm.channel hx
    | false =>
      obtain ⟨ht, hl⟩ := Bool.or_eq_false_iff.mp hmix
      obtain ⟨⟨a, ha, has⟩, ⟨c, hc, hcs⟩⟩ := hr.2 ht hl
      rw [if_neg Bool.false_ne_true, ha, hc]
      exact ⟨a, c, rfl, .inl has, .inl hcs, (fun h => by rw [ht] at h; cases h), (fun h => by cases h), fun _ => ⟨rfl, rfl, has, hcs⟩⟩
  obtain ⟨mu, v, hst, hmu, hv, hts, q1, q2⟩ := key
  have upd : ∃ s', m.updated (st m.name) mu v tr = .ok s' := by
    unfold BatchNorm.updated
    cases htr : tr with
    | false => exact ⟨_, rfl⟩
    | true =>
      obtain ⟨h1, h2⟩ := hts htr
      obtain ⟨k1, k2⟩ := hr.1 htr
      obtain ⟨a, a1, a2, a3⟩ := ema_ok (m := m.ema) h1 k1
      obtain ⟨c, c1, c2, c3⟩ := ema_ok (m := m.ema) h2 k2
      rw [if_pos rfl]
      exact ⟨⟨a, c⟩, (bind_eq a1).trans (bind_eq c1)⟩
  obtain ⟨s', hup⟩ := upd
  obtain ⟨y, y1, y2, y3⟩ := bn_call (rsqrt := rsqrt) hm hx hst hup hmu hv hg hb hgs hbs
  exact ⟨mu, v, g, b, y, _, hg, hb, bind_eq y1, y2, y3, q1, q2⟩

/-- What a batch normalisation computes. -/
theorem bn_value {get : ParamFn K} {rsqrt : K → K} {m : BatchNorm K} (hm : Plain m) {N H W C : Nat} (hp : BnParams get m C) {st : States K} {x : Arr K} (hx : x.shape = [N, H, W, C]) (hr : Ready tr tl C (st m.name)) :
    ∃ mu v g b y st', affine get m.createScale m.name "scale" [1, 1, 1, C] none 1 = .ok g ∧ affine get m.createOffset m.name "offset" [1, 1, 1, C] none 0 = .ok b ∧
      runBn get rsqrt tr tl m st x = .ok (y, st') ∧ y.shape = [N, H, W, C] ∧ ∀ i, Valid [N, H, W, C] i → y.val i = (x.val i - spread mu i) * (spread g i * rsqrt (spread v i + m.eps)) + spread b i := by
  obtain ⟨mu, v, g, b, y, st', h1, h2, h3, h4, h5, -⟩ := bn_stats (rsqrt := rsqrt) hm hp hx hr
  exact ⟨mu, v, g, b, y, st', h1, h2, h3, h4, h5⟩

theorem good_bn {get : ParamFn K} {rsqrt : K → K} {m : BatchNorm K} (hm : Plain m) {H W C : Nat} (hp : BnParams get m C) : Good tr tl (runBn get rsqrt tr tl m) [(m.name, C)] [H, W, C] [H, W, C] := by
  intro N st x hx hr
  obtain ⟨g, hg, hgs⟩ := affine_there (d := 1) hp.1
  obtain ⟨b, hb, hbs⟩ := affine_there (d := 0) hp.2
  have hr : Ready tr tl C (st m.name) := hr _ (List.mem_singleton_self _)
  -- the statistics, and that a choice of examples has the same
  have key : ∃ mu v, m.chosenStats (st m.name) x [] tr tl = .ok (mu, v) ∧ PerChannel C mu ∧ PerChannel C v ∧ (tr = true → mu.shape = [1, 1, 1, C] ∧ v.shape = [1, 1, 1, C]) ∧
      ∀ N' x' ρ, x'.shape = N' :: [H, W, C] → Select (tr || tl) N N' ρ → Pulls ρ N' [H, W, C] x x' → m.chosenStats (st m.name) x' [] tr tl = .ok (mu, v) := by
    unfold BatchNorm.chosenStats
    cases hmix : tr || tl with
    | true =>
      refine ⟨meanArr x [0, 1, 2], varArr x, ?_, .inl ?_, .inl ?_, fun _ => ⟨?_, ?_⟩, fun N' x' ρ hx' hρ hpull => ?_⟩
      · rw [if_pos rfl]; exact stats4 hm.axis hm.cross hm.channel hx
      · show keepShape [0, 1, 2] x.shape = _; rw [hx]; rfl
      · show keepShape [0, 1, 2] x.shape = _; rw [hx]; rfl
      · show keepShape [0, 1, 2] x.shape = _; rw [hx]; rfl
      · show keepShape [0, 1, 2] x.shape = _; rw [hx]; rfl
      · obtain ⟨rfl, hinj⟩ := hρ.perm rfl
        rw [if_pos rfl, stats4 hm.axis hm.cross hm.channel hx']
        have e1 := meanArr_perm hx hx' hρ.lt hinj hpull
        have e2 := meanArr_perm (x := map (fun v => v * v) x) (x' := map (fun v => v * v) x') hx hx' hρ.lt hinj fun e he i hi => congrArg (fun v => v * v) (hpull e he i hi)
        unfold varArr
        rw [e1, e2, hx, hx']
    | false =>
      obtain ⟨ht, hl⟩ := Bool.or_eq_false_iff.mp hmix
      obtain ⟨⟨a, ha, has⟩, ⟨c, hc, hcs⟩⟩ := hr.2 ht hl
      rw [if_neg Bool.false_ne_true, ha, hc]
      refine ⟨a, c, rfl, .inl has, .inl hcs, (fun h => by rw [ht] at h; cases h), fun N' x' ρ _ _ _ => ?_⟩
      rw [if_neg Bool.false_ne_true]
      rfl
  obtain ⟨mu, v, hst, hmu, hv, hts, hsame⟩ := key
  have upd : ∃ s', m.updated (st m.name) mu v tr = .ok s' ∧ (tr = true → Full C s') ∧ (tr = false → s' = st m.name) := by
    unfold BatchNorm.updated
    cases htr : tr with
    | false => exact ⟨_, rfl, (fun h => by cases h), fun _ => rfl⟩
    | true =>
      obtain ⟨h1, h2⟩ := hts htr
      obtain ⟨k1, k2⟩ := hr.1 htr
      obtain ⟨a, a1, a2, a3⟩ := ema_ok (m := m.ema) h1 k1
      obtain ⟨c, c1, c2, c3⟩ := ema_ok (m := m.ema) h2 k2
      rw [if_pos rfl]
      exact ⟨⟨a, c⟩, (bind_eq a1).trans (bind_eq c1), fun _ => ⟨⟨a2, c2⟩, a3, c3⟩, (fun h => by cases h)⟩
  obtain ⟨s', hup, hfull, hstay⟩ := upd
  obtain ⟨y, y1, y2, y3⟩ := bn_call (rsqrt := rsqrt) hm hx hst hup hmu hv hg hb hgs hbs
  refine ⟨y, fun n => if n = m.name then s' else st n, bind_eq y1, y2, fun n hn => if_neg fun h => hn (List.mem_singleton.mpr h), fun ht c hc => ?_, fun ht => ?_, fun N' x' ρ hx' hρ hpull => ?_⟩
  · rw [List.mem_singleton.mp hc]
    dsimp only
    rw [if_pos rfl]
    exact hfull ht
  · funext n
    by_cases h : n = m.name
    · rw [if_pos h, h]; exact hstay ht
    · rw [if_neg h]
  · obtain ⟨y', z1, z2, z3⟩ := bn_call (rsqrt := rsqrt) hm hx' (hsame N' x' ρ hx' hρ hpull) hup hmu hv hg hb hgs hbs
    refine ⟨y', bind_eq z1, z2, fun e he i hi => ?_⟩
    rw [z3 _ (.cons he hi), y3 _ (.cons (hρ.lt e he) hi), hpull e he i hi, hmu.spread e (ρ e) hi, hv.spread e (ρ e) hi, hgs.spread e (ρ e) hi, hbs.spread e (ρ e) hi]

end Bn

/-! ### Pooling, the mean of each channel, and the last layer -/

theorem good_maxPool [Field K] [LinearOrder K] {H W C : Nat} : Good tr tl (lift fun x : Arr K => maxPool x [1, 3, 3, 1] [1, 2, 2, 1]) [] [H, W, C] [up H 2, up W 2, C] := by
  have flat : ∀ n : Nat, outSize n 1 1 (stringPad true n 1 1).1 (stringPad true n 1 1).2 = (n : Int) := fun n => by
    have := same_size (n := n) (k := 1) (s := 1) (Nat.le_refl _) (Nat.le_refl _)
    unfold up at this
    rw [Nat.add_sub_cancel, Nat.div_one] at this
    exact this
  have pad0 : ∀ n : Nat, (stringPad true n 1 1).1 = 0 := fun n => by
    have h1 := Verif.Props.Pool.stringPad_before true n (k := 1) (s := 1) (Int.le_refl _)
    rw [h1]
    unfold Verif.Props.Pool.before
    rw [if_pos rfl, Int.ediv_one]
    rw [show max 0 (((n : Int) + 1 - 1 - 1) * 1 + 1 - n) = 0 by omega]
    rfl
  have two : ∀ n : Nat, outSize n 3 2 (stringPad true n 3 2).1 (stringPad true n 3 2).2 = (up n 2 : Int) := fun n => same_size (n := n) (k := 3) (s := 2) (by decide) (by decide)
  have run : ∀ (N : Nat) (x : Arr K), x.shape = [N, H, W, C] → maxPool x [1, 3, 3, 1] [1, 2, 2, 1] = .ok ⟨[N, up H 2, up W 2, C], fun t => ((indices [1, 3, 3, 1]).foldr (fun j acc =>
      max (((Verif.Pool.place [N, H, W, C] [1, 2, 2, 1] (Verif.Pool.pads true [N, H, W, C] [1, 3, 3, 1] [1, 2, 2, 1]) t j).map fun i => (x.val i : WithBot K)).getD ⊥) acc) ⊥).unbotD 0⟩ := by
    intro N x hx
    unfold maxPool Verif.Pool.maxPool
    rw [hx]
    show Except.ok (Arr.mk [(outSize N 1 1 _ _).toNat, (outSize H 3 2 _ _).toNat, (outSize W 3 2 _ _).toNat, (outSize C 1 1 _ _).toNat] _) = _
    rw [flat, flat, two, two]
    rfl
  refine good_lift fun N x hx => ⟨_, run N x hx, rfl, fun N' x' ρ hx' hρ hpull => ⟨_, run N' x' hx', rfl, fun e he i hi => ?_⟩⟩
  dsimp only
  congr 1
  refine List.foldr_ext _ _ _ fun j hj acc => ?_
  congr 1
  obtain ⟨j0, js, rfl, hj0⟩ : ∃ j0 js, j = j0 :: js ∧ j0 = 0 := by
    have := mem_indices.mp hj
    cases this with
    | cons h1 h2 => exact ⟨_, _, rfl, Nat.lt_one_iff.mp h1⟩
  subst hj0
  show ((Verif.Pool.place (N' :: [H, W, C]) (1 :: [2, 2, 1]) (stringPad true N' 1 1 :: Verif.Pool.pads true [H, W, C] [3, 3, 1] [2, 2, 1]) (e :: i) (0 :: js)).map _).getD ⊥ =
    ((Verif.Pool.place (N :: [H, W, C]) (1 :: [2, 2, 1]) (stringPad true N 1 1 :: Verif.Pool.pads true [H, W, C] [3, 3, 1] [2, 2, 1]) (ρ e :: i) (0 :: js)).map _).getD ⊥
  rw [Verif.Props.Pool.place_cons, Verif.Props.Pool.place_cons, pad0, pad0]
  have hlt := hρ e he
  rw [if_pos (by omega), if_pos (by omega), show ((e : Int) * 1 - 0 + (0 : Nat)).toNat = e by omega, show ((ρ e : Int) * 1 - 0 + (0 : Nat)).toNat = ρ e by omega]
  cases hpl : Verif.Pool.place [H, W, C] [2, 2, 1] (Verif.Pool.pads true [H, W, C] [3, 3, 1] [2, 2, 1]) i js with
  | none => rfl
  | some q =>
    have hq := (Verif.Props.Pool.place_some true [H, W, C] [3, 3, 1] [2, 2, 1] i js q (by decide) (by
      have := mem_indices.mp hj
      cases this with
      | cons h1 h2 => exact mem_indices.mpr h2) hpl).1
    show ((x'.val (e :: q) : K) : WithBot K) = (x.val (ρ e :: q) : K)
    rw [hpull e he q (mem_indices.mp hq)]

theorem good_spatialMean [Field K] {H W C : Nat} : Good tr tl (lift fun x : Arr K => spatialMean x) [] [H, W, C] [C] := by
  have run : ∀ (N : Nat) (x : Arr K), x.shape = [N, H, W, C] → spatialMean x = .ok ⟨[N, C], fun i => avg (slice [1, 2] [N, H, W, C] (i.take 1 ++ [0, 0] ++ i.drop 1)) x.val⟩ := by
    intro N x hx
    unfold spatialMean
    rw [bind_eq (mean_eq (x := x) (axes := [1, 2]) (ax := [1, 2]) (by rw [hx]; rfl))]
    unfold meanArr
    rw [hx]
    rfl
  refine good_lift fun N x hx => ⟨_, run N x hx, rfl, fun N' x' ρ hx' hρ hpull => ⟨_, run N' x' hx', rfl, fun e he i hi => ?_⟩⟩
  show avg (slice [1, 2] [N', H, W, C] (e :: 0 :: 0 :: i)) x'.val = avg (slice [1, 2] [N, H, W, C] (ρ e :: 0 :: 0 :: i)) x.val
  have mem : ∀ (M a : Nat) (j : List Nat), a < M → (j ∈ slice [1, 2] [M, H, W, C] (a :: 0 :: 0 :: i) ↔ ∃ t, j = a :: t ∧ Valid [H, W, C] t ∧ t.getD 2 0 = i.getD 0 0) := by
    intro M a j ha
    rw [mem_slice]
    constructor
    · rintro ⟨hv, h⟩
      cases hv with
      | @cons b _ t _ h1 h2 =>
        have := h 0 (Nat.zero_lt_succ _) (by decide)
        have e0 : b = a := this
        subst e0
        exact ⟨t, rfl, h2, h 3 (by show (3 : Nat) < 4; decide) (by decide)⟩
    · rintro ⟨t, rfl, h2, h3⟩
      refine ⟨.cons ha h2, fun k hk hm => ?_⟩
      match k, hk, hm with
      | 0, _, _ => rfl
      | 1, _, hm => exact absurd (by decide) hm
      | 2, _, hm => exact absurd (by decide) hm
      | 3, _, _ => exact h3
      | k + 4, hk, _ => exact absurd hk (by show ¬ k + 4 < 4; omega)
  have bij : ∀ {M a : Nat} (ha : a < M) {M' a' : Nat} (ha' : a' < M') (j : List Nat), j ∈ slice [1, 2] [M, H, W, C] (a :: 0 :: 0 :: i) → (a' :: j.tail) ∈ slice [1, 2] [M', H, W, C] (a' :: 0 :: 0 :: i) := by
    intro M a ha M' a' ha' j hj
    obtain ⟨t, rfl, h1, h2⟩ := (mem M a j ha).mp hj
    exact (mem M' a' _ ha').mpr ⟨t, rfl, h1, h2⟩
  have undo : ∀ {M a : Nat} (ha : a < M) (a' : Nat) (j : List Nat), j ∈ slice [1, 2] [M, H, W, C] (a :: 0 :: 0 :: i) → a :: (a' :: j.tail).tail = j := by
    intro M a ha a' j hj
    obtain ⟨t, rfl, _, _⟩ := (mem M a j ha).mp hj
    rfl
  have hlt := hρ e he
  unfold avg
  congr 1
  · refine Finset.sum_nbij' (fun j => ρ e :: j.tail) (fun j => e :: j.tail) (bij he hlt) (bij hlt he) (undo he _) (undo hlt _) fun j hj => ?_
    obtain ⟨t, rfl, h1, _⟩ := (mem N' e j he).mp hj
    exact hpull e he t h1
  · exact congrArg _ (Finset.card_nbij' (fun j => ρ e :: j.tail) (fun j => e :: j.tail) (bij he hlt) (bij hlt he) (undo he _) (undo hlt _))

theorem linear_run' [Field K] [LinearOrder K] {get : ParamFn K} {l : Linear} {n m : Nat} (ho : l.outputSize = some m) (hw : There get (l.name, "w", [n, m])) (hb : l.withBias = true → There get (l.name, "b", [m])) :
    ∃ (w : Arr K) (b : Option (Arr K)), get l.name "w" [n, m] = .ok w ∧ (l.withBias = true → ∃ c, b = some c ∧ get l.name "b" [m] = .ok c) ∧ (l.withBias = false → b = none) ∧
      ∀ (N : Nat) (x : Arr K), x.shape = [N, n] → ∃ y, (l.call get x >>= fun p => Except.ok p.1) = .ok y ∧ Verif.Props.Mlp.Affine x y w b n m := by
  obtain ⟨w, hw1, hw2⟩ := hw
  have gw : getParameter get l.name "w" [n, m] = .ok w := by
    unfold getParameter
    rw [bind_eq hw1, if_pos hw2]
  cases hbb : l.withBias with
  | false =>
    refine ⟨w, none, hw1, (fun h => by cases h), (fun _ => rfl), fun N x hx => ⟨_, ?_, Verif.Props.Mlp.affine_dot x w n m⟩⟩
    unfold Linear.call
    rw [hx, ho]
    dsimp only [List.getLast?]
    show (getParameter get l.name "w" [n, m] >>= _) >>= _ = _
    rw [bind_eq gw, hbb]
    rfl
  | true =>
    obtain ⟨b, b1, b2⟩ := hb hbb
    have gb : getParameter get l.name "b" [m] = .ok b := by
      unfold getParameter
      rw [bind_eq b1, if_pos b2]
    refine ⟨w, some b, hw1, (fun _ => ⟨b, rfl, b1⟩), (fun h => by cases h), fun N x hx => ⟨_, ?_, Verif.Props.Mlp.affine_bias x w b n m⟩⟩
    unfold Linear.call
    rw [hx, ho]
    dsimp only [List.getLast?]
    show (getParameter get l.name "w" [n, m] >>= _) >>= _ = _
    rw [bind_eq gw, hbb, if_pos rfl, bind_eq gb]
    rfl

theorem linear_run [Field K] [LinearOrder K] {get : ParamFn K} {l : Linear} {n m : Nat} (ho : l.outputSize = some m) (hw : There get (l.name, "w", [n, m])) (hb : l.withBias = true → There get (l.name, "b", [m])) :
    ∃ (w : Arr K) (b : Option (Arr K)), get l.name "w" [n, m] = .ok w ∧ (∀ c, b = some c → get l.name "b" [m] = .ok c) ∧
      ∀ (N : Nat) (x : Arr K), x.shape = [N, n] → ∃ y, (l.call get x >>= fun p => Except.ok p.1) = .ok y ∧ Verif.Props.Mlp.Affine x y w b n m := by
  obtain ⟨w, b, h1, h2, h3, h4⟩ := linear_run' ho hw hb
  refine ⟨w, b, h1, fun c hc => ?_, h4⟩
  cases hwb : l.withBias with
  | false => rw [h3 hwb] at hc; cases hc
  | true =>
    obtain ⟨c', rfl, h⟩ := h2 hwb
    cases hc
    exact h

theorem good_linear [Field K] [LinearOrder K] {get : ParamFn K} {l : Linear} {n m : Nat} (ho : l.outputSize = some m) (hw : There get (l.name, "w", [n, m])) (hb : l.withBias = true → There get (l.name, "b", [m])) :
    Good tr tl (lift fun x : Arr K => l.call get x >>= fun p => .ok p.1) [] [n] [m] := by
  obtain ⟨w, b, -, -, run⟩ := linear_run ho hw hb
  refine good_lift fun N x hx => ?_
  obtain ⟨y, y1, y2⟩ := run N x hx
  refine ⟨y, y1, by rw [y2.shape, hx]; rfl, fun N' x' ρ hx' hρ hpull => ?_⟩
  obtain ⟨y', z1, z2⟩ := run N' x' hx'
  refine ⟨y', z1, by rw [z2.shape, hx']; rfl, fun e he i hi => ?_⟩
  match i, hi with
  | [j], hi =>
    have h1 := z2.val [e] j
    have h2 := y2.val [ρ e] j
    refine h1.trans (Eq.trans ?_ h2.symm)
    congr 1
    refine Finset.sum_congr rfl fun k hk => ?_
    show x'.val (e :: [k]) * _ = x.val (ρ e :: [k]) * _
    rw [hpull e he [k] (.cons (Finset.mem_range.mp hk) .nil)]
  | [], hi => cases hi
  | _ :: _ :: _, hi => cases hi with
    | cons _ h => cases h

end Verif.Stage
