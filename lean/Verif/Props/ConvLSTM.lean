import Verif.Props.ConvArr
import Verif.Props.Cores

/-!
# Convolutional LSTM (C108)
-/

set_option linter.unusedVariables false
set_option linter.unusedSectionVars false

namespace Verif.Props.ConvLSTM
open Verif.Shapes (Err)
open Verif.Pool (Arr)
open Verif.Utils
open Verif.Nd (zip map)
open Verif.Mlp (ParamFn getParameter)
open Verif.Cores (columns)
open Verif.Conv
open Verif.Props.Conv
open Verif.ConvArr
open Verif.Props.ConvArr
open Verif.Props.Cores (Has Squash Bounded zip_same valid_snoc columns_vec columns_shape vec)
open Verif.Props.Reset (Valid mem_indices)
open Verif.Props.Norm (bind_eq bind_err)

variable {K : Type}

/-! ### Specification -/

/-- The position that kernel position `j` reads for output position `t`: the kernel is centred, the extra element of an even size being on the right. -/
def reads : List Nat → List Nat → List Nat → List Int
  | k :: ks, t :: ts, j :: js => ((t : Int) + j - ((k : Int) - 1) / 2) :: reads ks ts js
  | _, _, _ => []

/-- `(W * x)_c + b_c` at position `t`: the convolution with stride 1 of a picture `v` of size `sp` with `C` channels that reads 0 outside the picture. -/
def conv [AddCommMonoid K] [Mul K] (w b : Arr K) (ks sp : List Nat) (C : Nat) (v : List Nat → Nat → K) (t : List Nat) (c : Nat) : K :=
  ((indices ks).map fun j => ((List.range C).map fun ci => w.val (j ++ [ci, c]) * (⟨sp.map Int.ofNat, C, fun p => v (p.map Int.toNat)⟩ : Image K).get (reads ks t j) ci).sum).sum + b.val [c]

/-- The picture that an array holds at `q`, the position of the example (empty without batch axis). -/
def at' (x : Arr K) (q : List Nat) : List Nat → Nat → K := fun t c => x.val (q ++ (t ++ [c]))

/-- The parameters of the two convolutions. -/
structure Weights (get : ParamFn K) (name : String) (ks : List Nat) (C O : Nat) (w b w' b' : Arr K) : Prop where
  inputWeight : Has get (name ++ "/input_to_hidden") "w" (ks ++ [C, 4 * O]) w
  inputBias : Has get (name ++ "/input_to_hidden") "b" [4 * O] b
  hiddenWeight : Has get (name ++ "/hidden_to_hidden") "w" (ks ++ [O, 4 * O]) w'
  hiddenBias : Has get (name ++ "/hidden_to_hidden") "b" [4 * O] b'

/-- `W_i * x_t + W_h * h_{t-1} + b` at position `t`, for gate channel `k`. -/
def pre [Field K] (w b w' b' : Arr K) (ks sp : List Nat) (C O : Nat) (x h : List Nat → Nat → K) (t : List Nat) (k : Nat) : K :=
  conv w b ks sp C x t k + conv w' b' ks sp O h t k

/-- `c_t = f_t c_{t-1} + i_t g_t`, where 1 is added to the bias of the forget gate; the channels hold the gates `i`, `g`, `f`, `o` in this order. -/
def cell [Field K] (sigmoid tanh : K → K) (O : Nat) (gate : Nat → K) (c : Nat → K) (k : Nat) : K := sigmoid (gate (2 * O + k) + 1) * c k + sigmoid (gate k) * tanh (gate (O + k))

/-- `h_t = o_t tanh(c_t)`. -/
def hidden [Field K] (sigmoid tanh : K → K) (O : Nat) (gate : Nat → K) (c : Nat → K) (k : Nat) : K := sigmoid (gate (3 * O + k)) * tanh (cell sigmoid tanh O gate c k)

/-! ### Lemmas -/

theorem pad_same (n : Int) {k : Int} (hk : 1 ≤ k) : stringPad true n k 1 = ((k - 1) / 2, k - 1 - (k - 1) / 2) := by
  unfold stringPad
  rw [if_pos rfl]
  dsimp only
  rw [Int.fdiv_one]
  have e : max 0 ((- -n - 1) * 1 + k - n) = k - 1 := by omega
  rw [e, Int.fdiv_eq_ediv_of_nonneg _ (by decide)]

theorem dilate_one (k : Int) : dilate k 1 = k := by
  unfold dilate
  split <;> omega

theorem zip_dilate : ∀ (ks : List Int) (n : Nat), ks.length = n → List.zipWith (fun k r => dilate k r) ks (List.replicate n 1) = ks
  | [], 0, _ => rfl
  | k :: ks, n + 1, h => by
    show dilate k 1 :: List.zipWith _ ks (List.replicate n 1) = _
    rw [dilate_one, zip_dilate ks n (Nat.succ.inj h)]

/-- Left and right padding of a centred kernel. -/
def around (ks : List Nat) : List (Int × Int) := ks.map fun k => (((k : Int) - 1) / 2, (k : Int) - 1 - ((k : Int) - 1) / 2)

theorem pads_around : ∀ (sp ks : List Nat) (n : Nat), sp.length = n → ks.length = n → (∀ k ∈ ks, 1 ≤ k) →
    List.zipWith (fun nk s => stringPad true nk.1 nk.2 s) ((sp.map Int.ofNat).zip (ks.map Int.ofNat)) (List.replicate n 1) = around ks
  | [], [], 0, _, _, _ => rfl
  | s :: sp, k :: ks, n + 1, h1, h2, h => by
    show stringPad true (s : Int) (k : Int) 1 :: List.zipWith _ ((sp.map Int.ofNat).zip (ks.map Int.ofNat)) (List.replicate n 1) = _
    rw [pad_same _ (by exact_mod_cast h k (.head _)), pads_around sp ks n (Nat.succ.inj h1) (Nat.succ.inj h2) fun k hk => h k (.tail _ hk)]
    rfl

theorem sizes_around : ∀ (sp ks : List Nat) (n : Nat), sp.length = n → ks.length = n → (∀ k ∈ ks, 1 ≤ k) → outSizes (sp.map Int.ofNat) (ks.map Int.ofNat) (List.replicate n 1) (around ks) = sp.map Int.ofNat
  | [], [], 0, _, _, _ => rfl
  | s :: sp, k :: ks, n + 1, h1, h2, h => by
    show outSize (s : Int) (k : Int) 1 (((k : Int) - 1) / 2) ((k : Int) - 1 - ((k : Int) - 1) / 2) :: outSizes (sp.map Int.ofNat) (ks.map Int.ofNat) (List.replicate n 1) (around ks) = (s : Int) :: _
    rw [size_one, sizes_around sp ks n (Nat.succ.inj h1) (Nat.succ.inj h2) fun k hk => h k (.tail _ hk)]
    congr 1
    omega

theorem tap_around : ∀ (ks t j : List Nat) (n : Nat), ks.length = n → t.length = n → j.length = n → tap (List.replicate n 1) (List.replicate n 1) (around ks) (t.map Int.ofNat) j = reads ks t j
  | [], [], [], 0, _, _, _ => rfl
  | k :: ks, t :: ts, j :: js, n + 1, h1, h2, h3 => by
    show ((t : Int) * 1 + (j : Int) * 1 - ((k : Int) - 1) / 2) :: tap (List.replicate n 1) (List.replicate n 1) (around ks) (ts.map Int.ofNat) js = _
    rw [tap_around ks ts js n (Nat.succ.inj h1) (Nat.succ.inj h2) (Nat.succ.inj h3), Int.mul_one, Int.mul_one]
    rfl

/-- The module that a convolutional LSTM makes. -/
theorem part_made {m : ConvLSTM} {ks : List Nat} (hN : m.numSpatialDims ≠ 0) (hk : replicate m.kernelShape m.numSpatialDims = .ok (ks.map Int.ofNat)) (name : String) :
    ∃ mod : Module K, m.part name = .ok mod ∧ mod.name = m.name ++ name ∧ mod.mask = none ∧ mod.withBias = true ∧
      mod.conv = ⟨m.numSpatialDims, 4 * m.outputChannels, ks.map Int.ofNat, List.replicate m.numSpatialDims 1, List.replicate m.numSpatialDims 1, 1, .str "SAME".toList⟩ := by
  have hc : ConvND.make (m.numSpatialDims : Int) (4 * m.outputChannels) m.kernelShape (.scalar 1) (.scalar 1) (.str "SAME".toList) 1 =
      .ok ⟨m.numSpatialDims, 4 * m.outputChannels, ks.map Int.ofNat, List.replicate m.numSpatialDims 1, List.replicate m.numSpatialDims 1, 1, .str "SAME".toList⟩ := by
    unfold ConvND.make
    rw [if_neg (by omega), bind_eq hk]
    rfl
  unfold ConvLSTM.part Module.make
  rw [bind_eq hc, bind_eq (show getChannelIndex "channels_last".toList = .ok (-1) from by decide +kernel)]
  exact ⟨_, rfl, rfl, rfl, rfl, rfl⟩

theorem batch_run [AddCommMonoid K] [Mul K] {m : ConvLSTM} {ks : List Nat} (hN : m.numSpatialDims ≠ 0) (hk : replicate m.kernelShape m.numSpatialDims = .ok (ks.map Int.ofNat)) (hks : ∀ k ∈ ks, 1 ≤ k)
    {get : ParamFn K} {name : String} {sp : List Nat} {B C : Nat} {x w b : Arr K} (hsp : sp.length = m.numSpatialDims) (hx : x.shape = B :: (sp ++ [C]))
    (hw : Has get (m.name ++ name) "w" (ks ++ [C, 4 * m.outputChannels]) w) (hb : Has get (m.name ++ name) "b" [4 * m.outputChannels] b) {mod : Module K} (hm : m.part name = .ok mod) :
    ∃ y, mod.batched get x = .ok y ∧ y.shape = B :: (sp ++ [4 * m.outputChannels]) ∧
      ∀ e t c, e < B → Valid sp t → c < 4 * m.outputChannels → y.val (e :: (t ++ [c])) = conv w b ks sp C (at' x [e]) t c := by
  obtain ⟨mod', h1, h2, h3, h4, h5⟩ := part_made (K := K) hN hk name
  have : mod' = mod := Except.ok.inj (h1.symm.trans hm)
  subst this
  have hkl : ks.length = m.numSpatialDims := by
    have := (fitting_of_ok hk).2.1
    rwa [List.length_map] at this
  have hkn : (ks.map Int.ofNat).map Int.toNat = ks := by
    rw [List.map_map]
    exact List.map_id'' (fun _ => rfl) ks
  have hcall (e : Nat) : single mod' false w b (image false sp C x e) = .ok (mod'.conv.output (weights mod'.mask w) (biasOf mod'.withBias false mod'.conv.numSpatialDims b) (image false sp C x e) (around ks)) := by
    unfold single ConvND.call
    rw [h5]
    dsimp only
    rw [if_neg (show ¬ ((image false sp C x e).sizes.length ≠ m.numSpatialDims) from fun h => h (by rw [← hsp]; exact List.length_map ..)),
      if_neg (show ¬ ((image false sp C x e).channels % 1 ≠ 0 ∨ 1 = 0) from fun h => h.elim (fun h => h (Nat.mod_one _)) (by decide)), if_neg]
    · unfold ConvND.pads
      dsimp only
      rw [if_pos rfl, zip_dilate _ _ (by rw [List.length_map]; exact hkl)]
      show Except.map _ (Except.ok (List.zipWith _ ((sp.map Int.ofNat).zip (ks.map Int.ofNat)) (List.replicate m.numSpatialDims 1))) = _
      rw [pads_around sp ks _ hsp hkl hks]
      rfl
    · simp only [List.any_eq_true, decide_eq_true_eq, List.mem_replicate]
      rintro (⟨s, ⟨_, rfl⟩, k⟩ | ⟨s, ⟨_, rfl⟩, k⟩ | ⟨s, h, k⟩)
      · omega
      · omega
      · obtain ⟨a, _, rfl⟩ := List.mem_map.mp h
        exact absurd k (Int.not_lt.mpr (Int.natCast_nonneg a))
  have hp : Params get mod' false C w b := by
    refine ⟨?_, ?_, fun _ => ?_, fun k hk => ?_⟩
    · rw [h2, h5]
      dsimp only
      rw [hkn, Nat.div_one]
      exact hw.1
    · rw [h5]
      dsimp only
      rw [hkn, Nat.div_one]
      exact hw.2
    · rw [h2, h5]
      exact hb
    · rw [h3] at hk
      cases hk
  obtain ⟨y, out, y1, y2, y3, y4⟩ := batched_examples (first := false) h1 (by decide +kernel) hx (Nat.mod_one _) hp (hcall 0)
  have hout : out = sp := by
    have e : (mod'.conv.output (weights mod'.mask w) (biasOf mod'.withBias false mod'.conv.numSpatialDims b) (image false sp C x 0) (around ks)).sizes = sp.map Int.ofNat := by
      unfold ConvND.output
      rw [h5]
      dsimp only
      rw [zip_dilate _ _ (by rw [List.length_map]; exact hkl)]
      exact sizes_around sp ks _ hsp hkl hks
    rw [y3] at e
    have := congrArg (List.map Int.toNat) e
    rw [List.map_map, List.map_map] at this
    have hid (l : List Nat) : l.map (Int.toNat ∘ Int.ofNat) = l := List.map_id'' (fun _ => rfl) l
    rwa [hid, hid] at this
  subst hout
  refine ⟨y, y1, y2, fun e t c he ht hc => ?_⟩
  obtain ⟨i, i1, _, _, i4⟩ := y4 e he
  have : y.val (e :: (t ++ [c])) = i.val (t.map Int.ofNat) c := i4 t c ht hc
  rw [this, ← Except.ok.inj ((hcall e).symm.trans i1), output_val, h5, h3, h4]
  dsimp only
  rw [hkn]
  unfold conv taps
  refine congrArg (· + b.val [c]) (congrArg List.sum (List.map_congr_left fun j hj => ?_))
  rw [tap_around ks t j _ hkl (by rw [ht.length_eq, hsp]) (by rw [(mem_indices.mp hj).length_eq, hkl])]
  show ((List.range (C / 1)).map fun ci => weights none w j ci c * (image false out C x e).get (reads ks t j) (c / (4 * m.outputChannels / 1) * (C / 1) + ci)).sum = _
  rw [Nat.div_one, Nat.div_one, Nat.div_eq_of_lt hc]
  refine congrArg List.sum (List.map_congr_left fun ci _ => ?_)
  rw [Nat.zero_mul, Nat.zero_add]
  rfl

/-- A convolution of the module, with or without batch axis. -/
theorem part_run [AddCommMonoid K] [Mul K] {m : ConvLSTM} {ks : List Nat} (hN : m.numSpatialDims ≠ 0) (hk : replicate m.kernelShape m.numSpatialDims = .ok (ks.map Int.ofNat)) (hks : ∀ k ∈ ks, 1 ≤ k)
    {get : ParamFn K} {name : String} {p sp : List Nat} {C : Nat} {x w b : Arr K} (hp : p.length ≤ 1) (hsp : sp.length = m.numSpatialDims) (hx : x.shape = p ++ (sp ++ [C]))
    (hw : Has get (m.name ++ name) "w" (ks ++ [C, 4 * m.outputChannels]) w) (hb : Has get (m.name ++ name) "b" [4 * m.outputChannels] b) :
    ∃ mod : Module K, ∃ y, m.part name = .ok mod ∧ mod.call get x = .ok y ∧ y.shape = p ++ (sp ++ [4 * m.outputChannels]) ∧
      ∀ q t c, Valid p q → Valid sp t → c < 4 * m.outputChannels → y.val (q ++ (t ++ [c])) = conv w b ks sp C (at' x q) t c := by
  obtain ⟨mod, h1, h2, h3, h4, h5⟩ := part_made (K := K) hN hk name
  have hd : mod.conv.numSpatialDims = m.numSpatialDims := by rw [h5]
  match p, hp with
  | [], _ =>
    replace hx : x.shape = sp ++ [C] := hx
    obtain ⟨y, y1, y2, y3⟩ := batch_run (x := ⟨1 :: x.shape, fun i => x.val i.tail⟩) (B := 1) hN hk hks hsp (by rw [← hx]) hw hb h1
    refine ⟨mod, ⟨y.shape.tail, fun i => y.val (0 :: i)⟩, h1, ?_, by rw [y2]; rfl, fun q t c hq ht hc => ?_⟩
    · rw [call_single_eq hd (by rw [hx, List.length_append, hsp]; rfl), bind_eq y1]
    · cases hq
      exact y3 0 t c (by decide) ht hc
  | [B], _ =>
    obtain ⟨y, y1, y2, y3⟩ := batch_run hN hk hks hsp hx hw hb h1
    refine ⟨mod, y, h1, ?_, y2, fun q t c hq ht hc => ?_⟩
    · rw [call_batch_eq hd (by rw [hx, List.length_append, List.length_append, hsp]; simp only [List.length_cons, List.length_nil]; omega)]
      exact y1
    · cases hq with
      | cons he hq =>
        cases hq
        exact y3 _ t c he ht hc

/-! ### C108 -/

/-- C108 A convolutional LSTM computes the documented equations, with or without batch axis `p`: for inputs of sizes `sp` and a state of the same sizes with `output_channels` channels, the next state has the shapes of the old one and holds
at each position the cell and hidden state that the gates at this position give, the gates being the sum of the two convolutions, which read 0 outside the picture. -/
theorem equations [Field K] (get : ParamFn K) (sigmoid tanh : K → K) (m : ConvLSTM) (hN : m.numSpatialDims ≠ 0) (ks : List Nat) (hk : replicate m.kernelShape m.numSpatialDims = .ok (ks.map Int.ofNat)) (hks : ∀ k ∈ ks, 1 ≤ k)
    (p sp : List Nat) (C : Nat) (x h c w b w' b' : Arr K) (hp : p.length ≤ 1) (hsp : sp.length = m.numSpatialDims) (hx : x.shape = p ++ (sp ++ [C])) (hh : h.shape = p ++ (sp ++ [m.outputChannels]))
    (hc : c.shape = p ++ (sp ++ [m.outputChannels])) (hw : Weights get m.name ks C m.outputChannels w b w' b') :
    ∃ h' c', m.call get sigmoid tanh x h c = .ok (h', c') ∧ h'.shape = p ++ (sp ++ [m.outputChannels]) ∧ c'.shape = p ++ (sp ++ [m.outputChannels]) ∧
      ∀ q t, Valid p q → Valid sp t → ∀ k < m.outputChannels,
        at' c' q t k = cell sigmoid tanh m.outputChannels (pre w b w' b' ks sp C m.outputChannels (at' x q) (at' h q) t) (at' c q t) k ∧
        at' h' q t k = hidden sigmoid tanh m.outputChannels (pre w b w' b' ks sp C m.outputChannels (at' x q) (at' h q) t) (at' c q t) k := by
  obtain ⟨mi, yi, i1, i2, i3, i4⟩ := part_run hN hk hks (get := get) (name := "/input_to_hidden") hp hsp hx hw.inputWeight hw.inputBias
  obtain ⟨mh, yh, j1, j2, j3, j4⟩ := part_run hN hk hks (get := get) (name := "/hidden_to_hidden") hp hsp hh hw.hiddenWeight hw.hiddenBias
  obtain ⟨gd, g1, g2, g3⟩ := zip_same (f := (· + ·)) i3 j3
  rw [← List.append_assoc] at g2 hc
  obtain ⟨fc, h3, s3, v3⟩ := zip_same (f := (· * ·)) (x := map (fun v => sigmoid (v + 1)) (columns (2 * m.outputChannels) m.outputChannels gd)) (y := c) (columns_shape (2 * m.outputChannels) g2) hc
  obtain ⟨ig, h4, s4, v4⟩ := zip_same (f := (· * ·)) (x := map sigmoid (columns 0 m.outputChannels gd)) (y := map tanh (columns m.outputChannels m.outputChannels gd)) (columns_shape 0 g2) (columns_shape m.outputChannels g2)
  obtain ⟨c', h5, s5, v5⟩ := zip_same (f := (· + ·)) s3 s4
  obtain ⟨h', h6, s6, v6⟩ := zip_same (f := (· * ·)) (x := map sigmoid (columns (3 * m.outputChannels) m.outputChannels gd)) (y := map tanh c') (columns_shape (3 * m.outputChannels) g2) s5
  refine ⟨h', c', ?_, by rw [s6, List.append_assoc], by rw [s5, List.append_assoc], fun q t hq ht k hk => ?_⟩
  · unfold ConvLSTM.call
    rw [bind_eq i1, bind_eq j1, bind_eq i2, bind_eq j2, bind_eq g1]
    dsimp only
    rw [bind_eq h3, bind_eq h4, bind_eq h5, bind_eq h6]
  have gate (a : Nat) (ha : a < 4 * m.outputChannels) : vec gd (q ++ t) a = pre w b w' b' ks sp C m.outputChannels (at' x q) (at' h q) t a := by
    show gd.val (q ++ t ++ [a]) = _
    rw [List.append_assoc, g3 _ (Verif.Nd.valid_append hq (valid_snoc ht ha)), i4 q t a hq ht ha, j4 q t a hq ht ha]
    rfl
  have hv := valid_snoc (n := m.outputChannels) (Verif.Nd.valid_append hq ht) hk
  have cc : at' c' q t k = cell sigmoid tanh m.outputChannels (pre w b w' b' ks sp C m.outputChannels (at' x q) (at' h q) t) (at' c q t) k := by
    show c'.val (q ++ (t ++ [k])) = _
    rw [← List.append_assoc, v5 _ hv, v3 _ hv, v4 _ hv]
    show sigmoid (vec (columns _ _ gd) (q ++ t) k + 1) * c.val (q ++ t ++ [k]) + sigmoid (vec (columns _ _ gd) (q ++ t) k) * tanh (vec (columns _ _ gd) (q ++ t) k) = _
    rw [columns_vec, columns_vec, columns_vec, gate _ (by omega), gate _ (by omega), gate _ (by omega), Nat.zero_add, List.append_assoc]
    rfl
  refine ⟨cc, ?_⟩
  show h'.val (q ++ (t ++ [k])) = _
  rw [← List.append_assoc, v6 _ hv]
  show sigmoid (vec (columns _ _ gd) (q ++ t) k) * tanh (c'.val (q ++ t ++ [k])) = _
  rw [columns_vec, gate _ (by omega), List.append_assoc]
  exact congrArg (fun v => _ * tanh v) cc

/-- C108 With gates between 0 and 1 and a hyperbolic tangent between -1 and 1, the hidden state lies between -1 and 1 and the cell state grows by at most 1 in a step. -/
theorem step_bounded [Field K] [LinearOrder K] [IsStrictOrderedRing K] (get : ParamFn K) (sigmoid tanh : K → K) (hq : Squash sigmoid tanh) (m : ConvLSTM) (hN : m.numSpatialDims ≠ 0) (ks : List Nat)
    (hk : replicate m.kernelShape m.numSpatialDims = .ok (ks.map Int.ofNat)) (hks : ∀ k ∈ ks, 1 ≤ k) (p sp : List Nat) (C : Nat) (x h c w b w' b' : Arr K) (hp : p.length ≤ 1) (hsp : sp.length = m.numSpatialDims)
    (hx : x.shape = p ++ (sp ++ [C])) (hh : h.shape = p ++ (sp ++ [m.outputChannels])) (hc : c.shape = p ++ (sp ++ [m.outputChannels])) (hw : Weights get m.name ks C m.outputChannels w b w' b') (M : K) (hM : Bounded M c)
    (h' c' : Arr K) (hr : m.call get sigmoid tanh x h c = .ok (h', c')) : Bounded 1 h' ∧ Bounded (M + 1) c' := by
  obtain ⟨h₂, c₂, e, s1, s2, v⟩ := equations get sigmoid tanh m hN ks hk hks p sp C x h c w b w' b' hp hsp hx hh hc hw
  rw [hr] at e
  cases e
  have split {i : List Nat} (hi : Valid (p ++ (sp ++ [m.outputChannels])) i) : ∃ q t k, i = q ++ (t ++ [k]) ∧ Valid p q ∧ Valid sp t ∧ k < m.outputChannels := by
    obtain ⟨q, r, rfl, hq, hr⟩ := Verif.Nd.valid_append_inv hi
    obtain ⟨t, k, rfl, ht, hk⟩ := valid_layout (first := false) hr
    exact ⟨q, t, k, rfl, hq, ht, hk⟩
  refine ⟨fun i hi => ?_, fun i hi => ?_⟩
  · rw [s1] at hi
    obtain ⟨q, t, k, rfl, hv, ht, hk⟩ := split hi
    have := (v q t hv ht k hk).2
    unfold at' at this
    rw [this]
    unfold hidden
    rw [abs_mul]
    exact mul_le_one₀ (by rw [abs_of_nonneg (hq.nonneg _)]; exact hq.le_one _) (abs_nonneg _) (hq.abs_le _)
  · rw [s2] at hi
    obtain ⟨q, t, k, rfl, hv, ht, hk⟩ := split hi
    have := (v q t hv ht k hk).1
    unfold at' at this
    rw [this]
    unfold cell
    have hcM : |c.val (q ++ (t ++ [k]))| ≤ M := hM _ (by rw [hc]; exact hi)
    refine (abs_add_le _ _).trans (add_le_add ?_ ?_)
    · rw [abs_mul, abs_of_nonneg (hq.nonneg _)]
      exact (mul_le_of_le_one_left (abs_nonneg _) (hq.le_one _)).trans hcM
    · rw [abs_mul]
      exact mul_le_one₀ (by rw [abs_of_nonneg (hq.nonneg _)]; exact hq.le_one _) (abs_nonneg _) (hq.abs_le _)

theorem conv_zero [NonUnitalNonAssocSemiring K] {w b : Arr K} {ks sp : List Nat} {C : Nat} {v : List Nat → Nat → K} (hv : ∀ t c, v t c = 0) (t : List Nat) (c : Nat) : conv w b ks sp C v t c = b.val [c] := by
  unfold conv
  have hz : ∀ l : List K, (∀ a ∈ l, a = 0) → l.sum = 0 := fun l h => List.sum_eq_zero h
  rw [hz, zero_add]
  intro a ha
  obtain ⟨j, _, rfl⟩ := List.mem_map.mp ha
  refine hz _ fun a ha => ?_
  obtain ⟨ci, _, rfl⟩ := List.mem_map.mp ha
  have : (⟨sp.map Int.ofNat, C, fun p => v (p.map Int.toNat)⟩ : Image K).get (reads ks t j) ci = 0 := by
    unfold Image.get
    split
    · exact hv _ _
    · rfl
  rw [this, mul_zero]

/-- C108 The first step from `initial_state`, with or without a batch size, succeeds when `input_shape` holds the spatial sizes of the inputs, and forgets nothing because there is nothing to forget: the cell state is `i * g`, where the gates see
the inputs and the biases only.  Missing: `input_shape` as documented, with the channels of the inputs; no step succeeds from there (`initial_documented`). -/
theorem from_initial_partial [Field K] (get : ParamFn K) (sigmoid tanh : K → K) (m : ConvLSTM) (hN : m.numSpatialDims ≠ 0) (ks : List Nat) (hk : replicate m.kernelShape m.numSpatialDims = .ok (ks.map Int.ofNat)) (hks : ∀ k ∈ ks, 1 ≤ k)
    (batch : Option Nat) (sp : List Nat) (C : Nat) (x w b w' b' : Arr K) (hsp : sp.length = m.numSpatialDims) (hi : m.inputShape = sp) (hx : x.shape = batch.toList ++ (sp ++ [C])) (hw : Weights get m.name ks C m.outputChannels w b w' b') :
    ∃ h' c', m.call get sigmoid tanh x (m.initialState batch).1 (m.initialState batch).2 = .ok (h', c') ∧ h'.shape = (m.initialState (K := K) batch).1.shape ∧ c'.shape = (m.initialState (K := K) batch).2.shape ∧
      ∀ q t, Valid batch.toList q → Valid sp t → ∀ k < m.outputChannels,
        at' c' q t k = sigmoid (conv w b ks sp C (at' x q) t k + b'.val [k]) * tanh (conv w b ks sp C (at' x q) t (m.outputChannels + k) + b'.val [m.outputChannels + k]) ∧
        at' h' q t k = sigmoid (conv w b ks sp C (at' x q) t (3 * m.outputChannels + k) + b'.val [3 * m.outputChannels + k]) * tanh (at' c' q t k) := by
  have hs : (m.initialState (K := K) batch).1.shape = batch.toList ++ (sp ++ [m.outputChannels]) := by
    show batch.toList ++ (m.inputShape ++ [m.outputChannels]) = _
    rw [hi]
  obtain ⟨h', c', e, s1, s2, v⟩ := equations get sigmoid tanh m hN ks hk hks batch.toList sp C x (m.initialState batch).1 (m.initialState batch).2 w b w' b' (by cases batch <;> simp) hsp hx hs hs hw
  refine ⟨h', c', e, s1.trans hs.symm, s2.trans hs.symm, fun q t hq ht k hk => ?_⟩
  obtain ⟨v1, v2⟩ := v q t hq ht k hk
  have hz (t : List Nat) (c : Nat) : conv w' b' ks sp m.outputChannels (at' (m.initialState (K := K) batch).1 q) t c = b'.val [c] := conv_zero (fun _ _ => rfl) t c
  have e1 : at' c' q t k = sigmoid (conv w b ks sp C (at' x q) t k + b'.val [k]) * tanh (conv w b ks sp C (at' x q) t (m.outputChannels + k) + b'.val [m.outputChannels + k]) := by
    rw [v1]
    unfold cell pre
    rw [hz, hz, hz, show at' (m.initialState (K := K) batch).2 q t k = 0 from rfl, mul_zero, zero_add]
  refine ⟨e1, ?_⟩
  rw [v2]
  unfold hidden
  rw [← v1]
  unfold pre
  rw [hz]

/-- C108 `input_shape` is documented as the "shape of the inputs excluding batch size", but the initial state made for such a shape is of no use: the channels of the inputs become an axis of the state, and the step for a batch of inputs of just this
shape is rejected with a `ValueError`. -/
theorem initial_documented [Field K] (get : ParamFn K) (sigmoid tanh : K → K) (m : ConvLSTM) (hN : m.numSpatialDims ≠ 0) (ks : List Nat) (hk : replicate m.kernelShape m.numSpatialDims = .ok (ks.map Int.ofNat)) (hks : ∀ k ∈ ks, 1 ≤ k)
    (B : Nat) (sp : List Nat) (C : Nat) (x w b w' b' : Arr K) (hsp : sp.length = m.numSpatialDims) (hi : m.inputShape = sp ++ [C]) (hx : x.shape = B :: m.inputShape) (hw : Weights get m.name ks C m.outputChannels w b w' b') :
    m.call get sigmoid tanh x (m.initialState (some B)).1 (m.initialState (some B)).2 = .error .value := by
  obtain ⟨mi, yi, i1, i2, _⟩ := part_run hN hk hks (get := get) (name := "/input_to_hidden") (p := [B]) (Nat.le_refl 1) hsp (by rw [hx, hi]; rfl) hw.inputWeight hw.inputBias
  obtain ⟨mh, j1, _, _, _, j5⟩ := part_made (K := K) hN hk "/hidden_to_hidden"
  unfold ConvLSTM.call
  rw [bind_eq i1, bind_eq j1, bind_eq i2]
  refine bind_err ?_
  unfold Module.call
  have hl : (m.initialState (K := K) (some B)).1.shape.length = m.numSpatialDims + 3 := by
    show ([B] ++ (m.inputShape ++ [m.outputChannels])).length = _
    rw [hi, List.length_append, List.length_append, List.length_append, hsp]
    simp only [List.length_cons, List.length_nil]
    omega
  dsimp only
  rw [j5]
  dsimp only
  exact if_pos (by rw [hl]; omega)

/-! ### Examples -/

/-- A 1-D convolutional LSTM with one output channel and kernel size 2. -/
def tiny (shape : List Nat) : ConvLSTM := ⟨"m", 1, shape, 1, .scalar 2⟩

/-- Its parameters. -/
def weights : ParamFn ℚ := fun _ n s => .ok ⟨s, fun i => if n = "b" then 1 / 8 else (i.sum : ℚ) / 32⟩

/-- Two examples of length 3 with one channel. -/
def inputs : Arr ℚ := ⟨[2, 3, 1], fun i => (i.sum : ℚ)⟩

/-- Stand-ins for the two functions. -/
def sig (v : ℚ) : ℚ := if v < 0 then 0 else if 1 < v then 1 else v

def tah (v : ℚ) : ℚ := if v < -1 then -1 else if 1 < v then 1 else v

theorem squash : Squash sig tah := by
  refine ⟨fun v => ?_, fun v => ?_, fun v => ?_⟩
  · unfold sig
    split
    · exact le_refl 0
    · split
      · exact zero_le_one
      · rename_i h _
        exact not_lt.mp h
  · unfold sig
    split
    · exact zero_le_one
    · split
      · exact le_refl 1
      · rename_i _ h
        exact not_lt.mp h
  · unfold tah
    rw [abs_le]
    split
    · exact ⟨le_refl _, by decide +kernel⟩
    · split
      · exact ⟨by decide +kernel, le_refl _⟩
      · rename_i h1 h2
        exact ⟨not_lt.mp h1, not_lt.mp h2⟩

theorem weights_there (C : Nat) : Weights weights "m" [2] C 1 ⟨[2, C, 4], fun i => (i.sum : ℚ) / 32⟩ ⟨[4], fun _ => 1 / 8⟩ ⟨[2, 1, 4], fun i => (i.sum : ℚ) / 32⟩ ⟨[4], fun _ => 1 / 8⟩ :=
  ⟨⟨rfl, rfl⟩, ⟨rfl, rfl⟩, ⟨rfl, rfl⟩, ⟨rfl, rfl⟩⟩

example : ∃ h' c', replicate (tiny [3]).kernelShape (tiny [3]).numSpatialDims = .ok ([2].map Int.ofNat) ∧ (tiny [3]).call weights sig tah inputs ⟨[2, 3, 1], fun i => (i.sum : ℚ) / 8⟩ ⟨[2, 3, 1], fun _ => 1 / 2⟩ = .ok (h', c') ∧
    c'.shape = [2, 3, 1] ∧ c'.val [1, 1, 0] = 5643 / 8192 ∧ h'.val [1, 1, 0] = 637659 / 1048576 :=
  ⟨_, _, rfl, rfl, by decide +kernel, by decide +kernel, by decide +kernel⟩

example : ∃ h' c', (tiny [3]).call weights sig tah inputs ((tiny [3]).initialState (some 2)).1 ((tiny [3]).initialState (some 2)).2 = .ok (h', c') ∧ c'.shape = [2, 3, 1] ∧ c'.val [1, 1, 0] = 11 / 64 :=
  ⟨_, _, rfl, by decide +kernel, by decide +kernel⟩

example : (tiny [3, 1]).call weights sig tah inputs ((tiny [3, 1]).initialState (some 2)).1 ((tiny [3, 1]).initialState (some 2)).2 = .error .value :=
  initial_documented weights sig tah (tiny [3, 1]) (by decide) [2] rfl (by decide) 2 [3] 1 inputs _ _ _ _ rfl rfl rfl (weights_there 1)

end Verif.Props.ConvLSTM
