import Verif.Model.Conv
import Verif.Props.Utils

/-!
# Sizes of convolutions and what their outputs read (C48, C49)
-/

set_option linter.unusedVariables false

namespace Verif.Props.Conv
open Verif.Shapes (Err)
open Verif.Utils
open Verif.Conv
open Verif.Props.Utils (entry Fitting replicate_entries)

variable {α β : Type}

/-! ### Specification -/

/-- The padding functions of `hk.pad`. -/
inductive Mode where
  | same
  | valid
  | full
  | causal
  | reverseCausal
  deriving DecidableEq, Repr

/-- The function of each mode. -/
def Mode.fn : Mode → PadFn
  | .same => Verif.Conv.same
  | .valid => Verif.Conv.valid
  | .full => Verif.Conv.full
  | .causal => Verif.Conv.causal
  | .reverseCausal => Verif.Conv.reverseCausal

/-- The documented output size for an input of size `n` and an effective kernel size `k`, with stride 1. -/
def Mode.documented (n k : Int) : Mode → Int
  | .same => n
  | .valid => max 0 (n - k + 1)
  | .full => n + k - 1
  | .causal => n
  | .reverseCausal => n

/-- The modes of all dimensions as an argument of `hk.ConvND`. -/
def fns : Arg Mode → Arg PadFn
  | .scalar m => .scalar m.fn
  | .seq l => .seq (l.map Mode.fn)

/-- Effective kernel size. -/
def keff (k r : Int) : Int := (k - 1) * r + 1

/-! ### Lemmas -/

theorem entry_fns : ∀ (a : Arg Mode) (i : Nat), entry (fns a) i = (entry a i).map Mode.fn
  | .scalar m, i => rfl
  | .seq [], i => rfl
  | .seq [m], i => rfl
  | .seq (m :: m' :: l), i => by
    show (List.map Mode.fn (m :: m' :: l))[i]? = _
    rw [List.getElem?_map]
    rfl

theorem fitting_of_ok {a : Arg α} {n : Nat} {l : List α} (h : replicate a n = .ok l) : Fitting a n ∧ l.length = n ∧ ∀ i < n, l[i]? = entry a i := by
  have k := replicate_entries a n
  have hf : Fitting a n := by
    cases a with
    | scalar a => trivial
    | seq l' =>
      by_cases hf : Fitting (.seq l') n
      · exact hf
      · rw [k.2 hf] at h; cases h
  obtain ⟨l', h1, h2, h3⟩ := k.1 hf
  rw [h] at h1
  cases h1
  exact ⟨hf, h2, h3⟩

theorem replicate_self (l : List α) (n : Nat) (h : l.length = n) : replicate (.seq l) n = .ok l := by
  unfold replicate
  dsimp only
  by_cases h1 : l.length = 1
  · rw [if_pos h1, ← h, h1]
    show Except.ok ([l] : List (List α)).flatten = _
    rw [List.flatten_cons, List.flatten_nil, List.append_nil]
  · rw [if_neg h1, if_pos (by rw [h])]

theorem bind_ok {x : Except Err α} {f : α → Except Err β} {b : β} (h : (x >>= f) = .ok b) : ∃ a, x = .ok a ∧ f a = .ok b := by
  cases x with
  | error e => cases h
  | ok a => exact ⟨a, rfl, h⟩

theorem map_ok {x : Except Err α} {f : α → β} {b : β} (h : x.map f = .ok b) : ∃ a, x = .ok a ∧ f a = b := by
  cases x with
  | error e => cases h
  | ok a => exact ⟨a, rfl, Except.ok.inj h⟩

theorem create_ok {p : Arg PadFn} {ks rs : List Int} {n : Nat} {l : List (Int × Int)} (hk : ks.length = n) (hr : rs.length = n)
    (h : create p (.seq ks) (.seq rs) n = .ok l) : ∃ ps, replicate p n = .ok ps ∧ l = List.zipWith (fun x y => x y) ps (List.zipWith keff ks rs) := by
  unfold create at h
  rw [replicate_self ks n hk, replicate_self rs n hr] at h
  replace h : (replicate p n >>= fun ps => pure (List.zipWith (fun (x : PadFn) y => x y) ps (List.zipWith keff ks rs))) = .ok l := h
  obtain ⟨ps, h1, h2⟩ := bind_ok h
  exact ⟨ps, h1, (Except.ok.inj h2).symm⟩

theorem make_ok {N : Int} {oc g : Nat} {kernel stride rate : Arg Int} {padding : PadArg} {m : ConvND} (h : ConvND.make N oc kernel stride rate padding g = .ok m) :
    0 < N ∧ m.numSpatialDims = N.toNat ∧ m.featureGroupCount = g ∧ m.outputChannels = oc ∧ replicate kernel N.toNat = .ok m.kernelShape ∧ replicate stride N.toNat = .ok m.stride ∧
      replicate rate N.toNat = .ok m.kernelDilation ∧
      (match padding with
        | .str s => m.padding = .str (s.map Char.toUpper)
        | .fns p => ∃ ps, replicate p N.toNat = .ok ps ∧ m.padding = .pairs (List.zipWith (fun x y => x y) ps (List.zipWith keff m.kernelShape m.kernelDilation))) := by
  unfold ConvND.make at h
  by_cases hN : N ≤ 0
  · rw [if_pos hN] at h; cases h
  · rw [if_neg hN] at h
    have hcast : ((N.toNat : Nat) : Int) = N := Int.toNat_of_nonneg (by omega)
    obtain ⟨ks, h1, h⟩ := bind_ok h
    obtain ⟨ss, h2, h⟩ := bind_ok h
    obtain ⟨rs, h3, h⟩ := bind_ok h
    rw [← hcast] at h1 h2 h3
    obtain ⟨p, h4, h⟩ := bind_ok h
    have hm := Except.ok.inj h
    subst hm
    refine ⟨by omega, rfl, rfl, rfl, h1, h2, h3, ?_⟩
    cases padding with
    | str s => exact (Except.ok.inj h4).symm
    | fns q =>
      unfold PadArg.resolve at h4
      dsimp only at h4 ⊢
      obtain ⟨l, h5, h6⟩ := map_ok h4
      obtain ⟨ps, h7, h8⟩ := create_ok (fitting_of_ok h1).2.1 (fitting_of_ok h3).2.1 h5
      refine ⟨ps, h7, ?_⟩
      rw [← h8]
      exact h6.symm

theorem outSizes_get : ∀ (ns ks ss : List Int) (ps : List (Int × Int)) (d : Nat) {n k s : Int} {p : Int × Int}, ns[d]? = some n → ks[d]? = some k → ss[d]? = some s → ps[d]? = some p →
    (outSizes ns ks ss ps)[d]? = some (outSize n k s p.1 p.2)
  | n :: ns, k :: ks, s :: ss, p :: ps, 0, _, _, _, _, h1, h2, h3, h4 => by
    cases h1; cases h2; cases h3; cases h4; rfl
  | n :: ns, k :: ks, s :: ss, p :: ps, d + 1, _, _, _, _, h1, h2, h3, h4 => outSizes_get ns ks ss ps d h1 h2 h3 h4

theorem outSizes_length : ∀ (ns ks ss : List Int) (ps : List (Int × Int)) (n : Nat), ns.length = n → ks.length = n → ss.length = n → ps.length = n → (outSizes ns ks ss ps).length = n
  | [], _, _, _, n, h, _, _, _ => h
  | n :: ns, k :: ks, s :: ss, p :: ps, 0, h, _, _, _ => by cases h
  | n :: ns, k :: ks, s :: ss, p :: ps, N + 1, h1, h2, h3, h4 =>
    congrArg (· + 1) (outSizes_length ns ks ss ps N (Nat.succ.inj h1) (Nat.succ.inj h2) (Nat.succ.inj h3) (Nat.succ.inj h4))
  | n :: ns, [], _, _, N, h1, h2, _, _ => by cases h2; cases h1
  | n :: ns, k :: ks, [], _, N, h1, _, h2, _ => by cases h2; cases h1
  | n :: ns, k :: ks, s :: ss, [], N, h1, _, _, h2 => by cases h2; cases h1

theorem get_of_lt {l : List α} {n d : Nat} (h : l.length = n) (hd : d < n) : ∃ a, l[d]? = some a :=
  ⟨l[d]'(h ▸ hd), List.getElem?_eq_getElem (h ▸ hd)⟩

theorem fdiv_two (k : Int) : 2 * Int.fdiv k 2 ≤ k ∧ k < 2 * Int.fdiv k 2 + 2 := by
  rw [Int.fdiv_eq_ediv_of_nonneg _ (by decide)]
  omega

theorem size_one (n k lo hi : Int) : outSize n k 1 lo hi = max 0 (n + lo + hi - k + 1) := by
  unfold outSize
  rw [Int.fdiv_one]

theorem keff_pos {k r : Int} (hk : 1 ≤ k) (hr : 1 ≤ r) : 1 ≤ keff k r := by
  unfold keff
  have : 0 ≤ (k - 1) * r := Int.mul_nonneg (by omega) (by omega)
  omega

theorem dilate_keff {k r : Int} (hk : 1 ≤ k) : dilate k r = keff k r := by
  unfold dilate keff
  rw [if_neg (by omega)]

theorem mode_size (m : Mode) {n k : Int} (hn : 0 ≤ n) (hk : 1 ≤ k) : outSize n k 1 (m.fn k).1 (m.fn k).2 = m.documented n k := by
  rw [size_one]
  cases m with
  | same =>
    show max 0 (n + Int.fdiv (k - 1) 2 + Int.fdiv k 2 - k + 1) = n
    have := fdiv_two (k - 1)
    have := fdiv_two k
    omega
  | valid => show max 0 (n + 0 + 0 - k + 1) = max 0 (n - k + 1); omega
  | full => show max 0 (n + (k - 1) + (k - 1) - k + 1) = n + k - 1; omega
  | causal => show max 0 (n + (k - 1) + 0 - k + 1) = n; omega
  | reverseCausal => show max 0 (n + 0 + (k - 1) - k + 1) = n; omega

/-- Sensible sizes: kernel sizes and dilation rates are positive, input sizes are not negative, and the channels can be grouped. -/
structure Sizes (m : ConvND) (x : Image α) : Prop where
  rank : x.sizes.length = m.numSpatialDims
  sizes : ∀ n ∈ x.sizes, 0 ≤ n
  kernel : ∀ k ∈ m.kernelShape, 1 ≤ k
  rate : ∀ r ∈ m.kernelDilation, 1 ≤ r
  stride : ∀ s ∈ m.stride, 1 ≤ s
  groups : m.featureGroupCount ≠ 0 ∧ x.channels % m.featureGroupCount = 0

theorem Sizes.call [Zero α] [Add α] [Mul α] {m : ConvND} {x : Image α} (hs : Sizes m x) (w : List Nat → Nat → Nat → α) (b : Nat → α) :
    m.call w b x = (m.pads x.sizes).map (m.output w b x) := by
  unfold ConvND.call
  have h3 : ¬ (m.stride.any (· ≤ 0) = true ∨ m.kernelDilation.any (· ≤ 0) = true ∨ m.kernelShape.any (· < 0) = true) := by
    simp only [List.any_eq_true, decide_eq_true_eq]
    rintro (⟨s, h, k⟩ | ⟨s, h, k⟩ | ⟨s, h, k⟩)
    · have := hs.stride s h; omega
    · have := hs.rate s h; omega
    · have := hs.kernel s h; omega
  rw [if_neg (fun h => h hs.rank), if_neg (by rintro (h | h); exact h hs.groups.2; exact hs.groups.1 h), if_neg h3]

/-! ### C48 -/

/-- C48 With stride 1, a convolution whose padding is given by the functions of `hk.pad`, in any number of dimensions and with any mixture of them, succeeds and each of its
output sizes is the documented one: `n` for `same`, `causal` and `reverse_causal`, `n - k_eff + 1` for `valid` (0 if the kernel does not fit) and `n + k_eff - 1` for `full`,
where `k_eff = (k - 1) * rate + 1`. -/
theorem pad_sizes [Zero α] [Add α] [Mul α] (N : Int) (oc g : Nat) (kernel stride rate : Arg Int) (padding : Arg Mode) (m : ConvND)
    (h : ConvND.make N oc kernel stride rate (.fns (fns padding)) g = .ok m) (h1 : ∀ s ∈ m.stride, s = 1) (w : List Nat → Nat → Nat → α) (b : Nat → α) (x : Image α) (hs : Sizes m x) :
    ∃ y, m.call w b x = .ok y ∧ y.sizes.length = x.sizes.length ∧
      ∀ (d : Nat) (n k r : Int) (p : Mode), x.sizes[d]? = some n → entry kernel d = some k → entry rate d = some r → entry padding d = some p →
        y.sizes[d]? = some (p.documented n ((k - 1) * r + 1)) := by
  obtain ⟨hN, hd, hg, ho, hk, hst, hr, ps, hp, hpad⟩ := make_ok h
  have kk := fitting_of_ok hk
  have kr := fitting_of_ok hr
  have kp := fitting_of_ok hp
  have ks := fitting_of_ok hst
  have hrank := hs.rank
  rw [hd] at hrank
  have l1 : (List.zipWith keff m.kernelShape m.kernelDilation).length = N.toNat := by
    rw [List.length_zipWith, kk.2.1, kr.2.1, Nat.min_self]
  have l2 : (List.zipWith (fun (x : PadFn) y => x y) ps (List.zipWith keff m.kernelShape m.kernelDilation)).length = N.toNat := by
    rw [List.length_zipWith, kp.2.1, l1, Nat.min_self]
  have l3 : (List.zipWith (fun k r => dilate k r) m.kernelShape m.kernelDilation).length = N.toNat := by
    rw [List.length_zipWith, kk.2.1, kr.2.1, Nat.min_self]
  refine ⟨m.output w b x (List.zipWith (fun (x : PadFn) y => x y) ps (List.zipWith keff m.kernelShape m.kernelDilation)), ?_, ?_, ?_⟩
  · rw [hs.call]
    unfold ConvND.pads
    rw [hpad]
    rfl
  · rw [hrank]
    exact outSizes_length _ _ _ _ _ hrank l3 ks.2.1 l2
  · intro d n k r p hn hk' hr' hp'
    have hdN : d < N.toNat := by
      rw [← hrank]
      exact (List.getElem?_eq_some_iff.mp hn).1
    obtain ⟨s, hs'⟩ := get_of_lt ks.2.1 hdN
    have hs1 : s = 1 := h1 s (List.mem_of_getElem? hs')
    have ek : m.kernelShape[d]? = some k := by rw [kk.2.2 d hdN, hk']
    have er : m.kernelDilation[d]? = some r := by rw [kr.2.2 d hdN, hr']
    have ep : ps[d]? = some p.fn := by rw [kp.2.2 d hdN, entry_fns, hp']; rfl
    have hk1 := hs.kernel k (List.mem_of_getElem? ek)
    have hr1 := hs.rate r (List.mem_of_getElem? er)
    have := outSizes_get x.sizes (List.zipWith (fun k r => dilate k r) m.kernelShape m.kernelDilation) m.stride
      (List.zipWith (fun (x : PadFn) y => x y) ps (List.zipWith keff m.kernelShape m.kernelDilation)) d hn (k := dilate k r) (by rw [List.getElem?_zipWith, ek, er]) hs'
      (p := p.fn (keff k r)) (by rw [List.getElem?_zipWith, ep, List.getElem?_zipWith, ek, er])
    rw [hs1, dilate_keff hk1, mode_size p (hs.sizes n (List.mem_of_getElem? hn)) (keff_pos hk1 hr1)] at this
    exact this

/-- A dilated 2-D convolution, causal in the first dimension and `same` in the second. -/
def sample : ConvND := ⟨2, 3, [2, 3], [1, 1], [4, 2], 1, .pairs [(4, 0), (2, 2)]⟩

example : ConvND.make 2 3 (.seq [2, 3]) (.scalar 1) (.seq [4, 2]) (.fns (fns (.seq [.causal, .same]))) 1 = .ok sample ∧ (∀ s ∈ sample.stride, s = 1) ∧
    Sizes sample (⟨[7, 5], 2, fun _ _ => 1⟩ : Image Nat) ∧ entry (.seq [Mode.causal, .same]) 0 = some .causal := by
  refine ⟨by decide, by decide, ⟨by decide, by decide, by decide, by decide, by decide, by decide⟩, by decide⟩

/-- C48 The string `"SAME"` pads exactly as `hk.pad.same` does, and `"VALID"` as `hk.pad.valid`, when the stride is 1 and the input is not empty. -/
theorem string_pads (n k : Int) (hn : 1 ≤ n) (hk : 1 ≤ k) : stringPad true n k 1 = same k ∧ stringPad false n k 1 = valid k := by
  refine ⟨?_, rfl⟩
  unfold stringPad
  rw [if_pos rfl]
  dsimp only
  rw [Int.fdiv_one]
  have e : max 0 ((- -n - 1) * 1 + k - n) = k - 1 := by omega
  rw [e]
  show (Int.fdiv (k - 1) 2, k - 1 - Int.fdiv (k - 1) 2) = (Int.fdiv (k - 1) 2, Int.fdiv k 2)
  have := fdiv_two (k - 1)
  have := fdiv_two k
  congr 1
  omega

example : stringPad true 9 4 1 = (1, 2) ∧ same 4 = (1, 2) := by decide

theorem indices_get : ∀ {ks j : List Nat}, j ∈ indices ks → j.length = ks.length ∧ ∀ d k i : Nat, ks[d]? = some k → j[d]? = some i → i < k
  | [], j, h => by
    rw [List.mem_singleton.mp h]
    exact ⟨rfl, fun d k i hk => by cases hk⟩
  | n :: ns, j, h => by
    obtain ⟨i, hi, hj⟩ := List.mem_flatMap.mp h
    obtain ⟨js, hjs, rfl⟩ := List.mem_map.mp hj
    obtain ⟨h1, h2⟩ := indices_get hjs
    refine ⟨congrArg (· + 1) h1, fun d k i' hk hi' => ?_⟩
    cases d with
    | zero => cases hk; cases hi'; exact List.mem_range.mp hi
    | succ d => exact h2 d k i' hk hi'

theorem tap_get : ∀ (ss rs : List Int) (ps : List (Int × Int)) (t : List Int) (j : List Nat) (d : Nat) {s r : Int} {p : Int × Int} {t' : Int} {i : Nat}, ss[d]? = some s → rs[d]? = some r →
    ps[d]? = some p → t[d]? = some t' → j[d]? = some i → (tap ss rs ps t j)[d]? = some (t' * s + i * r - p.1)
  | s :: ss, r :: rs, p :: ps, t :: ts, j :: js, 0, _, _, _, _, _, h1, h2, h3, h4, h5 => by cases h1; cases h2; cases h3; cases h4; cases h5; rfl
  | s :: ss, r :: rs, p :: ps, t :: ts, j :: js, d + 1, _, _, _, _, _, h1, h2, h3, h4, h5 => tap_get ss rs ps ts js d h1 h2 h3 h4 h5

/-- Two images of the same sizes that agree at all positions whose coordinate `d` satisfies `P`. -/
structure Agree (P : Int → Prop) (d : Nat) (x x' : Image α) : Prop where
  sizes : x'.sizes = x.sizes
  channels : x'.channels = x.channels
  val : ∀ p c q, inside x.sizes p = true → p[d]? = some q → P q → x'.val p c = x.val p c

theorem depends [Zero α] [Add α] [Mul α] {N : Int} {oc g : Nat} {kernel stride rate : Arg Int} {padding : Arg Mode} {m : ConvND}
    (h : ConvND.make N oc kernel stride rate (.fns (fns padding)) g = .ok m) (w : List Nat → Nat → Nat → α) (b : Nat → α) {x x' : Image α}
    (hs : Sizes m x) {d : Nat} (hd : d < x.sizes.length) (h1 : entry stride d = some 1) {p : Mode} (hp : entry padding d = some p) {P : Int → Prop} (ha : Agree P d x x')
    {t : List Int} (ht : t.length = x.sizes.length) {t' : Int} (ht' : t[d]? = some t')
    (hP : ∀ (k r : Int) (i : Nat), 1 ≤ r → (i : Int) < k → P (t' + i * r - (p.fn (keff k r)).1)) :
    ∃ y y', m.call w b x = .ok y ∧ m.call w b x' = .ok y' ∧ ∀ c, y'.val t c = y.val t c := by
  obtain ⟨hN, hdim, hg, ho, hk, hst, hr, ps, hp', hpad⟩ := make_ok h
  have kk := fitting_of_ok hk
  have kr := fitting_of_ok hr
  have kp := fitting_of_ok hp'
  have ks := fitting_of_ok hst
  have hrank := hs.rank
  rw [hdim] at hrank
  have hs' : Sizes m x' := ⟨by rw [ha.sizes]; exact hs.rank, by rw [ha.sizes]; exact hs.sizes, hs.kernel, hs.rate, hs.stride, by rw [ha.channels]; exact hs.groups⟩
  have hpads : ∀ sz, m.pads sz = .ok (List.zipWith (fun (x : PadFn) y => x y) ps (List.zipWith keff m.kernelShape m.kernelDilation)) := by
    intro sz
    unfold ConvND.pads
    rw [hpad]
  refine ⟨m.output w b x (List.zipWith (fun (x : PadFn) y => x y) ps (List.zipWith keff m.kernelShape m.kernelDilation)),
    m.output w b x' (List.zipWith (fun (x : PadFn) y => x y) ps (List.zipWith keff m.kernelShape m.kernelDilation)), by rw [hs.call, hpads]; rfl, by rw [hs'.call, hpads]; rfl, fun c => ?_⟩
  unfold ConvND.output
  dsimp only
  rw [ha.channels]
  congr 2
  refine List.map_congr_left fun j hj => ?_
  congr 1
  refine List.map_congr_left fun ci _ => ?_
  congr 1
  unfold Image.get
  rw [ha.sizes]
  by_cases hin : inside x.sizes (tap m.stride m.kernelDilation (List.zipWith (fun (x : PadFn) y => x y) ps (List.zipWith keff m.kernelShape m.kernelDilation)) t j) = true
  · rw [if_pos hin, if_pos hin]
    have hdN : d < N.toNat := by rw [← hrank]; exact hd
    obtain ⟨hjl, hjb⟩ := indices_get hj
    rw [List.length_map, kk.2.1] at hjl
    obtain ⟨k, ek⟩ := get_of_lt kk.2.1 hdN
    obtain ⟨r, er⟩ := get_of_lt kr.2.1 hdN
    obtain ⟨i, ei⟩ := get_of_lt hjl hdN
    have es : m.stride[d]? = some 1 := by rw [ks.2.2 d hdN, h1]
    have ep : ps[d]? = some p.fn := by rw [kp.2.2 d hdN, entry_fns, hp]; rfl
    have hk1 := hs.kernel k (List.mem_of_getElem? ek)
    have hi : i < k.toNat := hjb d k.toNat i (by rw [List.getElem?_map, ek]; rfl) ei
    refine ha.val _ _ _ hin (tap_get _ _ _ _ _ d es er (p := p.fn (keff k r)) (by rw [List.getElem?_zipWith, ep, List.getElem?_zipWith, ek, er]) ht' ei) ?_
    rw [Int.mul_one]
    exact hP k r i (hs.rate r (List.mem_of_getElem? er)) (by omega)
  · rw [if_neg hin, if_neg hin]

/-- C48 In a dimension with causal padding (and stride 1 there) an output at position `t` depends only on inputs at positions up to `t` in that dimension: changing any other inputs
does not change it. -/
theorem causal_reads_past [Zero α] [Add α] [Mul α] (N : Int) (oc g : Nat) (kernel stride rate : Arg Int) (padding : Arg Mode) (m : ConvND)
    (h : ConvND.make N oc kernel stride rate (.fns (fns padding)) g = .ok m) (w : List Nat → Nat → Nat → α) (b : Nat → α) (x x' : Image α)
    (hs : Sizes m x) (d : Nat) (hd : d < x.sizes.length) (h1 : entry stride d = some 1) (hp : entry padding d = some .causal)
    (t : List Int) (ht : t.length = x.sizes.length) (t' : Int) (ht' : t[d]? = some t') (ha : Agree (· ≤ t') d x x') :
    ∃ y y', m.call w b x = .ok y ∧ m.call w b x' = .ok y' ∧ ∀ c, y'.val t c = y.val t c := by
  refine depends h w b hs hd h1 hp ha ht ht' fun k r i hr hi => ?_
  show t' + i * r - (keff k r - 1) ≤ t'
  unfold keff
  have : (i : Int) * r ≤ (k - 1) * r := Int.mul_le_mul_of_nonneg_right (by omega) (by omega)
  omega

/-- C48 In a dimension with reverse-causal padding (and stride 1 there) an output at position `t` depends only on inputs at positions from `t` on. -/
theorem reverse_causal_reads_future [Zero α] [Add α] [Mul α] (N : Int) (oc g : Nat) (kernel stride rate : Arg Int) (padding : Arg Mode) (m : ConvND)
    (h : ConvND.make N oc kernel stride rate (.fns (fns padding)) g = .ok m) (w : List Nat → Nat → Nat → α) (b : Nat → α) (x x' : Image α)
    (hs : Sizes m x) (d : Nat) (hd : d < x.sizes.length) (h1 : entry stride d = some 1) (hp : entry padding d = some .reverseCausal)
    (t : List Int) (ht : t.length = x.sizes.length) (t' : Int) (ht' : t[d]? = some t') (ha : Agree (t' ≤ ·) d x x') :
    ∃ y y', m.call w b x = .ok y ∧ m.call w b x' = .ok y' ∧ ∀ c, y'.val t c = y.val t c := by
  refine depends h w b hs hd h1 hp ha ht ht' fun k r i hr hi => ?_
  show t' ≤ t' + i * r - 0
  have : 0 ≤ (i : Int) * r := Int.mul_nonneg (by omega) (by omega)
  omega

/-- Images of size 7 by 5 that differ in the rows after row 3, for the convolution `sample`, which is causal in the first dimension. -/
example : Sizes sample (⟨[7, 5], 2, fun _ _ => 1⟩ : Image Nat) ∧ entry (.scalar (1 : Int)) 0 = some 1 ∧
    Agree (· ≤ 3) 0 (⟨[7, 5], 2, fun _ _ => 1⟩ : Image Nat) ⟨[7, 5], 2, fun p _ => if p.headD 0 ≤ 3 then 1 else 9⟩ ∧ ([3, 4] : List Int)[0]? = some 3 := by
  refine ⟨⟨by decide, by decide, by decide, by decide, by decide, by decide⟩, rfl, ⟨rfl, rfl, fun p c q _ hq h => ?_⟩, rfl⟩
  cases p with
  | nil => cases hq
  | cons a p => cases hq; exact if_pos h

/-- The causal convolution does read the present: the output at row 4 changes with the input at row 4. -/
example : ((sample.call (fun _ _ _ => 1) (fun _ => 0) (⟨[7, 5], 2, fun _ _ => 1⟩ : Image Nat)).toOption.map fun y => y.val [4, 2] 0) = some 12 ∧
    ((sample.call (fun _ _ _ => 1) (fun _ => 0) (⟨[7, 5], 2, fun p _ => if p.headD 0 ≤ 3 then 1 else 9⟩ : Image Nat)).toOption.map fun y => y.val [4, 2] 0) = some 60 := by decide

/-! ### C49 -/

theorem adjusted_sum {i o k s : Int} {padding : List Char} {p : Int × Int} (h : computeAdjustedPadding i o k s padding = .ok p) :
    p.1 + p.2 = o + k - 1 - ((i - 1) * s + 1) ∧ (i = Int.fdiv (o - k + s) s ∨ i = Int.fdiv (o + s - 1) s) := by
  unfold computeAdjustedPadding at h
  dsimp only at h
  have e : (k - 1) * 1 + 1 = k := by omega
  rw [e] at h
  by_cases h1 : padding = "VALID".toList
  · rw [if_pos h1] at h
    by_cases h2 : i = Int.fdiv (o - k + s) s
    · rw [if_neg fun g => g h2] at h
      cases h
      exact ⟨by dsimp only; omega, Or.inl h2⟩
    · rw [if_pos h2] at h; cases h
  · rw [if_neg h1] at h
    by_cases h3 : padding = "SAME".toList
    · rw [if_pos h3] at h
      by_cases h2 : i = Int.fdiv (o + s - 1) s
      · rw [if_neg fun g => g h2] at h
        cases h
        exact ⟨by dsimp only; omega, Or.inr h2⟩
      · rw [if_pos h2] at h; cases h
    · rw [if_neg h3] at h; cases h

/-- One dimension: the size is the requested one as soon as the input is not empty. -/
theorem transposed_size {i o k s : Int} {padding : List Char} {p : Int × Int} (h : computeAdjustedPadding i o k s padding = .ok p) (hi : 1 ≤ i) (hk : 0 ≤ k) (hs : 1 ≤ s) :
    outSize (dilate i s) k 1 p.1 p.2 = o := by
  obtain ⟨h1, h2⟩ := adjusted_sum h
  rw [size_one]
  unfold dilate
  rw [if_neg (by omega)]
  have ho : 0 ≤ o := by
    rcases h2 with h2 | h2
    · rw [Int.fdiv_eq_ediv_of_nonneg _ (by omega)] at h2
      have := Int.mul_le_of_le_ediv (by omega) (Int.le_of_eq h2)
      have : s ≤ i * s := by
        have := Int.mul_le_mul_of_nonneg_right hi (show 0 ≤ s by omega)
        omega
      omega
    · rw [Int.fdiv_eq_ediv_of_nonneg _ (by omega)] at h2
      have := Int.mul_le_of_le_ediv (by omega) (Int.le_of_eq h2)
      have : s ≤ i * s := by
        have := Int.mul_le_mul_of_nonneg_right hi (show 0 ≤ s by omega)
        omega
      omega
  omega

theorem transposed_sizes {padding : List Char} : ∀ (is os ks ss : List Int) (n : Nat) {ps : List (Int × Int)}, is.length = n → os.length = n → ks.length = n → ss.length = n →
    adjustedPaddings padding is os ks ss = .ok ps → (∀ i ∈ is, 1 ≤ i) → (∀ k ∈ ks, 0 ≤ k) → (∀ s ∈ ss, 1 ≤ s) → transposedSizes is ks ss ps = os
  | [], [], _, _, _, ps, _, _, _, _, _, _, _, _ => rfl
  | [], o :: os, _, _, n, ps, h1, h2, _, _, _, _, _, _ => by cases h1; cases h2
  | i :: is, [], _, _, n, ps, h1, h2, _, _, _, _, _, _ => by cases h2; cases h1
  | i :: is, o :: os, [], _, n, ps, h1, _, h2, _, _, _, _, _ => by cases h2; cases h1
  | i :: is, o :: os, k :: ks, [], n, ps, h1, _, _, h2, _, _, _, _ => by cases h2; cases h1
  | i :: is, o :: os, k :: ks, s :: ss, 0, ps, h1, _, _, _, _, _, _, _ => by cases h1
  | i :: is, o :: os, k :: ks, s :: ss, n + 1, ps, h1, h2, h3, h4, h, hi, hk, hs => by
    obtain ⟨p, e1, h⟩ := bind_ok h
    obtain ⟨ps', e2, h⟩ := bind_ok h
    cases h
    show outSize (dilate i s) k 1 p.1 p.2 :: transposedSizes is ks ss ps' = o :: os
    rw [transposed_size e1 (hi i List.mem_cons_self) (hk k List.mem_cons_self) (hs s List.mem_cons_self),
      transposed_sizes is os ks ss n (Nat.succ.inj h1) (Nat.succ.inj h2) (Nat.succ.inj h3) (Nat.succ.inj h4) e2 (fun a h => hi a (List.mem_cons_of_mem _ h))
        (fun a h => hk a (List.mem_cons_of_mem _ h)) (fun a h => hs a (List.mem_cons_of_mem _ h))]

/-- C49 A transposed convolution with `output_shape`, in any number of dimensions and for both paddings, gives an output of exactly that shape whenever it does not raise, if no
spatial size of the input is 0.
Missing: empty inputs, for which the size can differ (`transposed_empty`). -/
theorem transposed_shape_partial (N : Int) (kernel stride output : Arg Int) (padding : List Char) (m : ConvNDTranspose) (h : ConvNDTranspose.make N kernel stride output padding = .ok m)
    (sizes : List Int) (hi : ∀ i ∈ sizes, 1 ≤ i) (out : List Int) (ho : m.sizes sizes = .ok out) : out.length = sizes.length ∧ ∀ d < sizes.length, out[d]? = entry output d := by
  unfold ConvNDTranspose.make at h
  by_cases hN : N ≤ 0
  · rw [if_pos hN] at h; cases h
  rw [if_neg hN] at h
  have hcast : ((N.toNat : Nat) : Int) = N := Int.toNat_of_nonneg (by omega)
  obtain ⟨ks, h1, h⟩ := bind_ok h
  obtain ⟨os, h2, h⟩ := bind_ok h
  obtain ⟨ss, h3, h⟩ := bind_ok h
  cases h
  rw [← hcast] at h1 h2 h3
  unfold ConvNDTranspose.sizes at ho
  dsimp only at ho
  by_cases hr : sizes.length = N.toNat
  · rw [if_neg fun g => g hr] at ho
    obtain ⟨ps, h4, ho⟩ := bind_ok ho
    by_cases hb : ss.any (· ≤ 0) = true ∨ ks.any (· < 0) = true
    · rw [if_pos hb] at ho; cases ho
    · rw [if_neg hb] at ho
      cases ho
      simp only [List.any_eq_true, decide_eq_true_eq, not_or, not_exists, not_and] at hb
      rw [transposed_sizes sizes os ks ss N.toNat hr (fitting_of_ok h2).2.1 (fitting_of_ok h1).2.1 (fitting_of_ok h3).2.1 h4 hi (fun k h => by have := hb.2 k h; omega)
        (fun s h => by have := hb.1 s h; omega)]
      refine ⟨by rw [(fitting_of_ok h2).2.1, hr], fun d hd => (fitting_of_ok h2).2.2 d (hr ▸ hd)⟩
  · rw [if_pos hr] at ho; cases ho

example : ConvNDTranspose.make 2 (.seq [3, 4]) (.scalar 2) (.seq [9, 10]) "SAME".toList = .ok ⟨2, [3, 4], [9, 10], [2, 2], "SAME".toList⟩ ∧
    (∀ i ∈ ([5, 5] : List Int), 1 ≤ i) ∧ ConvNDTranspose.sizes ⟨2, [3, 4], [9, 10], [2, 2], "SAME".toList⟩ [5, 5] = .ok [9, 10] := by decide

/-- C49 An input size that cannot lead to the requested output size is rejected, and so is every padding other than `"VALID"` and `"SAME"`: the accepted input sizes are those of
the forward convolution, `(o - k) // s + 1` for `"VALID"` and `o / s` rounded up for `"SAME"`. -/
theorem adjusted_rejects (i o k s : Int) (padding : List Char) :
    (∃ p, computeAdjustedPadding i o k s padding = .ok p) ↔
      (padding = "VALID".toList ∧ i = Int.fdiv (o - k + s) s) ∨ (padding = "SAME".toList ∧ i = Int.fdiv (o + s - 1) s) := by
  unfold computeAdjustedPadding
  dsimp only
  have e : (k - 1) * 1 + 1 = k := by omega
  rw [e]
  by_cases h1 : padding = "VALID".toList
  · have h3 : padding ≠ "SAME".toList := by rw [h1]; decide
    rw [if_pos h1]
    by_cases h2 : i = Int.fdiv (o - k + s) s
    · rw [if_neg fun g => g h2]
      exact ⟨fun _ => Or.inl ⟨h1, h2⟩, fun _ => ⟨_, rfl⟩⟩
    · rw [if_pos h2]
      exact ⟨(fun ⟨p, h⟩ => by cases h), fun h => h.elim (fun h => (h2 h.2).elim) fun h => (h3 h.1).elim⟩
  · rw [if_neg h1]
    by_cases h3 : padding = "SAME".toList
    · rw [if_pos h3]
      by_cases h2 : i = Int.fdiv (o + s - 1) s
      · rw [if_neg fun g => g h2]
        exact ⟨fun _ => Or.inr ⟨h3, h2⟩, fun _ => ⟨_, rfl⟩⟩
      · rw [if_pos h2]
        exact ⟨(fun ⟨p, h⟩ => by cases h), fun h => h.elim (fun h => (h1 h.1).elim) fun h => (h2 h.2).elim⟩
    · rw [if_neg h3]
      exact ⟨(fun ⟨p, h⟩ => by cases h), fun h => h.elim (fun h => (h1 h.1).elim) fun h => (h3 h.1).elim⟩

example : computeAdjustedPadding 4 9 3 2 "VALID".toList = .ok (2, 2) ∧ computeAdjustedPadding 5 9 3 2 "VALID".toList = .error .value := by decide

/-- C49 is violated for an empty input: with kernel size 2 and stride 2 the requested size 1 is accepted for an input of size 0, and the output has size 2. -/
theorem transposed_empty : ConvNDTranspose.make 1 (.scalar 2) (.scalar 2) (.scalar 1) "VALID".toList = .ok ⟨1, [2], [1], [2], "VALID".toList⟩ ∧
    ConvNDTranspose.sizes ⟨1, [2], [1], [2], "VALID".toList⟩ [0] = .ok [2] := by decide

end Verif.Props.Conv
