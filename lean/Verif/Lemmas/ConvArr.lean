import Verif.Lemmas.Reshape
import Verif.Model.ConvArr
import Verif.Props.Conv
import Verif.Props.Norm

/-!
# Convolutions of arrays in terms of their examples
-/

set_option linter.unusedVariables false
set_option linter.unusedSectionVars false

namespace Verif.ConvArr
open Verif.Shapes (Err)
open Verif.Pool (Arr)
open Verif.Utils
open Verif.Nd (zip map broadcastTo BroadcastsTo broadcasts_refl)
open Verif.Mlp (ParamFn getParameter)
open Verif.Conv
open Verif.Props.Conv
open Verif.Props.Reset (Valid)
open Verif.Props.Norm (bind_eq bind_err zip_at broadcastTo_at spread spread_self)

variable {K : Type}

/-- The sizes or the position of one example: the channel before or after the spatial part. -/
def layout (first : Bool) (sp : List Nat) (c : Nat) : List Nat := if first then c :: sp else sp ++ [c]

/-- Example `e` of an array with spatial sizes `sp` and `C` channels. -/
def image (first : Bool) (sp : List Nat) (C : Nat) (x : Arr K) (e : Nat) : Image K := ⟨sp.map Int.ofNat, C, fun p c => x.val (e :: layout first (p.map Int.toNat) c)⟩

/-- The dimension numbers of an image. -/
def imageDn (first : Bool) (n : Nat) : List Nat := if first then [0, 1] ++ List.range' 2 n else [0, n + 1] ++ List.range' 1 n

theorem numbers (n : Nat) (first : Bool) : toDimensionNumbers n (!first) false = ⟨imageDn first n, [n + 1, n] ++ List.range n, imageDn first n⟩ := by
  cases first <;> rfl

theorem layout_length (first : Bool) (sp : List Nat) (c : Nat) : (layout first sp c).length = sp.length + 1 := by
  cases first
  · exact List.length_append
  · rfl

theorem imageDn_length (first : Bool) (n : Nat) : (imageDn first n).length = n + 2 := by
  cases first
  · show ([0, n + 1] ++ List.range' 1 n).length = n + 2
    rw [List.length_append, List.length_range']
    exact Nat.add_comm 2 n
  · show ([0, 1] ++ List.range' 2 n).length = n + 2
    rw [List.length_append, List.length_range']
    exact Nat.add_comm 2 n

theorem getD_eq (l : List Nat) (i : Nat) : l.getD i 0 = (l[i]?).getD 0 := List.getD_eq_getElem?_getD

theorem range'_map_getD (pre sp suf : List Nat) : (List.range' pre.length sp.length).map ((pre ++ (sp ++ suf)).getD · 0) = sp := by
  apply List.ext_getElem
  · rw [List.length_map, List.length_range']
  · intro i h1 h2
    rw [List.getElem_map, List.getElem_range', getD_eq, List.getElem?_append_right (by omega), Nat.one_mul, Nat.add_sub_cancel_left, List.getElem?_append_left h2, List.getElem?_eq_getElem h2]
    rfl

theorem pick_image {n : Nat} (first : Bool) (b c : Nat) {sp : List Nat} (h : sp.length = n) : pick (imageDn first n) (b :: layout first sp c) = b :: c :: sp := by
  subst h
  cases first
  · show pick ([0, sp.length + 1] ++ List.range' 1 sp.length) (b :: (sp ++ [c])) = b :: c :: sp
    unfold pick
    rw [List.map_append]
    have h1 := range'_map_getD [b] sp [c]
    have h2 : (b :: (sp ++ [c])).getD (sp.length + 1) 0 = c := by
      rw [getD_eq, List.getElem?_cons_succ, List.getElem?_append_right (Nat.le_refl _), Nat.sub_self]
      rfl
    show b :: (b :: (sp ++ [c])).getD (sp.length + 1) 0 :: (List.range' 1 sp.length).map ((b :: (sp ++ [c])).getD · 0) = _
    rw [h2]
    exact congrArg (fun l => b :: c :: l) h1
  · have h1 := range'_map_getD [b, c] sp []
    rw [List.append_nil] at h1
    show b :: c :: (List.range' 2 sp.length).map ((b :: c :: sp).getD · 0) = _
    exact congrArg (fun l => b :: c :: l) h1

theorem place_length (spec l : List Nat) : (place spec l).length = spec.length := by
  unfold place
  rw [List.length_map, List.length_range]

/-- `place` undoes `pick` for a permutation of the axes. -/
theorem place_pick {spec l : List Nat} (hn : spec.Nodup) (hlen : l.length = spec.length) (hall : ∀ a < spec.length, a ∈ spec) : place spec (pick spec l) = l := by
  unfold place
  apply List.ext_getElem
  · rw [List.length_map, List.length_range, hlen]
  · intro i h1 h2
    rw [List.getElem_map, List.getElem_range]
    have hmem : i ∈ spec := hall i (by omega)
    have hlt : spec.idxOf i < spec.length := List.idxOf_lt_length_iff.mpr hmem
    unfold pick
    rw [getD_eq, List.getElem?_map, List.getElem?_eq_getElem hlt, List.getElem_idxOf hlt]
    show l.getD i 0 = _
    rw [getD_eq, List.getElem?_eq_getElem h2]
    rfl

theorem imageDn_nodup (first : Bool) (n : Nat) : (imageDn first n).Nodup := by
  cases first
  · show ([0, n + 1] ++ List.range' 1 n).Nodup
    rw [List.nodup_append]
    refine ⟨?_, List.nodup_range', ?_⟩
    · simp
    · intro a ha b hb
      rw [List.mem_range'_1] at hb
      simp only [List.mem_cons, List.not_mem_nil, or_false] at ha
      omega
  · show ([0, 1] ++ List.range' 2 n).Nodup
    rw [List.nodup_append]
    refine ⟨by decide, List.nodup_range', ?_⟩
    intro a ha b hb
    rw [List.mem_range'_1] at hb
    simp only [List.mem_cons, List.not_mem_nil, or_false] at ha
    omega

theorem imageDn_all (first : Bool) (n a : Nat) (h : a < n + 2) : a ∈ imageDn first n := by
  cases first
  · show a ∈ [0, n + 1] ++ List.range' 1 n
    rw [List.mem_append, List.mem_range'_1]
    simp only [List.mem_cons, List.not_mem_nil, or_false]
    omega
  · show a ∈ [0, 1] ++ List.range' 2 n
    rw [List.mem_append, List.mem_range'_1]
    simp only [List.mem_cons, List.not_mem_nil, or_false]
    omega

theorem place_image {n : Nat} (first : Bool) (b c : Nat) {sp : List Nat} (h : sp.length = n) : place (imageDn first n) (b :: c :: sp) = b :: layout first sp c := by
  rw [← pick_image first b c h]
  refine place_pick (imageDn_nodup first n) ?_ (fun a ha => imageDn_all first n a (by rw [imageDn_length] at ha; exact ha))
  rw [imageDn_length, List.length_cons, layout_length, h]

theorem pick_kernel {n : Nat} (o i : Nat) {j : List Nat} (h : j.length = n) : pick ([n + 1, n] ++ List.range n) (j ++ [i, o]) = o :: i :: j := by
  subst h
  have h1 := range'_map_getD [] j [i, o]
  rw [List.length_nil, ← List.range_eq_range', List.nil_append] at h1
  have h2 : (j ++ [i, o]).getD (j.length + 1) 0 = o := by
    rw [getD_eq, List.getElem?_append_right (by omega), Nat.add_sub_cancel_left]
    rfl
  have h3 : (j ++ [i, o]).getD j.length 0 = i := by
    rw [getD_eq, List.getElem?_append_right (by omega), Nat.sub_self]
    rfl
  show (j ++ [i, o]).getD (j.length + 1) 0 :: (j ++ [i, o]).getD j.length 0 :: (List.range j.length).map ((j ++ [i, o]).getD · 0) = _
  rw [h2, h3, h1]

theorem place_kernel {n : Nat} (o i : Nat) {j : List Nat} (h : j.length = n) : place ([n + 1, n] ++ List.range n) (o :: i :: j) = j ++ [i, o] := by
  rw [← pick_kernel o i h]
  have hl : ([n + 1, n] ++ List.range n).length = n + 2 := by
    rw [List.length_append, List.length_range]
    exact Nat.add_comm 2 n
  refine place_pick ?_ ?_ ?_
  · rw [List.nodup_append]
    refine ⟨by simp, List.nodup_range, ?_⟩
    intro a ha b hb
    rw [List.mem_range] at hb
    simp only [List.mem_cons, List.not_mem_nil, or_false] at ha
    omega
  · rw [hl, List.length_append, h]
    rfl
  · intro a ha
    rw [hl] at ha
    rw [List.mem_append, List.mem_range]
    simp only [List.mem_cons, List.not_mem_nil, or_false]
    omega

theorem inside_length : ∀ {ns p : List Int}, inside ns p = true → p.length = ns.length
  | [], [], _ => rfl
  | n :: ns, p :: ps, h => by
    unfold inside at h
    rw [Bool.and_eq_true] at h
    rw [List.length_cons, List.length_cons, inside_length h.2]
  | [], _ :: _, h => by cases h
  | _ :: _, [], h => by cases h

theorem image_get {x : Arr K} [Zero K] {n B C : Nat} {first : Bool} {sp : List Nat} (hx : x.shape = B :: layout first sp C) (hsp : sp.length = n) (e : Nat) (p : List Int) (c : Nat) :
    (exampleOf (imageDn first n) x e).get p c = (image first sp C x e).get p c := by
  have hs : (exampleOf (imageDn first n) x e).sizes = sp.map Int.ofNat := by
    unfold exampleOf
    rw [hx, pick_image first B C hsp]
    rfl
  unfold Image.get
  rw [hs]
  by_cases hi : inside (sp.map Int.ofNat) p = true
  · rw [if_pos hi]
    refine Eq.trans ?_ (if_pos hi).symm
    show x.val (place (imageDn first n) (e :: c :: p.map Int.toNat)) = x.val (e :: layout first (p.map Int.toNat) c)
    rw [place_image first e c (by rw [List.length_map, inside_length hi, List.length_map, hsp])]
  · rw [if_neg hi]
    exact (if_neg hi).symm

theorem laxPads_length {padding : Padding} {sizes ks strides : List Int} {ps : List (Int × Int)} {n : Nat} (h : laxPads padding sizes ks strides = .ok ps) (h1 : sizes.length = n) (h2 : ks.length = n)
    (h3 : strides.length = n) : ps.length = n := by
  have hz (b : Bool) : (List.zipWith (fun nk s => stringPad b nk.1 nk.2 s) (sizes.zip ks) strides).length = n := by
    rw [List.length_zipWith, List.length_zip, h1, h2, h3, Nat.min_self, Nat.min_self]
  unfold laxPads at h
  cases padding with
  | pairs l =>
    by_cases hl : l.length = sizes.length
    · replace h := (if_pos hl).symm.trans h
      cases h
      omega
    · replace h := (if_neg hl).symm.trans h
      cases h
  | str s =>
    by_cases ha : s.map Char.toUpper = "SAME".toList
    · replace h := (if_pos ha).symm.trans h
      cases h
      exact hz true
    · replace h := (if_neg ha).symm.trans h
      by_cases hb : s.map Char.toUpper = "VALID".toList
      · replace h := (if_pos hb).symm.trans h
        cases h
        exact hz false
      · replace h := (if_neg hb).symm.trans h
        cases h

/-- The sum that a convolution computes at a position of one example. -/
def taps [AddCommMonoid K] [Mul K] (w : List Nat → Nat → Nat → K) (x : Image K) (kernel : List Nat) (strides dil : List Int) (ps : List (Int × Int)) (inGroup perGroup : Nat) (t : List Int) (c : Nat) : K :=
  ((indices kernel).map fun j => ((List.range inGroup).map fun ci => w j ci c * x.get (tap strides dil ps t j) (c / perGroup * inGroup + ci)).sum).sum

/-- `lax.conv_general_dilated` example by example. -/
theorem conv_examples [AddCommMonoid K] [Mul K] {x w : Arr K} {n B C I O g : Nat} {first : Bool} {sp kernel : List Nat} {strides dil : List Int} {padding : Padding} {ps : List (Int × Int)}
    (hx : x.shape = B :: layout first sp C) (hsp : sp.length = n) (hw : w.shape = kernel ++ [I, O]) (hk : kernel.length = n) (hs : strides.length = n) (hd : dil.length = n) (hs1 : ∀ s ∈ strides, 1 ≤ s)
    (hd1 : ∀ r ∈ dil, 1 ≤ r) (hg : g ≠ 0) (hC : C = I * g) (hO : O % g = 0) (hp : laxPads padding (sp.map Int.ofNat) (List.zipWith (fun k r => dilate k r) (kernel.map Int.ofNat) dil) strides = .ok ps) :
    ∃ y, convGeneralDilated x w strides padding dil ⟨imageDn first n, [n + 1, n] ++ List.range n, imageDn first n⟩ g = .ok y ∧
      y.shape = B :: layout first ((outSizes (sp.map Int.ofNat) (List.zipWith (fun k r => dilate k r) (kernel.map Int.ofNat) dil) strides ps).map Int.toNat) O ∧
      ∀ (e : Nat) (t : List Nat) (c : Nat), t.length = n →
        y.val (e :: layout first t c) = taps (fun j ci c => w.val (j ++ [ci, c])) (image first sp C x e) kernel strides dil ps I (O / g) (t.map Int.ofNat) c := by
  have hpl := laxPads_length hp (by rw [List.length_map, hsp]) (by rw [List.length_zipWith, List.length_map, hk, hd, Nat.min_self]) hs
  have hol : (outSizes (sp.map Int.ofNat) (List.zipWith (fun k r => dilate k r) (kernel.map Int.ofNat) dil) strides ps).length = n :=
    outSizes_length _ _ _ _ n (by rw [List.length_map, hsp]) (by rw [List.length_zipWith, List.length_map, hk, hd, Nat.min_self]) hs hpl
  unfold convGeneralDilated
  have e1 : ¬ (x.shape.length ≠ strides.length + 2 ∨ w.shape.length ≠ strides.length + 2 ∨ dil.length ≠ strides.length) := by
    rw [hx, hw, List.length_cons, layout_length, List.length_append, hsp, hk, hs, hd]
    rintro (h | h | h)
    · exact h rfl
    · exact h rfl
    · exact h rfl
  have e2 : ¬ (strides.any (· ≤ 0) = true ∨ dil.any (· ≤ 0) = true) := by
    simp only [List.any_eq_true, decide_eq_true_eq]
    rintro (⟨s, h, k⟩ | ⟨s, h, k⟩)
    · have := hs1 s h; omega
    · have := hd1 s h; omega
  rw [if_neg e1, if_neg e2]
  dsimp only
  rw [hx, hw, pick_image first B C hsp, pick_kernel O I hk]
  have e3 : ¬ (g = 0 ∨ (B :: C :: sp).getD 1 0 ≠ (O :: I :: kernel).getD 1 0 * g ∨ (O :: I :: kernel).getD 0 0 % g ≠ 0) := by
    rintro (h | h | h)
    · exact hg h
    · exact h hC
    · exact h hO
  rw [if_neg e3]
  rw [bind_eq (show laxPads padding (((B :: C :: sp).drop 2).map Int.ofNat) (List.zipWith (fun k r => dilate k r) (((O :: I :: kernel).drop 2).map Int.ofNat) dil) strides = .ok ps from hp)]
  refine ⟨_, rfl, ?_, ?_⟩
  · exact place_image first B O (by rw [List.length_map]; exact hol)
  · intro e t c ht
    dsimp only
    rw [pick_image first e c ht]
    unfold taps
    refine congrArg List.sum (List.map_congr_left fun j hj => congrArg List.sum (List.map_congr_left fun ci hci => ?_))
    have hj' : j.length = n := by
      have := (indices_get hj).1
      rw [this]
      exact hk
    show w.val (place ([n + 1, n] ++ List.range n) (c :: ci :: j)) * (exampleOf (imageDn first n) x e).get (tap strides dil ps (t.map Int.ofNat) j) (c / (O / g) * I + ci) = _
    rw [place_kernel c ci hj', image_get hx hsp]

theorem layout_valid {first : Bool} {sp t : List Nat} {C c : Nat} (ht : Valid sp t) (hc : c < C) : Valid (layout first sp C) (layout first t c) := by
  cases first
  · exact Verif.Nd.valid_append ht (.cons hc .nil)
  · exact .cons hc ht

/-- The shape of a bias. -/
def biasShape (first : Bool) (n O : Nat) : List Nat := if first then O :: List.replicate n 1 else [O]

/-- Where a bias keeps the element of a channel. -/
def biasIndex (first : Bool) (n c : Nat) : List Nat := if first then c :: List.replicate n 0 else [c]

theorem replicate_forall : ∀ (out : List Nat), List.Forall₂ (fun d n => d = 1 ∨ d = n) (List.replicate out.length 1) out
  | [] => .nil
  | _ :: out => .cons (.inl rfl) (replicate_forall out)

theorem bias_broadcasts (first : Bool) (B O : Nat) (out : List Nat) : BroadcastsTo (biasShape first out.length O) (B :: layout first out O) := by
  cases first
  · exact ⟨B :: out, [O], rfl, .cons (.inr rfl) .nil⟩
  · exact ⟨[B], O :: out, rfl, .cons (.inr rfl) (replicate_forall out)⟩

theorem zip_ones : ∀ (t : List Nat), List.zipWith (fun d j => if d = 1 then 0 else j) (List.replicate t.length 1) t = List.replicate t.length 0
  | [] => rfl
  | a :: t => congrArg (0 :: ·) (zip_ones t)

theorem bias_spread {b : Arr K} {first : Bool} {n O : Nat} (hb : b.shape = biasShape first n O) (e : Nat) {t : List Nat} {c : Nat} (ht : t.length = n) (hc : c < O) :
    spread b (e :: layout first t c) = b.val (biasIndex first n c) := by
  have h1 : (if O = 1 then 0 else c) = c := by
    by_cases h : O = 1
    · rw [if_pos h]; omega
    · rw [if_neg h]
  unfold spread
  refine congrArg b.val ?_
  subst ht
  cases first
  · rw [hb]
    show List.zipWith (fun d j => if d = 1 then 0 else j) [O] ((e :: (t ++ [c])).drop ((e :: (t ++ [c])).length - 1)) = [c]
    have : (e :: (t ++ [c])).drop ((e :: (t ++ [c])).length - 1) = [c] := by
      rw [List.length_cons, Nat.add_sub_cancel, List.length_append, List.length_singleton, List.drop_succ_cons, List.drop_left]
    rw [this]
    exact congrArg (· :: []) h1
  · rw [hb]
    show List.zipWith (fun d j => if d = 1 then 0 else j) (O :: List.replicate t.length 1) ((e :: c :: t).drop ((e :: c :: t).length - (O :: List.replicate t.length 1).length)) = c :: List.replicate t.length 0
    have : (e :: c :: t).length - (O :: List.replicate t.length 1).length = 1 := by
      rw [List.length_cons, List.length_cons, List.length_cons, List.length_replicate]
      omega
    rw [this]
    show (if O = 1 then 0 else c) :: List.zipWith (fun d j => if d = 1 then 0 else j) (List.replicate t.length 1) t = _
    rw [h1, zip_ones]

/-- The bias that is added to a channel. -/
def biasOf [Zero K] (withBias first : Bool) (n : Nat) (b : Arr K) (c : Nat) : K := if withBias then b.val (biasIndex first n c) else 0

/-- Adding the bias. -/
theorem biased_examples [AddCommMonoid K] {get : ParamFn K} {module : String} {withBias first : Bool} {y b : Arr K} {B O : Nat} {out : List Nat} (hy : y.shape = B :: layout first out O)
    (hb : withBias = true → get module "b" (biasShape first out.length O) = .ok b ∧ b.shape = biasShape first out.length O) :
    ∃ z, biased get module withBias (biasShape first out.length O) y = .ok z ∧ z.shape = y.shape ∧
      ∀ (e : Nat) (t : List Nat) (c : Nat), e < B → Valid out t → c < O → z.val (e :: layout first t c) = y.val (e :: layout first t c) + biasOf withBias first out.length b c := by
  unfold biased biasOf
  cases withBias with
  | false => exact ⟨y, rfl, rfl, fun e t c _ _ _ => (add_zero _).symm⟩
  | true =>
    obtain ⟨h1, h2⟩ := hb rfl
    have hg : getParameter get module "b" (biasShape first out.length O) = .ok b := by
      unfold getParameter
      rw [bind_eq h1, if_pos h2]
    obtain ⟨b', h3, h4, h5⟩ := broadcastTo_at (x := b) (s := y.shape) (by rw [h2, hy]; exact bias_broadcasts first B O out)
    obtain ⟨z, h6, h7, h8⟩ := zip_at (f := (· + ·)) (x := y) (y := b') (by rw [h4]; exact broadcasts_refl _)
    refine ⟨z, ?_, h7, ?_⟩
    · rw [if_pos rfl, bind_eq hg, bind_eq h3]
      exact h6
    · intro e t c he ht hc
      have hv : Valid y.shape (e :: layout first t c) := by
        rw [hy]
        exact .cons he (layout_valid ht hc)
      rw [h8 _ hv, spread_self (by rw [h4]; exact hv), h5, bias_spread h2 e ht.length_eq hc, if_pos rfl]

end Verif.ConvArr
