import Verif.Lemmas.Picture

/-!
# Stages on pictures: what they compute and what their batch normalisations learn

Composition of the formulas of `Verif.Lemmas.Picture`.
-/

set_option linter.unusedVariables false
set_option linter.unusedSectionVars false

namespace Verif.Picture
open Verif.Shapes (Err)
open Verif.Pool (Arr)
open Verif.Conv (indices stringPad outSize)
open Verif.Mlp (ParamFn)
open Verif.ConvArr (Module)
open Verif.Props.Reset (Valid mem_indices)
open Verif.Props.Norm
open Verif.Norm
open Verif.ResNet
open Verif.Stage
open Finset (range)

variable {K : Type}

/-! ### Specification -/

/-- What a batch normalisation gets: its name, sizes and elements. -/
structure Seen (K : Type) where
  name : String
  H : Nat
  W : Nat
  C : Nat
  elements : Elements K

/-- The averages of what was seen were added to the stored ones, with decay `d`. -/
def Learned [Field K] (d : K) (N : Nat) (st st' : States K) (seen : List (Seen K)) : Prop :=
  ∀ b ∈ seen, Moved d b.C (st b.name).mean (st' b.name).mean (batchMean N b.H b.W b.elements) ∧ Moved d b.C (st b.name).var (st' b.name).var (batchVar N b.H b.W b.elements)

/-- The rows of zeros before a picture of `n` rows when the output has `⌈n / s⌉` rows: half of what is missing, rounded down. -/
def samePad (n k s : Nat) : Nat := ((up n s - 1) * s + k - n) / 2

/-- A convolution with a square kernel of size `k` and stride `s`, with zeros around the picture and without bias. -/
def sameSum [Semiring K] (get : ParamFn K) (name : String) (k s H W C ch : Nat) (f : Elements K) : Elements K := fun e h w c =>
  ∑ i ∈ range k, ∑ j ∈ range k, ∑ ci ∈ range C, par get name "w" [k, k, C, ch] [i, j, ci, c] * padded H W (fun h w => f e h w ci) (h * s + i - samePad H k s) (w * s + j - samePad W k s)

/-- An element of a picture, if it is inside. -/
def within (H W : Nat) (f : Nat → Nat → K) (h w : Int) : WithBot K := if 0 ≤ h ∧ h < H ∧ 0 ≤ w ∧ w < W then (f h.toNat w.toNat : K) else ⊥

/-- The greatest element of every window of size 3, with stride 2. -/
def poolMax [Zero K] [LinearOrder K] (H W : Nat) (f : Elements K) : Elements K := fun e h w c =>
  (((List.range 3).flatMap fun i => (List.range 3).map fun j => within H W (fun h w => f e h w c) (h * 2 + i - samePad H 3 2) (w * 2 + j - samePad W 3 2)).foldr max ⊥).unbotD 0

/-! ### Paddings and windows -/

theorem same_before {n k s : Nat} (hn : 1 ≤ n) (hk : 1 ≤ k) (hs : 1 ≤ s) : (stringPad true n k s).1 = (samePad n k s : Int) := by
  rw [Verif.Props.Pool.stringPad_before true n (k := k) (s := s) (by omega)]
  unfold Verif.Props.Pool.before samePad
  rw [if_pos rfl]
  have h1 : 1 ≤ up n s := by
    unfold up
    exact Nat.div_pos (by omega) (by omega)
  have h2 : ((n : Int) + s - 1) / s = (up n s : Nat) := by
    unfold up
    rw [Int.natCast_ediv]
    congr 1
    omega
  rw [h2, Int.natCast_ediv]
  congr 1
  have h3 : ((up n s : Nat) : Int) - 1 = ((up n s - 1 : Nat) : Int) := by omega
  rw [h3, ← Int.natCast_mul]
  omega

/-- The value is the greatest element of the window. -/
theorem poolMax_greatest [Zero K] [LinearOrder K] {H W : Nat} (f : Elements K) (e c : Nat) {h w : Nat} (hh : h < up H 2) (hw : w < up W 2) :
    (∃ a < H, ∃ b < W, h * 2 ≤ a + samePad H 3 2 ∧ a + samePad H 3 2 < h * 2 + 3 ∧ w * 2 ≤ b + samePad W 3 2 ∧ b + samePad W 3 2 < w * 2 + 3 ∧ poolMax H W f e h w c = f e a b c) ∧
    ∀ a < H, ∀ b < W, h * 2 ≤ a + samePad H 3 2 → a + samePad H 3 2 < h * 2 + 3 → w * 2 ≤ b + samePad W 3 2 → b + samePad W 3 2 < w * 2 + 3 → f e a b c ≤ poolMax H W f e h w c := by
  have gen : ∀ l : List (WithBot K), (∃ v : K, (v : WithBot K) ∈ l) → (((l.foldr max ⊥).unbotD 0 : K) : WithBot K) ∈ l ∧ ∀ v : K, (v : WithBot K) ∈ l → v ≤ (l.foldr max ⊥).unbotD 0 := by
    have le : ∀ (l : List (WithBot K)) (v : WithBot K), v ∈ l → v ≤ l.foldr max ⊥ := by
      intro l
      induction l with
      | nil => intro v h; cases h
      | cons a l ih =>
        intro v h
        rcases List.mem_cons.mp h with rfl | h
        · exact le_max_left _ _
        · exact (ih v h).trans (le_max_right _ _)
    have mem : ∀ l : List (WithBot K), l.foldr max ⊥ = ⊥ ∨ l.foldr max ⊥ ∈ l := by
      intro l
      induction l with
      | nil => exact .inl rfl
      | cons a l ih =>
        rcases le_total a (l.foldr max ⊥) with h | h
        · have e : (a :: l).foldr max ⊥ = l.foldr max ⊥ := max_eq_right h
          rw [e]
          exact ih.imp id (List.mem_cons_of_mem _)
        · have e : (a :: l).foldr max ⊥ = a := max_eq_left h
          rw [e]
          exact .inr List.mem_cons_self
    intro l ⟨v, hv⟩
    have h1 := le l v hv
    obtain ⟨m, hm⟩ : ∃ m : K, l.foldr max ⊥ = (m : WithBot K) := by
      cases hl : l.foldr max ⊥ with
      | bot =>
        rw [hl] at h1
        exact absurd (le_bot_iff.mp h1) (by exact WithBot.coe_ne_bot)
      | coe m => exact ⟨m, rfl⟩
    rw [hm]
    refine ⟨?_, fun v hv => ?_⟩
    · rcases mem l with h | h
      · rw [hm] at h; exact absurd h WithBot.coe_ne_bot
      · rwa [hm] at h
    · have := le l v hv
      rw [hm] at this
      exact WithBot.coe_le_coe.mp this
  have inl : ∀ v : K, (v : WithBot K) ∈ ((List.range 3).flatMap fun (i : Nat) => (List.range 3).map fun (j : Nat) => within H W (fun h w => f e h w c) (h * 2 + i - samePad H 3 2) (w * 2 + j - samePad W 3 2)) ↔
      ∃ a < H, ∃ b < W, h * 2 ≤ a + samePad H 3 2 ∧ a + samePad H 3 2 < h * 2 + 3 ∧ w * 2 ≤ b + samePad W 3 2 ∧ b + samePad W 3 2 < w * 2 + 3 ∧ v = f e a b c := by
    intro v
    rw [List.mem_flatMap]
    constructor
    · rintro ⟨i, hi, h⟩
      obtain ⟨j, hj, h⟩ := List.mem_map.mp h
      have hi := List.mem_range.mp hi
      have hj := List.mem_range.mp hj
      unfold within at h
      split at h
      · rename_i hc
        refine ⟨_, ?_, _, ?_, ?_, ?_, ?_, ?_, (WithBot.coe_inj.mp h).symm⟩ <;> omega
      · exact absurd h.symm WithBot.coe_ne_bot
    · rintro ⟨a, ha, b, hb, h1, h2, h3, h4, rfl⟩
      refine ⟨a + samePad H 3 2 - h * 2, List.mem_range.mpr (by omega), List.mem_map.mpr ⟨b + samePad W 3 2 - w * 2, List.mem_range.mpr (by omega), ?_⟩⟩
      unfold within
      have e1 : ((h : Int) * 2 + ((a + samePad H 3 2 - h * 2 : Nat) : Int) - samePad H 3 2) = a := by omega
      have e2 : ((w : Int) * 2 + ((b + samePad W 3 2 - w * 2 : Nat) : Int) - samePad W 3 2) = b := by omega
      rw [e1, e2, if_pos ⟨by omega, by omega, by omega, by omega⟩]
      rfl
  have pos : ∀ {n t : Nat}, t < up n 2 → ∃ a < n, t * 2 ≤ a + samePad n 3 2 ∧ a + samePad n 3 2 < t * 2 + 3 := by
    intro n t ht
    unfold samePad
    unfold up at ht ⊢
    by_cases h1 : t * 2 < n ∧ n ≤ t * 2 + 1
    · exact ⟨t * 2, h1.1, by omega, by omega⟩
    · exact ⟨t * 2, by omega, by omega, by omega⟩
  obtain ⟨a, ha, a1, a2⟩ := pos hh
  obtain ⟨b, hb, b1, b2⟩ := pos hw
  obtain ⟨g1, g2⟩ := gen _ ⟨f e a b c, (inl _).mpr ⟨a, ha, b, hb, a1, a2, b1, b2, rfl⟩⟩
  exact ⟨(inl _).mp g1, fun a ha b hb h1 h2 h3 h4 => g2 _ ((inl _).mpr ⟨a, ha, b, hb, h1, h2, h3, h4, rfl⟩)⟩

theorem maxPool_is [Field K] [LinearOrder K] {x : Arr K} {N H W C : Nat} {f : Elements K} (hx : Is x N H W C f) : ∃ y, maxPool x [1, 3, 3, 1] [1, 2, 2, 1] = .ok y ∧ Is y N (up H 2) (up W 2) C (poolMax H W f) := by
  have flat : ∀ n : Nat, outSize n 1 1 (stringPad true n 1 1).1 (stringPad true n 1 1).2 = (n : Int) := fun n => by
    have := same_size (n := n) (k := 1) (s := 1) (Nat.le_refl _) (Nat.le_refl _)
    unfold up at this
    rw [Nat.add_sub_cancel, Nat.div_one] at this
    exact this
  have pad0 : ∀ n : Nat, (stringPad true n 1 1).1 = 0 := fun n => by
    have h1 := Verif.Props.Pool.stringPad_before true n (k := 1) (s := 1) (Int.le_refl _)
    rw [h1]
    unfold Verif.Props.Pool.before
    rw [if_pos rfl, Int.ediv_one]
    rw [show max 0 (((n : Int) + 1 - 1 - 1) * 1 + 1 - n) = 0 by omega]
    rfl
  have two : ∀ n : Nat, outSize n 3 2 (stringPad true n 3 2).1 (stringPad true n 3 2).2 = (up n 2 : Int) := fun n => same_size (n := n) (k := 3) (s := 2) (by decide) (by decide)
  have run : maxPool x [1, 3, 3, 1] [1, 2, 2, 1] = .ok ⟨[N, up H 2, up W 2, C], fun t => ((indices [1, 3, 3, 1]).foldr (fun j acc =>
      max (((Verif.Pool.place [N, H, W, C] [1, 2, 2, 1] (Verif.Pool.pads true [N, H, W, C] [1, 3, 3, 1] [1, 2, 2, 1]) t j).map fun i => (x.val i : WithBot K)).getD ⊥) acc) ⊥).unbotD 0⟩ := by
    unfold maxPool Verif.Pool.maxPool
    rw [hx.shape]
    show Except.ok (Arr.mk [(outSize N 1 1 _ _).toNat, (outSize H 3 2 _ _).toNat, (outSize W 3 2 _ _).toNat, (outSize C 1 1 _ _).toNat] _) = _
    rw [flat, flat, two, two]
    rfl
  refine ⟨_, run, rfl, fun e he h hh w hw c hc => ?_⟩
  have sz : ∀ {n t : Nat}, t < up n 2 → 1 ≤ n := by
    intro n t ht
    unfold up at ht
    omega
  have at' : ∀ i j : Nat, ((Verif.Pool.place [N, H, W, C] [1, 2, 2, 1] (Verif.Pool.pads true [N, H, W, C] [1, 3, 3, 1] [1, 2, 2, 1]) [e, h, w, c] [0, i, j, 0]).map fun i => (x.val i : WithBot K)).getD ⊥ =
      within H W (fun h w => f e h w c) (h * 2 + i - samePad H 3 2) (w * 2 + j - samePad W 3 2) := by
    intro i j
    show ((Verif.Pool.place (N :: [H, W, C]) (1 :: [2, 2, 1]) (stringPad true N 1 1 :: stringPad true H 3 2 :: stringPad true W 3 2 :: [stringPad true C 1 1]) (e :: [h, w, c]) (0 :: [i, j, 0])).map _).getD ⊥ = _
    have b1 : (stringPad true H 3 2).1 = (samePad H 3 2 : Int) := same_before (n := H) (k := 3) (s := 2) (sz hh) (by decide) (by decide)
    have b2 : (stringPad true W 3 2).1 = (samePad W 3 2 : Int) := same_before (n := W) (k := 3) (s := 2) (sz hw) (by decide) (by decide)
    rw [Verif.Props.Pool.place_cons, Verif.Props.Pool.place_cons, Verif.Props.Pool.place_cons, Verif.Props.Pool.place_cons, pad0, pad0, b1, b2]
    have e1 : ((e : Int) * 1 - 0 + (0 : Nat)) = e := by omega
    have e4 : ((c : Int) * 1 - 0 + (0 : Nat)) = c := by omega
    have e2 : ((h : Int) * 2 - samePad H 3 2 + (i : Nat)) = h * 2 + i - samePad H 3 2 := by omega
    have e3 : ((w : Int) * 2 - samePad W 3 2 + (j : Nat)) = w * 2 + j - samePad W 3 2 := by omega
    rw [e1, e2, e3, e4, if_pos (show 0 ≤ (e : Int) ∧ (e : Int) < N by omega), if_pos (show 0 ≤ (c : Int) ∧ (c : Int) < C by omega)]
    unfold within
    by_cases k1 : 0 ≤ (h : Int) * 2 + i - samePad H 3 2 ∧ (h : Int) * 2 + i - samePad H 3 2 < H
    · by_cases k2 : 0 ≤ (w : Int) * 2 + j - samePad W 3 2 ∧ (w : Int) * 2 + j - samePad W 3 2 < W
      · rw [if_pos k1, if_pos k2, if_pos ⟨k1.1, k1.2, k2.1, k2.2⟩]
        exact congrArg _ (hx.val e he _ (by omega) _ (by omega) c hc)
      · rw [if_pos k1, if_neg k2, if_neg fun h => k2 ⟨h.2.2.1, h.2.2.2⟩]
        rfl
    · rw [if_neg k1, if_neg fun h => k1 ⟨h.1, h.2.1⟩]
      rfl
  dsimp only
  unfold poolMax
  rw [show indices [1, 3, 3, 1] = [[0, 0, 0, 0], [0, 0, 1, 0], [0, 0, 2, 0], [0, 1, 0, 0], [0, 1, 1, 0], [0, 1, 2, 0], [0, 2, 0, 0], [0, 2, 1, 0], [0, 2, 2, 0]] by decide]
  simp only [List.foldr_cons, List.foldr_nil, at']
  rfl

/-! ### Stages -/

section Does
variable [Field K] [LinearOrder K] {get : ParamFn K} {rsqrt : K → K} {tr tl : Bool} {d : K}

/-- A stage that treats examples alike and computes `V`; its batch normalisations get `S`, and their averages have decay `d`. -/
structure Does (tr tl : Bool) (d : K) (F : Stage K) (bns : List (String × Nat)) (H W C H' W' C' : Nat) (V : Nat → States K → Elements K → Elements K) (S : Nat → States K → Elements K → List (Seen K)) : Prop where
  good : Good tr tl F bns [H, W, C] [H', W', C']
  computes : Computes tr tl F bns H W C H' W' C' V
  loc : Local bns V
  locS : ∀ N st st' f, (∀ b ∈ bns, st b.1 = st' b.1) → S N st f = S N st' f
  names : ∀ N st f, ∀ b ∈ S N st f, (b.name, b.C) ∈ bns
  learns : tr = true → ∀ N st x f, Is x N H W C f → (∀ b ∈ bns, Ready tr tl b.2 (st b.1)) → ∀ y st', F st x = .ok (y, st') → Learned d N st st' (S N st f)

theorem Does.comp {F G : Stage K} {b1 b2 : List (String × Nat)} {H W C H1 W1 C1 H2 W2 C2 : Nat} {V1 V2 : Nat → States K → Elements K → Elements K} {S1 S2 : Nat → States K → Elements K → List (Seen K)}
    (h1 : Does tr tl d F b1 H W C H1 W1 C1 V1 S1) (h2 : Does tr tl d G b2 H1 W1 C1 H2 W2 C2 V2 S2) (hd : Apart b1 b2) :
    Does tr tl d (Verif.Stage.comp F G) (b1 ++ b2) H W C H2 W2 C2 (fun N st f => V2 N st (V1 N st f)) (fun N st f => S1 N st f ++ S2 N st (V1 N st f)) where
  good := good_comp h1.good h2.good hd
  computes := computes_comp h1.good h1.computes h2.computes h2.loc hd
  loc := fun N st st' f h => by
    show V2 N st (V1 N st f) = V2 N st' (V1 N st' f)
    rw [h1.loc N st st' f fun b hb => h b (List.mem_append_left _ hb), h2.loc N st st' _ fun b hb => h b (List.mem_append_right _ hb)]
  locS := fun N st st' f h => by
    show S1 N st f ++ S2 N st (V1 N st f) = S1 N st' f ++ S2 N st' (V1 N st' f)
    rw [h1.locS N st st' f fun b hb => h b (List.mem_append_left _ hb), h1.loc N st st' f fun b hb => h b (List.mem_append_left _ hb), h2.locS N st st' _ fun b hb => h b (List.mem_append_right _ hb)]
  names := fun N st f b hb => by
    rcases List.mem_append.mp hb with hb | hb
    · exact List.mem_append_left _ (h1.names N st f b hb)
    · exact List.mem_append_right _ (h2.names N st _ b hb)
  learns := fun htr N st x f hx hr z st2 hz => by
    have r1 : ∀ b ∈ b1, Ready tr tl b.2 (st b.1) := fun b hb => hr b (List.mem_append_left _ hb)
    obtain ⟨y, st1, k1, k2⟩ := h1.computes N st x f hx r1
    obtain ⟨y', st1', g1, g2, g3, -⟩ := h1.good N st x hx.shape r1
    obtain ⟨rfl, rfl⟩ : y' = y ∧ st1' = st1 := by
      have := Except.ok.inj (g1.symm.trans k1)
      exact ⟨congrArg Prod.fst this, congrArg Prod.snd this⟩
    have key : ∀ b ∈ b2, st1' b.1 = st b.1 := fun b hb => g3 _ fun h => hd _ h (List.mem_map_of_mem hb)
    have r2 : ∀ b ∈ b2, Ready tr tl b.2 (st1' b.1) := fun b hb => by rw [key b hb]; exact hr b (List.mem_append_right _ hb)
    obtain ⟨z', st2', j1, j2, j3, -⟩ := h2.good N st1' y' k2.shape r2
    have hz' : G st1' y' = .ok (z, st2) := (bind_eq k1).symm.trans hz
    obtain ⟨rfl, rfl⟩ : z' = z ∧ st2' = st2 := by
      have := Except.ok.inj (j1.symm.trans hz')
      exact ⟨congrArg Prod.fst this, congrArg Prod.snd this⟩
    intro b hb
    rcases List.mem_append.mp hb with hb | hb
    · have hm := h1.names N st f b hb
      rw [j3 b.name fun h => hd _ (List.mem_map_of_mem (f := Prod.fst) hm) h]
      exact h1.learns htr N st x f hx r1 _ _ k1 b hb
    · have hm := h2.names N st _ b hb
      rw [← key _ hm]
      exact h2.learns htr N st1' y' _ k2 r2 _ _ hz' b (by rw [h2.locS N st1' st _ key]; exact hb)

theorem Does.congr {F G : Stage K} {b : List (String × Nat)} {H W C H' W' C' : Nat} {V : Nat → States K → Elements K → Elements K} {S : Nat → States K → Elements K → List (Seen K)} (h : Does tr tl d G b H W C H' W' C' V S) (e : ∀ st x, F st x = G st x) :
    Does tr tl d F b H W C H' W' C' V S := by
  rw [show F = G from funext fun st => funext fun x => e st x]
  exact h

/-- A stage without states. -/
theorem Does.pure {F : Stage K} {H W C H' W' C' : Nat} {V : Elements K → Elements K} (h1 : Good tr tl F [] [H, W, C] [H', W', C']) (h2 : Computes tr tl F [] H W C H' W' C' fun _ _ f => V f) :
    Does tr tl d F [] H W C H' W' C' (fun _ _ f => V f) fun _ _ _ => [] :=
  ⟨h1, h2, fun _ _ _ _ _ => rfl, fun _ _ _ _ _ => rfl, fun _ _ _ b hb => absurd hb List.not_mem_nil, fun _ _ _ _ _ _ _ _ _ _ b hb => absurd hb List.not_mem_nil⟩

theorem Does.mem {F : Stage K} {b b' : List (String × Nat)} {H W C H' W' C' : Nat} {V : Nat → States K → Elements K → Elements K} {S : Nat → States K → Elements K → List (Seen K)} (h : Does tr tl d F b H W C H' W' C' V S) (e : b' = b) :
    Does tr tl d F b' H W C H' W' C' V S := e ▸ h

theorem Does.id (H W C : Nat) : Does tr tl d (fun st (x : Arr K) => .ok (x, st)) [] H W C H W C (fun _ _ f => f) fun _ _ _ => [] :=
  Does.pure (V := fun f => f) (good_id _) fun N st x f hx _ => ⟨x, st, rfl, hx⟩

theorem Does.relu (H W C : Nat) : Does tr tl d (lift fun x : Arr K => .ok (Verif.ResNet.relu x)) [] H W C H W C (fun _ _ f e h w c => max (f e h w c) 0) fun _ _ _ => [] :=
  Does.pure (V := fun f e h w c => max (f e h w c) 0) (good_relu _) fun N st x f hx _ => ⟨Verif.ResNet.relu x, st, rfl, relu_is hx⟩

theorem Does.pool (H W C : Nat) : Does tr tl d (lift fun x : Arr K => maxPool x [1, 3, 3, 1] [1, 2, 2, 1]) [] H W C (up H 2) (up W 2) C (fun _ _ f => poolMax H W f) fun _ _ _ => [] :=
  Does.pure good_maxPool (computes_lift fun N x f hx => maxPool_is hx)

/-- A convolution of a residual network. -/
theorem Does.conv {name : String} {k s C ch : Nat} (hk : 1 ≤ k) (hs : 1 ≤ s) (hp : There get (name, "w", [k, k, C, ch])) (H W : Nat) :
    Does tr tl d (lift ((convModule (K := K) name ch k s).call get)) [] H W C (up H s) (up W s) ch (fun _ _ f => sameSum get name k s H W C ch f) fun _ _ _ => [] := by
  refine Does.pure (V := fun f => sameSum get name k s H W C ch f) (good_conv2d hk hs hp) (computes_lift fun N x f hx => ?_)
  have hm : Module.make (K := K) name 2 ch (.scalar k) (.scalar s) (.scalar 1) (.str "SAME".toList) false "NHWC".toList none 1 = .ok (square name ch k s true false) := rfl
  obtain ⟨y, h1, h2⟩ := square_is hm hk hs ⟨hp, fun h => by cases h⟩ hx
  rw [outOf_same hk hs, outOf_same hk hs] at h2
  have sz : ∀ {n t : Nat}, t < up n s → 1 ≤ n := by
    intro n t ht
    refine Nat.pos_of_ne_zero fun h => ?_
    subst h
    unfold up at ht
    rw [Nat.div_eq_of_lt (by omega)] at ht
    omega
  refine ⟨y, h1, h2.shape, fun e he h hh w hw c hc => (h2.val e he h hh w hw c hc).trans ?_⟩
  unfold convAt sameSum
  rw [same_before (sz hh) hk hs, same_before (sz hw) hk hs]
  exact add_zero _

/-- A batch normalisation. -/
theorem Does.bn {m : BatchNorm K} (hm : Plain m) (hd : m.ema = ⟨d, true, 0⟩) {C : Nat} (hp : BnParams get m C) (H W : Nat) :
    Does tr tl d (runBn get rsqrt tr tl m) [(m.name, C)] H W C H W C (fun N st f => bnAt get rsqrt (tr || tl) m.createScale m.createOffset m.eps m.name st N H W C f) fun _ _ f => [⟨m.name, H, W, C, f⟩] where
  good := good_bn hm hp
  computes := fun N st x f hx hr => bn_is hm hp hx (hr _ (List.mem_singleton_self _))
  loc := fun N st st' f h => by
    have hs : st m.name = st' m.name := h (m.name, C) (List.mem_singleton_self _)
    unfold bnAt
    dsimp only
    rw [hs]
  locS := fun _ _ _ _ _ => rfl
  names := fun N st f b hb => by
    rw [List.mem_singleton.mp hb]
    exact List.mem_singleton_self _
  learns := fun htr N st x f hx hr y st' h => by
    subst htr
    obtain ⟨z, st'', z1, z2, z3⟩ := bn_moved (rsqrt := rsqrt) hm hd hp hx (hr _ (List.mem_singleton_self _))
    rw [z1] at h
    obtain rfl : st'' = st' := congrArg Prod.snd (Except.ok.inj h)
    intro b hb
    rw [List.mem_singleton.mp hb]
    exact ⟨z2, z3⟩

/-- The sum of two stages with the same input. -/
theorem Does.residual {F G : Stage K} {b1 b2 : List (String × Nat)} {H W C H' W' C' : Nat} {V1 V2 : Nat → States K → Elements K → Elements K} {S1 S2 : Nat → States K → Elements K → List (Seen K)}
    (h1 : Does tr tl d F b1 H W C H' W' C' V1 S1) (h2 : Does tr tl d G b2 H W C H' W' C' V2 S2) (hd : Apart b1 b2) :
    Does tr tl d (Verif.Stage.residual F G) (b1 ++ b2) H W C H' W' C' (fun N st f e h w c => V2 N st f e h w c + V1 N st f e h w c) (fun N st f => S1 N st f ++ S2 N st f) where
  good := good_residual h1.good h2.good hd
  computes := fun N st x f hx hr => by
    have r1 : ∀ b ∈ b1, Ready tr tl b.2 (st b.1) := fun b hb => hr b (List.mem_append_left _ hb)
    obtain ⟨y, st1, k1, k2⟩ := h1.computes N st x f hx r1
    obtain ⟨y', st1', g1, g2, g3, -⟩ := h1.good N st x hx.shape r1
    obtain ⟨rfl, rfl⟩ : y' = y ∧ st1' = st1 := by
      have := Except.ok.inj (g1.symm.trans k1)
      exact ⟨congrArg Prod.fst this, congrArg Prod.snd this⟩
    have key : ∀ b ∈ b2, st1' b.1 = st b.1 := fun b hb => g3 _ fun h => hd _ h (List.mem_map_of_mem hb)
    have r2 : ∀ b ∈ b2, Ready tr tl b.2 (st1' b.1) := fun b hb => by rw [key b hb]; exact hr b (List.mem_append_right _ hb)
    obtain ⟨z, st2, j1, j2⟩ := h2.computes N st1' x f hx r2
    obtain ⟨w, w1, w2, w3⟩ := zip_equal (f := (· + ·)) (x := z) (y := y') (k2.shape.trans j2.shape.symm)
    refine ⟨w, st2, (bind_eq k1).trans ((bind_eq j1).trans (bind_eq w1)), w2.trans j2.shape, fun e he a ha b hb c hc => ?_⟩
    rw [w3 _ (by rw [j2.shape]; exact .cons he (.cons ha (.cons hb (.cons hc .nil)))), j2.val e he a ha b hb c hc, k2.val e he a ha b hb c hc, h2.loc N st1' st f key]
  loc := fun N st st' f h => by
    show (fun e h w c => V2 N st f e h w c + V1 N st f e h w c) = fun e h w c => V2 N st' f e h w c + V1 N st' f e h w c
    rw [h1.loc N st st' f fun b hb => h b (List.mem_append_left _ hb), h2.loc N st st' _ fun b hb => h b (List.mem_append_right _ hb)]
  locS := fun N st st' f h => by
    show S1 N st f ++ S2 N st f = S1 N st' f ++ S2 N st' f
    rw [h1.locS N st st' f fun b hb => h b (List.mem_append_left _ hb), h2.locS N st st' _ fun b hb => h b (List.mem_append_right _ hb)]
  names := fun N st f b hb => by
    rcases List.mem_append.mp hb with hb | hb
    · exact List.mem_append_left _ (h1.names N st f b hb)
    · exact List.mem_append_right _ (h2.names N st _ b hb)
  learns := fun htr N st x f hx hr w st2 hw => by
    have r1 : ∀ b ∈ b1, Ready tr tl b.2 (st b.1) := fun b hb => hr b (List.mem_append_left _ hb)
    obtain ⟨y', st1', k1, k2, g3, -⟩ := h1.good N st x hx.shape r1
    have key : ∀ b ∈ b2, st1' b.1 = st b.1 := fun b hb => g3 _ fun h => hd _ h (List.mem_map_of_mem hb)
    have r2 : ∀ b ∈ b2, Ready tr tl b.2 (st1' b.1) := fun b hb => by rw [key b hb]; exact hr b (List.mem_append_right _ hb)
    obtain ⟨z', st2', j1, j2, j3, -⟩ := h2.good N st1' x hx.shape r2
    obtain ⟨w', w1, w2, w3⟩ := zip_equal (f := (· + ·)) (x := z') (y := y') (k2.trans j2.symm)
    have run : Verif.Stage.residual F G st x = .ok (w', st2') := (bind_eq k1).trans ((bind_eq j1).trans (bind_eq w1))
    obtain rfl : st2' = st2 := congrArg Prod.snd (Except.ok.inj (run.symm.trans hw))
    intro b hb
    rcases List.mem_append.mp hb with hb | hb
    · have hm := h1.names N st f b hb
      rw [j3 b.name fun h => hd _ (List.mem_map_of_mem (f := Prod.fst) hm) h]
      exact h1.learns htr N st x f hx r1 _ _ k1 b hb
    · have hm := h2.names N st _ b hb
      rw [← key _ hm]
      exact h2.learns htr N st1' x _ hx r2 _ _ j1 b (by rw [h2.locS N st1' st _ key]; exact hb)

end Does

end Verif.Picture
