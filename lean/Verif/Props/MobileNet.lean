import Verif.Model.MobileNet
import Verif.Lemmas.Flow
import Verif.Props.ResNetStart

/-!
# MobileNetV1: which sizes go through, what is computed, and which states change

Theorems about `Verif.Model.MobileNet`.
-/

set_option linter.unusedVariables false
set_option linter.unusedSectionVars false

namespace Verif.Props.MobileNet
open Verif.Shapes (Err)
open Verif.Pool (Arr)
open Verif.Mlp (ParamFn Linear)
open Verif.ConvArr (Module Depthwise)
open Verif.Norm (BatchNorm BnState)
open Verif.Props.Reset (Valid)
open Verif.Props.Conv (bind_ok)
open Verif.Props.Norm (bind_eq bind_err)
open Verif.ResNet (States runBn relu spatialMean index)
open Verif.Stage
open Verif.Picture
open Verif.MobileNet
open Verif.Props.ResNet (Param bnParams good_congr good_mem num_slash append_inj differ apart_of_nodup nodup_left nodup_right nodup_keys key bn_key bn_keys up_one anyGet anyGet_there)
open Finset (range)

variable {K : Type}

/-! ### Specification: names, parameters, sizes and elements -/

/-- The name of block number `i`. -/
def blockName (name : String) (i : Nat) : String := name ++ "/mobile_net_v1_block" ++ if i = 0 then "" else "_" ++ toString i

/-- The parameters of a convolution with `n` output channels and of what follows it: a batch normalisation, or otherwise the bias of the convolution. -/
def convParams (useBn : Bool) (conv bn : String) (shape : List Nat) (n : Nat) : List Param := (conv, "w", shape) :: if useBn then bnParams true true bn n else [(conv, "b", [n])]

/-- The parameters of a block. -/
def blockParams (useBn : Bool) (name : String) (cin ch : Nat) : List Param :=
  convParams useBn (name ++ "/depthwise_conv") (name ++ "/batch_norm") [3, 3, 1, cin] cin ++ convParams useBn (name ++ "/pointwise_conv") (name ++ "/batch_norm_1") [1, 1, cin, ch] ch

/-- The parameters of the blocks from number `i` on. -/
def blocksParams (useBn : Bool) (name : String) : Nat → Nat → List Nat → List Param
  | _, _, [] => []
  | cin, i, ch :: rest => blockParams useBn (blockName name i) cin ch ++ blocksParams useBn name ch (i + 1) rest

/-- The parameters of a network for pictures of `cin` channels. -/
def netParams (name : String) (useBn : Bool) (channels : List Nat) (numClasses cin : Nat) : List Param :=
  convParams useBn (name ++ "/conv2_d") (name ++ "/batch_norm") [3, 3, cin, 32] 32 ++ (blocksParams useBn name 32 0 channels ++ [(name ++ "/logits", "w", [channels.getLastD 32, numClasses]), (name ++ "/logits", "b", [numClasses])])

/-- The batch normalisations of a block. -/
def blockBns (useBn : Bool) (name : String) (cin ch : Nat) : List (String × Nat) := if useBn then [(name ++ "/batch_norm", cin), (name ++ "/batch_norm_1", ch)] else []

/-- The batch normalisations of the blocks from number `i` on. -/
def blocksBns (useBn : Bool) (name : String) : Nat → Nat → List Nat → List (String × Nat)
  | _, _, [] => []
  | cin, i, ch :: rest => blockBns useBn (blockName name i) cin ch ++ blocksBns useBn name ch (i + 1) rest

/-- The batch normalisations of a network, with their channels. -/
def netBns (name : String) (useBn : Bool) (channels : List Nat) : List (String × Nat) := (if useBn then [(name ++ "/batch_norm", 32)] else []) ++ blocksBns useBn name 32 0 channels

/-- The size after blocks with these strides. -/
def sizeAfter (n : Nat) (strides : List Int) : Nat := strides.foldl (fun n s => up n s.toNat) n

/-- The blocks can run: the strides are positive, and none of the inputs is without channels. -/
def Sound : Nat → List (Int × Nat) → Prop
  | _, [] => True
  | cin, (s, ch) :: rest => 1 ≤ s ∧ cin ≠ 0 ∧ Sound ch rest

/-- The bias of a convolution that no batch normalisation follows. -/
def biasAt [Zero K] (get : ParamFn K) (useBn : Bool) (name : String) (n c : Nat) : K := if useBn then 0 else par get name "b" [n] [c]

/-- A batch normalisation, if there is one, and `relu`. -/
def actAt [Field K] [LinearOrder K] (get : ParamFn K) (rsqrt : K → K) (tr useBn : Bool) (name : String) (N H W C : Nat) (st : States K) (f : Elements K) : Elements K := fun e h w c =>
  max (if useBn then bnAt get rsqrt tr true true (1 / 100000) name st N H W C f e h w c else f e h w c) 0

/-- A depthwise convolution with a kernel of size 3, with one row or column of zeros on each side. -/
def depthSum [Field K] (get : ParamFn K) (useBn : Bool) (name : String) (s H W C : Nat) (f : Elements K) : Elements K := fun e h w c =>
  (∑ i ∈ range 3, ∑ j ∈ range 3, par get name "w" [3, 3, 1, C] [i, j, 0, c] * padded H W (fun h w => f e h w c) (h * s + i - 1) (w * s + j - 1)) + biasAt get useBn name C c

/-- A sum over all channels at each position. -/
def pointSum [Field K] (get : ParamFn K) (useBn : Bool) (name : String) (C ch : Nat) (f : Elements K) : Elements K := fun e h w c =>
  (∑ ci ∈ range C, par get name "w" [1, 1, C, ch] [0, 0, ci, c] * f e h w ci) + biasAt get useBn name ch c

/-- A convolution with a kernel of size 3 and stride 2 inside the picture, to 32 channels. -/
def firstSum [Field K] (get : ParamFn K) (useBn : Bool) (name : String) (C : Nat) (f : Elements K) : Elements K := fun e h w c =>
  (∑ i ∈ range 3, ∑ j ∈ range 3, ∑ ci ∈ range C, par get name "w" [3, 3, C, 32] [i, j, ci, c] * f e (2 * h + i) (2 * w + j) ci) + biasAt get useBn name 32 c

/-- The first half of a block. -/
def halfAt [Field K] [LinearOrder K] (get : ParamFn K) (rsqrt : K → K) (tr useBn : Bool) (name : String) (s H W C N : Nat) (st : States K) (f : Elements K) : Elements K :=
  actAt get rsqrt tr useBn (name ++ "/batch_norm") N (up H s) (up W s) C st (depthSum get useBn (name ++ "/depthwise_conv") s H W C f)

/-- A block: a depthwise convolution, then the sums over all channels, each followed by normalisation and `relu`. -/
def blockAt [Field K] [LinearOrder K] (get : ParamFn K) (rsqrt : K → K) (tr useBn : Bool) (name : String) (s H W C ch N : Nat) (st : States K) (f : Elements K) : Elements K :=
  actAt get rsqrt tr useBn (name ++ "/batch_norm_1") N (up H s) (up W s) ch st (pointSum get useBn (name ++ "/pointwise_conv") C ch (halfAt get rsqrt tr useBn name s H W C N st f))

/-- The blocks from number `i` on. -/
def blocksAt [Field K] [LinearOrder K] (get : ParamFn K) (rsqrt : K → K) (tr useBn : Bool) (name : String) : Nat → Nat → Nat → Nat → List (Int × Nat) → Nat → States K → Elements K → Elements K
  | _, _, _, _, [], _, _, f => f
  | H, W, C, i, (s, ch) :: rest, N, st, f => blocksAt get rsqrt tr useBn name (up H s.toNat) (up W s.toNat) ch (i + 1) rest N st (blockAt get rsqrt tr useBn (blockName name i) s.toNat H W C ch N st f)

/-- The first convolution, normalisation and `relu`. -/
def firstAt [Field K] [LinearOrder K] (get : ParamFn K) (rsqrt : K → K) (tr useBn : Bool) (name : String) (H W C N : Nat) (st : States K) (f : Elements K) : Elements K :=
  actAt get rsqrt tr useBn (name ++ "/batch_norm") N ((H - 1) / 2) ((W - 1) / 2) 32 st (firstSum get useBn (name ++ "/conv2_d") C f)

/-- The output of the network: the averages of the channels and a linear layer. -/
def netAt [Field K] [LinearOrder K] (get : ParamFn K) (rsqrt : K → K) (tr useBn : Bool) (name : String) (blocks : List (Int × Nat)) (numClasses H W C N : Nat) (st : States K) (f : Elements K) (e k : Nat) : K :=
  let g := blocksAt get rsqrt tr useBn name ((H - 1) / 2) ((W - 1) / 2) 32 0 blocks N st (firstAt get rsqrt tr useBn name H W C N st f)
  let h := sizeAfter ((H - 1) / 2) (blocks.map Prod.fst)
  let w := sizeAfter ((W - 1) / 2) (blocks.map Prod.fst)
  let n := (blocks.map Prod.snd).getLastD 32
  (∑ c ∈ range n, pictureMean h w g e c * par get (name ++ "/logits") "w" [n, numClasses] [c, k]) + par get (name ++ "/logits") "b" [numClasses] [k]

/-- What the batch normalisations of a block get. -/
def blockSeen [Field K] [LinearOrder K] (get : ParamFn K) (rsqrt : K → K) (tr useBn : Bool) (name : String) (s H W C ch N : Nat) (st : States K) (f : Elements K) : List (Seen K) :=
  if useBn then [⟨name ++ "/batch_norm", up H s, up W s, C, depthSum get useBn (name ++ "/depthwise_conv") s H W C f⟩,
    ⟨name ++ "/batch_norm_1", up H s, up W s, ch, pointSum get useBn (name ++ "/pointwise_conv") C ch (halfAt get rsqrt tr useBn name s H W C N st f)⟩]
  else []

/-- What the batch normalisations of the blocks from number `i` on get. -/
def blocksSeen [Field K] [LinearOrder K] (get : ParamFn K) (rsqrt : K → K) (tr useBn : Bool) (name : String) : Nat → Nat → Nat → Nat → List (Int × Nat) → Nat → States K → Elements K → List (Seen K)
  | _, _, _, _, [], _, _, _ => []
  | H, W, C, i, (s, ch) :: rest, N, st, f => blockSeen get rsqrt tr useBn (blockName name i) s.toNat H W C ch N st f ++
    blocksSeen get rsqrt tr useBn name (up H s.toNat) (up W s.toNat) ch (i + 1) rest N st (blockAt get rsqrt tr useBn (blockName name i) s.toNat H W C ch N st f)

/-- What the batch normalisations of a network get. -/
def netSeen [Field K] [LinearOrder K] (get : ParamFn K) (rsqrt : K → K) (tr useBn : Bool) (name : String) (blocks : List (Int × Nat)) (H W C N : Nat) (st : States K) (f : Elements K) : List (Seen K) :=
  (if useBn then [⟨name ++ "/batch_norm", (H - 1) / 2, (W - 1) / 2, 32, firstSum get useBn (name ++ "/conv2_d") C f⟩] else []) ++
    blocksSeen get rsqrt tr useBn name ((H - 1) / 2) ((W - 1) / 2) 32 0 blocks N st (firstAt get rsqrt tr useBn name H W C N st f)

/-! ### Names -/

theorem numbered_eq (name : String) (i : Nat) : name ++ "/" ++ numbered "mobile_net_v1_block" i = blockName name i := by
  unfold numbered blockName
  rw [show "/mobile_net_v1_block" = "/" ++ "mobile_net_v1_block" from rfl]
  split <;> simp only [String.append_assoc, String.append_empty]

theorem block_number {name r r' : String} {i j : Nat} (h : blockName name i ++ "/" ++ r = blockName name j ++ "/" ++ r') : i = j := by
  unfold blockName at h
  by_cases hi : i = 0
  · by_cases hj : j = 0
    · rw [hi, hj]
    · rw [if_pos hi, if_neg hj] at h
      refine absurd ?_ (differ (a := name ++ "/mobile_net_v1_block") (b := "/") (b' := "_") (c := '/') (d := '_') rfl rfl (by decide) r (toString j ++ "/" ++ r'))
      simpa only [String.append_assoc, String.append_empty, String.empty_append] using h
  · by_cases hj : j = 0
    · rw [if_neg hi, if_pos hj] at h
      refine absurd ?_ (differ (a := name ++ "/mobile_net_v1_block") (b := "_") (b' := "/") (c := '_') (d := '/') rfl rfl (by decide) (toString i ++ "/" ++ r) r')
      simpa only [String.append_assoc, String.append_empty, String.empty_append] using h
    · rw [if_neg hi, if_neg hj] at h
      refine num_slash (a := name ++ "/mobile_net_v1_block" ++ "_") (r := r) (r' := r') ?_
      simpa only [String.append_assoc] using h

theorem bn_below {useBn : Bool} {name : String} {cin ch : Nat} {s : String} (h : s ∈ (blockBns useBn name cin ch).map Prod.fst) : ∃ r, s = name ++ "/" ++ r := by
  unfold blockBns at h
  cases useBn with
  | false => cases h
  | true =>
    rcases List.mem_cons.mp h with rfl | h
    · exact ⟨"batch_norm", by rw [String.append_assoc]; rfl⟩
    · rw [List.mem_singleton.mp h]
      exact ⟨"batch_norm_1", by rw [String.append_assoc]; rfl⟩

theorem bns_below {useBn : Bool} {name : String} : ∀ {chs : List Nat} {cin i : Nat} {s : String}, s ∈ (blocksBns useBn name cin i chs).map Prod.fst → ∃ j r, i ≤ j ∧ s = blockName name j ++ "/" ++ r
  | [], _, _, _, h => absurd h List.not_mem_nil
  | ch :: rest, cin, i, s, h => by
    unfold blocksBns at h
    rw [List.map_append] at h
    rcases List.mem_append.mp h with h | h
    · obtain ⟨r, rfl⟩ := bn_below h
      exact ⟨i, r, Nat.le_refl _, rfl⟩
    · obtain ⟨j, r, hj, rfl⟩ := bns_below h
      exact ⟨j, r, by omega, rfl⟩

theorem block_nodup (useBn : Bool) (name : String) (cin ch : Nat) : ((blockBns useBn name cin ch).map Prod.fst).Nodup := by
  cases useBn with
  | false => exact List.nodup_nil
  | true =>
    refine List.nodup_cons.mpr ⟨fun h => ?_, List.nodup_singleton _⟩
    have := append_inj (List.mem_singleton.mp h)
    exact absurd this (by decide)

theorem blocks_nodup (useBn : Bool) (name : String) : ∀ (chs : List Nat) (cin i : Nat), ((blocksBns useBn name cin i chs).map Prod.fst).Nodup
  | [], _, _ => List.nodup_nil
  | ch :: rest, cin, i => by
    unfold blocksBns
    rw [List.map_append]
    refine List.nodup_append'.mpr ⟨block_nodup .., blocks_nodup useBn name rest ch (i + 1), fun s h1 h2 => ?_⟩
    obtain ⟨r, rfl⟩ := bn_below h1
    obtain ⟨j, r', hj, h⟩ := bns_below h2
    have := block_number h
    omega

/-- What is below a block is not a layer of the network itself. -/
theorem inner_ne {name : String} {j : Nat} {r b : String} {c : Char} {l : List Char} (hb : b.toList = c :: l) (hc : c ≠ 'm') : blockName name j ++ "/" ++ r ≠ name ++ "/" ++ b := fun h => by
  refine differ (a := name ++ "/") (b := "mobile_net_v1_block") (b' := b) (c := 'm') rfl hb hc.symm ((if j = 0 then "" else "_" ++ toString j) ++ "/" ++ r) "" ?_
  rw [String.append_empty, ← h]
  unfold blockName
  rw [show "/mobile_net_v1_block" = "/" ++ "mobile_net_v1_block" from rfl]
  simp only [String.append_assoc]

/-- C126: all batch normalisations of a network have different names. -/
theorem net_nodup (name : String) (useBn : Bool) (channels : List Nat) : ((netBns name useBn channels).map Prod.fst).Nodup := by
  unfold netBns
  cases useBn with
  | false => exact blocks_nodup ..
  | true =>
    rw [List.map_append]
    refine List.nodup_append'.mpr ⟨List.nodup_singleton _, blocks_nodup .., fun s h1 h2 => ?_⟩
    obtain ⟨j, r, _, rfl⟩ := bns_below h2
    refine inner_ne (b := "batch_norm") (c := 'b') rfl (by decide) ((List.mem_singleton.mp h1).trans ?_)
    rw [String.append_assoc]; rfl

theorem params_below {useBn : Bool} {name : String} {cin ch : Nat} {p : Param} (h : p ∈ blockParams useBn name cin ch) : ∃ r, p.1 = name ++ "/" ++ r := by
  have e : ∀ (conv bn : String) (shape : List Nat) (n : Nat), p ∈ convParams useBn (name ++ ("/" ++ conv)) (name ++ ("/" ++ bn)) shape n → ∃ r, p.1 = name ++ "/" ++ r := by
    intro conv bn shape n h
    rcases List.mem_cons.mp h with rfl | h
    · exact ⟨conv, by rw [String.append_assoc]⟩
    cases useBn with
    | true => exact ⟨bn, by rw [bn_key h, String.append_assoc]⟩
    | false => rw [List.mem_singleton.mp h]; exact ⟨conv, by rw [String.append_assoc]⟩
  rcases List.mem_append.mp h with h | h
  · exact e "depthwise_conv" "batch_norm" _ _ h
  · exact e "pointwise_conv" "batch_norm_1" _ _ h

theorem blockParams_below {useBn : Bool} {name : String} : ∀ {chs : List Nat} {cin i : Nat} {p : Param}, p ∈ blocksParams useBn name cin i chs → ∃ j r, i ≤ j ∧ p.1 = blockName name j ++ "/" ++ r
  | [], _, _, _, h => absurd h List.not_mem_nil
  | ch :: rest, cin, i, p, h => by
    unfold blocksParams at h
    rcases List.mem_append.mp h with h | h
    · obtain ⟨r, e⟩ := params_below h
      exact ⟨i, r, Nat.le_refl _, e⟩
    · obtain ⟨j, r, hj, e⟩ := blockParams_below h
      exact ⟨j, r, by omega, e⟩

theorem conv_nodup (useBn : Bool) {conv bn : String} (h : conv ≠ bn) (shape : List Nat) (n : Nat) : ((convParams useBn conv bn shape n).map key).Nodup := by
  unfold convParams
  cases useBn with
  | true =>
    refine nodup_keys (a := [(conv, "w", shape)]) (List.nodup_singleton _) (bn_keys ..) fun p hp q hq e => h ?_
    rw [List.mem_singleton.mp hp, bn_key hq] at e
    exact e
  | false => simp [key]

theorem conv_module {useBn : Bool} {conv bn : String} {shape : List Nat} {n : Nat} {p : Param} (h : p ∈ convParams useBn conv bn shape n) : p.1 = conv ∨ p.1 = bn := by
  rcases List.mem_cons.mp h with rfl | h
  · exact .inl rfl
  cases useBn with
  | true => exact .inr (bn_key h)
  | false => rw [List.mem_singleton.mp h]; exact .inl rfl

theorem blockParams_nodup (useBn : Bool) (name : String) (cin ch : Nat) : ((blockParams useBn name cin ch).map key).Nodup := by
  have ne : ∀ {s t : String}, s ≠ t → name ++ s ≠ name ++ t := fun h e => h (append_inj e)
  refine nodup_keys (conv_nodup useBn (ne (by decide)) _ _) (conv_nodup useBn (ne (by decide)) _ _) fun p hp q hq => ?_
  rcases conv_module hp with e | e <;> rcases conv_module hq with e' | e' <;> rw [e, e'] <;> exact ne (by decide)

theorem blocksParams_nodup (useBn : Bool) (name : String) : ∀ (chs : List Nat) (cin i : Nat), ((blocksParams useBn name cin i chs).map key).Nodup
  | [], _, _ => List.nodup_nil
  | ch :: rest, cin, i => nodup_keys (blockParams_nodup ..) (blocksParams_nodup useBn name rest ch (i + 1)) fun p hp q hq e => by
    obtain ⟨r, h1⟩ := params_below hp
    obtain ⟨j, r', hj, h2⟩ := blockParams_below hq
    have := block_number (h1.symm.trans (e.trans h2))
    omega

/-- C126: no two parameters of a network have the same module and name. -/
theorem params_nodup (name : String) (useBn : Bool) (channels : List Nat) (numClasses cin : Nat) : ((netParams name useBn channels numClasses cin).map key).Nodup := by
  have ne : ∀ {s t : String}, s ≠ t → name ++ s ≠ name ++ t := fun h e => h (append_inj e)
  have e : ∀ s : String, name ++ ("/" ++ s) = name ++ "/" ++ s := fun s => (String.append_assoc ..).symm
  have log : ∀ {p : Param}, p ∈ [(name ++ "/logits", "w", [channels.getLastD 32, numClasses]), (name ++ "/logits", "b", [numClasses])] → p.1 = name ++ "/logits" := by
    intro p hp
    rcases List.mem_cons.mp hp with rfl | hp
    · rfl
    · rw [List.mem_singleton.mp hp]
  unfold netParams
  refine nodup_keys (conv_nodup useBn (ne (by decide)) _ _) (nodup_keys (blocksParams_nodup ..) (by simp [key]) fun p hp q hq h => ?_) fun p hp q hq => ?_
  · obtain ⟨j, r, _, h1⟩ := blockParams_below hp
    exact inner_ne (b := "logits") (c := 'l') rfl (by decide) (h1.symm.trans (h.trans ((log hq).trans (e "logits"))))
  · rcases List.mem_append.mp hq with hq | hq
    · obtain ⟨j, r, _, h1⟩ := blockParams_below hq
      rcases conv_module hp with h | h <;> rw [h, h1]
      · exact fun k => inner_ne (b := "conv2_d") (c := 'c') rfl (by decide) (k.symm.trans (e "conv2_d"))
      · exact fun k => inner_ne (b := "batch_norm") (c := 'b') rfl (by decide) (k.symm.trans (e "batch_norm"))
    · rcases conv_module hp with h | h <;> rw [h, log hq] <;> exact ne (by decide)

/-! ### The stages -/

section Run
variable [Field K] [LinearOrder K] {get : ParamFn K} {rsqrt : K → K} {tr tl : Bool}

/-- The batch normalisation of the networks. -/
def bnModule (name : String) : BatchNorm K := ⟨name, true, true, 1 / 100000, none, false, -1, ⟨999 / 1000, true, 0⟩⟩

/-- Batch normalisation, if there is one, and `relu`. -/
def act (get : ParamFn K) (rsqrt : K → K) (tr useBn : Bool) (name : String) : Stage K := fun st x => normed get rsqrt useBn name st x tr >>= fun p => .ok (relu p.1, p.2)

/-- The names and channels of a normalisation. -/
def actBns (useBn : Bool) (name : String) (C : Nat) : List (String × Nat) := if useBn then [(name, C)] else []

theorem act_layer {useBn : Bool} {name : String} {C : Nat} (hp : useBn = true → ∀ p ∈ bnParams true true name C, There get p) (H W : Nat) :
    Does tr false (999 / 1000) (act get rsqrt tr useBn name) (actBns useBn name C) H W C H W C (fun N st f => actAt get rsqrt tr useBn name N H W C st f) fun _ _ f => if useBn then [⟨name, H, W, C, f⟩] else [] := by
  cases useBn with
  | false => exact Does.pure (good_congr (good_relu _) fun st x => rfl) fun N st x f hx _ => ⟨relu x, st, rfl, relu_is hx⟩
  | true =>
    have hP : BnParams get (bnModule name) C := ⟨fun _ => hp rfl _ (List.mem_cons_self ..), fun _ => hp rfl _ (List.mem_cons_of_mem _ (List.mem_cons_self ..))⟩
    have hpl : Plain (bnModule (K := K) name) := ⟨rfl, rfl, rfl⟩
    have e : ∀ st x, act get rsqrt tr true name st x = comp (runBn get rsqrt tr false (bnModule name)) (lift fun x => .ok (relu x)) st x := fun st x => rfl
    refine Does.congr ⟨?_, fun N st x f hx hr => ?_, fun N st st' f h => ?_, fun _ _ _ _ _ => rfl, fun N st f b hb => ?_, fun htr N st x f hx hr y st' h => ?_⟩ e
    · exact good_mem (good_comp (good_bn (rsqrt := rsqrt) hpl hP) (good_relu _) (fun n _ h => absurd h List.not_mem_nil)) fun p => by rw [List.append_nil]; rfl
    · obtain ⟨y, st', h1, h2⟩ := bn_is (rsqrt := rsqrt) hpl hP hx (hr _ (List.mem_singleton_self _))
      refine ⟨relu y, st', bind_eq h1, ?_⟩
      rw [Bool.or_false] at h2
      exact relu_is h2
    · have hs : st name = st' name := h (name, C) (List.mem_singleton_self _)
      unfold actAt bnAt
      rw [hs]
    · rw [List.mem_singleton.mp hb]
      exact List.mem_singleton_self _
    · subst htr
      obtain ⟨z, st'', z1, z2, z3⟩ := bn_moved (rsqrt := rsqrt) (d := 999 / 1000) hpl rfl hP hx (hr _ (List.mem_singleton_self _))
      have : comp (runBn get rsqrt true false (bnModule name)) (lift fun x => .ok (relu x)) st x = .ok (relu z, st'') := bind_eq z1
      rw [this] at h
      obtain rfl : st'' = st' := congrArg Prod.snd (Except.ok.inj h)
      intro b hb
      rw [List.mem_singleton.mp hb]
      exact ⟨z2, z3⟩

theorem conv_there {useBn : Bool} {conv bn : String} {shape : List Nat} {n : Nat} (hp : ∀ p ∈ convParams useBn conv bn shape n, There get p) :
    ConvParams get conv (!useBn) shape n ∧ (useBn = true → ∀ p ∈ bnParams true true bn n, There get p) := by
  unfold convParams at hp
  refine ⟨⟨hp _ (List.mem_cons_self ..), fun h => hp _ (List.mem_cons_of_mem _ ?_)⟩, fun h p hm => hp p (List.mem_cons_of_mem _ ?_)⟩
  · cases useBn with
    | true => cases h
    | false => exact List.mem_singleton_self _
  · rw [h, if_pos rfl]; exact hm

theorem bias_eq (useBn : Bool) (name : String) (n c : Nat) : (if (!useBn) = true then par get name "b" [n] [c] else 0) = biasAt get useBn name n c := by
  cases useBn <;> rfl

theorem depth_layer {name : String} {s C : Nat} {useBn : Bool} (hs : 1 ≤ s) (hC : C ≠ 0) (hp : ConvParams get name (!useBn) [3, 3, 1, C] C) (H W : Nat) :
    Does tr false (999 / 1000) (lift ((depthModule name s (!useBn)).call get)) [] H W C (up H s) (up W s) C (fun _ _ f => depthSum get useBn name s H W C f) fun _ _ _ => [] := by
  refine Does.pure (good_depth hs hC hp) (computes_lift fun N x f hx => ?_)
  obtain ⟨y, h1, h2⟩ := depth_is hs hC hp hx
  refine ⟨y, h1, h2.shape, fun e he h hh w hw c hc => (h2.val e he h hh w hw c hc).trans ?_⟩
  exact congrArg₂ (· + ·) rfl (bias_eq ..)

theorem pad_none (n k s : Int) : (Verif.Conv.stringPad false n k s).1 = 0 := rfl

theorem padded_at {H W h w : Nat} {a b : Int} (f : Nat → Nat → K) (ha : a = h) (hb : b = w) (hh : h < H) (hw : w < W) : padded H W f a b = f h w := by
  subst ha hb
  unfold padded
  rw [if_pos ⟨by omega, by omega, by omega, by omega⟩]
  rfl

theorem one_pad (n : Nat) : outOf false n 1 1 = n := by
  rw [outOf_valid, Int.fdiv_eq_ediv_of_nonneg _ (by omega)]
  omega

theorem point_layer {name : String} {C ch : Nat} {useBn : Bool} (hp : ConvParams get name (!useBn) [1, 1, C, ch] ch) (H W : Nat) :
    Does tr false (999 / 1000) (lift ((square (K := K) name ch 1 1 false (!useBn)).call get)) [] H W C H W ch (fun _ _ f => pointSum get useBn name C ch f) fun _ _ _ => [] := by
  have hm : Module.make (K := K) name 2 ch (.seq [1, 1]) (.scalar 1) (.scalar 1) (.str "VALID".toList) (!useBn) "NHWC".toList none 1 = .ok (square name ch 1 1 false (!useBn)) := rfl
  refine Does.pure ?_ (computes_lift fun N x f hx => ?_)
  · have := good_square (tr := tr) (tl := false) (H := H) (W := W) hm (Nat.le_refl _) (Nat.le_refl _) hp
    rwa [one_pad, one_pad] at this
  · obtain ⟨y, h1, h2⟩ := square_is hm (Nat.le_refl _) (Nat.le_refl _) hp hx
    rw [one_pad, one_pad] at h2
    refine ⟨y, h1, h2.shape, fun e he h hh w hw c hc => (h2.val e he h hh w hw c hc).trans ?_⟩
    refine congrArg₂ (· + ·) ?_ (bias_eq ..)
    rw [Finset.sum_range_one, Finset.sum_range_one]
    refine Finset.sum_congr rfl fun ci _ => ?_
    congr 1
    exact padded_at (fun h w => f e h w ci) (by rw [pad_none]; omega) (by rw [pad_none]; omega) hh hw

theorem first_layer {name : String} {C : Nat} {useBn : Bool} (hp : ConvParams get name (!useBn) [3, 3, C, 32] 32) (H W : Nat) :
    Does tr false (999 / 1000) (lift ((square (K := K) name 32 3 2 false (!useBn)).call get)) [] H W C ((H - 1) / 2) ((W - 1) / 2) 32 (fun _ _ f => firstSum get useBn name C f) fun _ _ _ => [] := by
  have hm : Module.make (K := K) name 2 32 (.seq [3, 3]) (.scalar 2) (.scalar 1) (.str "VALID".toList) (!useBn) "NHWC".toList none 1 = .ok (square name 32 3 2 false (!useBn)) := rfl
  have size : ∀ n : Nat, outOf false n 3 2 = (n - 1) / 2 := fun n => by
    rw [outOf_valid, Int.fdiv_eq_ediv_of_nonneg _ (by omega)]
    omega
  refine Does.pure ?_ (computes_lift fun N x f hx => ?_)
  · have := good_square (tr := tr) (tl := false) (H := H) (W := W) hm (by omega) (by omega) hp
    rwa [size, size] at this
  · obtain ⟨y, h1, h2⟩ := square_is hm (by omega) (by omega) hp hx
    rw [size, size] at h2
    refine ⟨y, h1, h2.shape, fun e he h hh w hw c hc => (h2.val e he h hh w hw c hc).trans ?_⟩
    refine congrArg₂ (· + ·) ?_ (bias_eq ..)
    refine Finset.sum_congr rfl fun i hi => Finset.sum_congr rfl fun j hj => Finset.sum_congr rfl fun ci _ => ?_
    have hi := Finset.mem_range.mp hi
    have hj := Finset.mem_range.mp hj
    congr 1
    exact padded_at (fun h w => f e h w ci) (by rw [pad_none]; omega) (by rw [pad_none]; omega) (by omega) (by omega)

theorem block_eq (name : String) (s : Int) (ch : Nat) (useBn : Bool) (st : States K) (x : Arr K) : (Block.make name ch s useBn).call get rsqrt st x tr =
    comp (lift ((depthModule (name ++ "/depthwise_conv") s (!useBn)).call get)) (comp (act get rsqrt tr useBn (name ++ "/batch_norm"))
      (comp (lift ((square (K := K) (name ++ "/pointwise_conv") ch 1 1 false (!useBn)).call get)) (act get rsqrt tr useBn (name ++ "/batch_norm_1")))) st x := by
  have e1 : name ++ "/" ++ numbered "batch_norm" 0 = name ++ "/batch_norm" := by rw [String.append_assoc]; rfl
  have e2 : name ++ "/" ++ numbered "batch_norm" 1 = name ++ "/batch_norm_1" := by rw [String.append_assoc]; rfl
  unfold Block.call
  show ((depthModule (name ++ "/depthwise_conv") s (!useBn)).call get x >>= fun out => normed get rsqrt useBn (name ++ "/" ++ numbered "batch_norm" 0) st out tr >>= fun p =>
    (square (K := K) (name ++ "/pointwise_conv") ch 1 1 false (!useBn)).call get (relu p.1) >>= fun out => normed get rsqrt useBn (name ++ "/" ++ numbered "batch_norm" 1) p.2 out tr >>= fun p => .ok (relu p.1, p.2)) = _
  rw [e1, e2]
  unfold comp lift act
  cases (depthModule (name ++ "/depthwise_conv") s (!useBn)).call get x with
  | error e => rfl
  | ok y =>
    show (normed get rsqrt useBn (name ++ "/batch_norm") st y tr >>= _) = (normed get rsqrt useBn (name ++ "/batch_norm") st y tr >>= _) >>= _
    rcases normed get rsqrt useBn (name ++ "/batch_norm") st y tr with e | ⟨z, st'⟩
    · rfl
    show ((square (K := K) (name ++ "/pointwise_conv") ch 1 1 false (!useBn)).call get (relu z) >>= _) = ((square (K := K) (name ++ "/pointwise_conv") ch 1 1 false (!useBn)).call get (relu z) >>= _) >>= _
    cases (square (K := K) (name ++ "/pointwise_conv") ch 1 1 false (!useBn)).call get (relu z) <;> rfl

theorem bns_eq (useBn : Bool) (name : String) (C ch : Nat) : blockBns useBn name C ch = [] ++ (actBns useBn (name ++ "/batch_norm") C ++ ([] ++ actBns useBn (name ++ "/batch_norm_1") ch)) := by
  cases useBn <;> rfl

theorem block_layer {name : String} {s : Int} {C ch : Nat} {useBn : Bool} (hs : 1 ≤ s) (hC : C ≠ 0) (hp : ∀ p ∈ blockParams useBn name C ch, There get p) (H W : Nat) :
    Does tr false (999 / 1000) (fun st x => (Block.make name ch s useBn).call get rsqrt st x tr) (blockBns useBn name C ch) H W C (up H s.toNat) (up W s.toNat) ch
      (fun N st f => blockAt get rsqrt tr useBn name s.toNat H W C ch N st f) fun N st f => blockSeen get rsqrt tr useBn name s.toNat H W C ch N st f := by
  obtain ⟨h1, h2⟩ := conv_there fun p h => hp p (List.mem_append_left _ h)
  obtain ⟨h3, h4⟩ := conv_there fun p h => hp p (List.mem_append_right _ h)
  obtain ⟨s, rfl⟩ := Int.eq_ofNat_of_zero_le (show 0 ≤ s by omega)
  have hs' : 1 ≤ s := by omega
  refine Does.congr ?_ (block_eq name s ch useBn)
  have hn := block_nodup useBn name C ch
  rw [bns_eq] at hn ⊢
  rw [Int.toNat_natCast]
  have a1 : ∀ b : List (String × Nat), Apart [] b := fun b n h => absurd h List.not_mem_nil
  rw [List.nil_append] at hn
  have h := (depth_layer (tr := tr) hs' hC h1 H W).comp ((act_layer (rsqrt := rsqrt) h2 _ _).comp ((point_layer h3 _ _).comp (act_layer (rsqrt := rsqrt) h4 _ _) (a1 _)) (apart_of_nodup hn)) (a1 _)
  cases useBn <;> exact h

theorem index_of {α : Type} {l rest : List α} {i : Nat} {a : α} (h : l.drop i = a :: rest) : index l i = .ok a ∧ l.drop (i + 1) = rest := by
  have h1 : l[i]? = some a := by
    have := congrArg (·[0]?) h
    simpa using this
  refine ⟨?_, ?_⟩
  · unfold index; rw [h1]
  · rw [← List.drop_drop, h]; rfl

theorem runBlocks_eq {m : Net} {i n : Nat} {s : Int} {ch : Nat} {rs : List Int} {rc : List Nat} (h1 : m.strides.drop i = s :: rs) (h2 : m.channels.drop i = ch :: rc) (st : States K) (x : Arr K) :
    runBlocks get rsqrt m tr (n + 1) i st x = comp (fun st x => (Block.make (blockName m.name i) ch s m.useBn).call get rsqrt st x tr) (runBlocks get rsqrt m tr n (i + 1)) st x := by
  conv => lhs; unfold runBlocks
  rw [bind_eq (index_of h2).1, bind_eq (index_of h1).1, numbered_eq]
  rfl

theorem blocks_layer {m : Net} : ∀ (ps : List (Int × Nat)) (C i H W : Nat), m.strides.drop i = ps.map Prod.fst → m.channels.drop i = ps.map Prod.snd → Sound C ps → (∀ p ∈ blocksParams m.useBn m.name C i (ps.map Prod.snd), There get p) →
    Does tr false (999 / 1000) (runBlocks get rsqrt m tr ps.length i) (blocksBns m.useBn m.name C i (ps.map Prod.snd)) H W C (sizeAfter H (ps.map Prod.fst)) (sizeAfter W (ps.map Prod.fst)) ((ps.map Prod.snd).getLastD C)
      (fun N st f => blocksAt get rsqrt tr m.useBn m.name H W C i ps N st f) fun N st f => blocksSeen get rsqrt tr m.useBn m.name H W C i ps N st f
  | [], C, i, H, W, _, _, _, _ => Does.pure (good_congr (good_id _) fun st x => rfl) fun N st x f hx _ => ⟨x, st, rfl, hx⟩
  | (s, ch) :: ps, C, i, H, W, h1, h2, hs, hp => by
    obtain ⟨hs1, hs2, hs3⟩ := hs
    have hn := blocks_nodup m.useBn m.name (ch :: ps.map Prod.snd) C i
    have hb := block_layer (rsqrt := rsqrt) (tr := tr) (name := blockName m.name i) hs1 hs2 (fun p h => hp p (List.mem_append_left _ h)) H W
    have ih := blocks_layer ps ch (i + 1) (up H s.toNat) (up W s.toNat) (index_of h1).2 (index_of h2).2 hs3 fun p h => hp p (List.mem_append_right _ h)
    have hc := Does.congr (hb.comp ih (apart_of_nodup hn)) (runBlocks_eq h1 h2)
    have e : ((((s, ch) :: ps).map Prod.snd).getLastD C) = (ps.map Prod.snd).getLastD ch := List.getLastD_cons
    rw [e]
    exact hc

/-! ### The network -/

theorem flatten_is {x : Arr K} {N n : Nat} (hx : x.shape = [N, n]) : (flatten x).shape = [N, n] ∧ ∀ e c, (flatten x).val [e, c] = x.val [e, c] := by
  unfold flatten
  rw [hx, if_neg (show ¬ [N, n].length ≤ 1 from (by decide : ¬ 2 ≤ 1))]
  refine ⟨?_, fun e c => ?_⟩
  · show [N, n * 1] = [N, n]
    rw [Nat.mul_one]
  · show x.val [e, c / 1] = _
    rw [Nat.div_one]

/-- The linear layer. -/
def logits (m : Net) : Linear := ⟨m.name ++ "/logits", none, some m.numClasses, true⟩

/-- All but the head. -/
def trunk (get : ParamFn K) (rsqrt : K → K) (m : Net) (tr : Bool) : Stage K :=
  comp (lift ((square (K := K) (m.name ++ "/conv2_d") 32 3 2 false m.withBias).call get)) (comp (act get rsqrt tr m.useBn (m.name ++ "/batch_norm")) (runBlocks get rsqrt m tr m.strides.length 0))

theorem net_eq (m : Net) (st : States K) (x : Arr K) : m.call get rsqrt st x tr =
    comp (trunk get rsqrt m tr) (comp (lift fun x => spatialMean x) (lift fun x => (logits m).call get (flatten x) >>= fun p => .ok p.1)) st x := by
  have e1 : m.name ++ "/" ++ numbered "batch_norm" 0 = m.name ++ "/batch_norm" := by rw [String.append_assoc]; rfl
  unfold Net.call
  show ((square (K := K) (m.name ++ "/conv2_d") 32 3 2 false m.withBias).call get x >>= fun out => normed get rsqrt m.useBn (m.name ++ "/" ++ numbered "batch_norm" 0) st out tr >>= fun p =>
    runBlocks get rsqrt m tr m.strides.length 0 p.2 (relu p.1) >>= fun p => spatialMean p.1 >>= fun out => (logits m).call get (flatten out) >>= fun q => .ok (q.1, p.2)) = _
  rw [e1]
  unfold trunk comp lift act
  cases (square (K := K) (m.name ++ "/conv2_d") 32 3 2 false m.withBias).call get x with
  | error e => rfl
  | ok y =>
    show (normed get rsqrt m.useBn (m.name ++ "/batch_norm") st y tr >>= _) = ((normed get rsqrt m.useBn (m.name ++ "/batch_norm") st y tr >>= _) >>= _) >>= _
    rcases normed get rsqrt m.useBn (m.name ++ "/batch_norm") st y tr with e | ⟨z, st'⟩
    · rfl
    show (runBlocks get rsqrt m tr m.strides.length 0 st' (relu z) >>= _) = runBlocks get rsqrt m tr m.strides.length 0 st' (relu z) >>= _
    rcases runBlocks get rsqrt m tr m.strides.length 0 st' (relu z) with e | ⟨u, st''⟩
    · rfl
    show (spatialMean u >>= _) = (spatialMean u >>= _) >>= _
    cases spatialMean u with
    | error e => rfl
    | ok v =>
      show ((logits m).call get (flatten v) >>= _) = ((logits m).call get (flatten v) >>= _) >>= _
      cases (logits m).call get (flatten v) <;> rfl

/-- C123: a network can be made exactly if there are as many strides as numbers of channels. -/
theorem make_iff (name : String) (strides : List Int) (channels : List Nat) (numClasses : Nat) (useBn : Bool) :
    (∃ m, Net.make name strides channels numClasses useBn = .ok m) ↔ strides.length = channels.length := by
  unfold Net.make
  by_cases h : strides.length = channels.length
  · rw [if_neg (fun k => k h)]; exact ⟨fun _ => h, fun _ => ⟨_, rfl⟩⟩
  · rw [if_pos h]; exact ⟨fun ⟨_, k⟩ => (by cases k), fun k => absurd k h⟩

/-- The network with these arguments. -/
def netOf (name : String) (blocks : List (Int × Nat)) (numClasses : Nat) (useBn : Bool) : Net := ⟨name, blocks.map Prod.fst, blocks.map Prod.snd, useBn, !useBn, numClasses⟩

theorem made {name : String} {blocks : List (Int × Nat)} {numClasses : Nat} {useBn : Bool} {m : Net} (h : Net.make name (blocks.map Prod.fst) (blocks.map Prod.snd) numClasses useBn = .ok m) : m = netOf name blocks numClasses useBn := by
  unfold Net.make at h
  rw [if_neg (by rw [List.length_map, List.length_map]; exact fun k => k rfl)] at h
  exact (Except.ok.inj h).symm

theorem there_of {name : String} {useBn : Bool} {chs : List Nat} {numClasses C : Nat} (hp : ∀ p ∈ netParams name useBn chs numClasses C, There get p) :
    (∀ p ∈ convParams useBn (name ++ "/conv2_d") (name ++ "/batch_norm") [3, 3, C, 32] 32, There get p) ∧ (∀ p ∈ blocksParams useBn name 32 0 chs, There get p) ∧
      There get (name ++ "/logits", "w", [chs.getLastD 32, numClasses]) ∧ There get (name ++ "/logits", "b", [numClasses]) :=
  ⟨fun p h => hp p (List.mem_append_left _ h), fun p h => hp p (List.mem_append_right _ (List.mem_append_left _ h)), hp _ (List.mem_append_right _ (List.mem_append_right _ (List.mem_cons_self ..))),
    hp _ (List.mem_append_right _ (List.mem_append_right _ (List.mem_cons_of_mem _ (List.mem_cons_self ..))))⟩

theorem netBns_eq (name : String) (useBn : Bool) (chs : List Nat) : netBns name useBn chs = [] ++ (actBns useBn (name ++ "/batch_norm") 32 ++ blocksBns useBn name 32 0 chs) := rfl

theorem start_layer {name : String} {blocks : List (Int × Nat)} {numClasses C : Nat} {useBn : Bool} (hp : ∀ p ∈ netParams name useBn (blocks.map Prod.snd) numClasses C, There get p) (H W : Nat) :
    Does tr false (999 / 1000) (comp (lift ((square (K := K) (name ++ "/conv2_d") 32 3 2 false (!useBn)).call get)) (act get rsqrt tr useBn (name ++ "/batch_norm"))) ([] ++ actBns useBn (name ++ "/batch_norm") 32) H W C ((H - 1) / 2) ((W - 1) / 2) 32
      (fun N st f => firstAt get rsqrt tr useBn name H W C N st f) fun N st f => [] ++ if useBn then [⟨name ++ "/batch_norm", (H - 1) / 2, (W - 1) / 2, 32, firstSum get useBn (name ++ "/conv2_d") C f⟩] else [] := by
  obtain ⟨h1, h2⟩ := conv_there (there_of hp).1
  exact (first_layer h1 H W).comp (act_layer h2 _ _) (fun n h => absurd h List.not_mem_nil)

theorem trunk_layer {name : String} {blocks : List (Int × Nat)} {numClasses C : Nat} {useBn : Bool} (hs : Sound 32 blocks) (hp : ∀ p ∈ netParams name useBn (blocks.map Prod.snd) numClasses C, There get p) (H W : Nat) :
    Does tr false (999 / 1000) (trunk get rsqrt (netOf name blocks numClasses useBn) tr) (netBns name useBn (blocks.map Prod.snd)) H W C (sizeAfter ((H - 1) / 2) (blocks.map Prod.fst)) (sizeAfter ((W - 1) / 2) (blocks.map Prod.fst)) ((blocks.map Prod.snd).getLastD 32)
      (fun N st f => blocksAt get rsqrt tr useBn name ((H - 1) / 2) ((W - 1) / 2) 32 0 blocks N st (firstAt get rsqrt tr useBn name H W C N st f)) fun N st f => netSeen get rsqrt tr useBn name blocks H W C N st f := by
  obtain ⟨h1, h2⟩ := conv_there (there_of hp).1
  have hn := net_nodup name useBn (blocks.map Prod.snd)
  rw [netBns_eq] at hn ⊢
  rw [List.nil_append] at hn
  have hb := blocks_layer (rsqrt := rsqrt) (tr := tr) (m := netOf name blocks numClasses useBn) blocks 32 0 ((H - 1) / 2) ((W - 1) / 2) rfl rfl hs (there_of hp).2.1
  have e : (netOf name blocks numClasses useBn).strides.length = blocks.length := List.length_map ..
  unfold trunk
  rw [e]
  exact (first_layer h1 H W).comp ((act_layer h2 _ _).comp hb (apart_of_nodup hn)) (fun n h => absurd h List.not_mem_nil)

theorem good_net {name : String} {blocks : List (Int × Nat)} {numClasses C : Nat} {useBn : Bool} (hs : Sound 32 blocks) (hp : ∀ p ∈ netParams name useBn (blocks.map Prod.snd) numClasses C, There get p) (H W : Nat) :
    Good tr false (fun st x => (netOf name blocks numClasses useBn).call get rsqrt st x tr) (netBns name useBn (blocks.map Prod.snd)) [H, W, C] [numClasses] := by
  obtain ⟨-, -, h3, h4⟩ := there_of hp
  have hlin : Good tr false (lift fun x : Arr K => (logits (netOf name blocks numClasses useBn)).call get x >>= fun p => .ok p.1) [] [(blocks.map Prod.snd).getLastD 32] [numClasses] := good_linear rfl h3 fun _ => h4
  have hflat : ∀ n : Nat, Good tr false (lift fun x : Arr K => .ok (flatten x)) [] [n] [n] := fun n => by
    refine good_lift fun N x hx => ⟨_, rfl, (flatten_is hx).1, fun N' x' ρ hx' hρ hpull => ⟨_, rfl, (flatten_is hx').1, fun e he i hi => ?_⟩⟩
    match i, hi with
    | [c], hi => rw [(flatten_is hx).2, (flatten_is hx').2]; exact hpull e he [c] hi
    | [], hi => cases hi
    | _ :: _ :: _, hi => cases hi with
      | cons _ h => cases h
  have a1 : ∀ (b : List (String × Nat)), Apart b [] := fun b n _ h => absurd h List.not_mem_nil
  refine good_mem (good_congr (good_comp (trunk_layer (rsqrt := rsqrt) (tr := tr) hs hp H W).good (good_comp good_spatialMean (good_comp (hflat _) hlin (a1 _)) (a1 _)) (a1 _)) fun st x => (net_eq _ st x).trans ?_) fun p => by
    rw [List.append_nil, List.append_nil, List.append_nil]
  rfl

/-! ### What a network does -/

/-- C123: with positive strides and without layers of no channels, a network runs on every batch of pictures and gives one number for each class, if its parameters have the sizes listed by `netParams` and its batch normalisations are ready. -/
theorem net_runs {name : String} {blocks : List (Int × Nat)} {numClasses : Nat} {useBn : Bool} {m : Net} (hm : Net.make name (blocks.map Prod.fst) (blocks.map Prod.snd) numClasses useBn = .ok m) (hs : Sound 32 blocks) {C : Nat}
    (hp : ∀ p ∈ netParams name useBn (blocks.map Prod.snd) numClasses C, There get p) {N H W : Nat} {x : Arr K} (hx : x.shape = [N, H, W, C]) {st : States K} (hr : ∀ b ∈ netBns name useBn (blocks.map Prod.snd), Ready tr false b.2 (st b.1)) :
    ∃ y st', m.call get rsqrt st x tr = .ok (y, st') ∧ y.shape = [N, numClasses] := by
  obtain rfl := made hm
  obtain ⟨y, st', h1, h2, -⟩ := good_net (tr := tr) (rsqrt := rsqrt) hs hp H W N st x hx hr
  exact ⟨y, st', h1, h2⟩

/-- C123, C126: it asks for no other parameters: it runs also where every other one is an error. -/
theorem net_asks {name : String} {blocks : List (Int × Nat)} {numClasses : Nat} {useBn : Bool} {m : Net} (hm : Net.make name (blocks.map Prod.fst) (blocks.map Prod.snd) numClasses useBn = .ok m) (hs : Sound 32 blocks) {C : Nat}
    (hp : ∀ p ∈ netParams name useBn (blocks.map Prod.snd) numClasses C, There get p) {N H W : Nat} {x : Arr K} (hx : x.shape = [N, H, W, C]) {st : States K} (hr : ∀ b ∈ netBns name useBn (blocks.map Prod.snd), Ready tr false b.2 (st b.1)) (e : Err) :
    ∃ y st', m.call (fun module name' shape => if (module, name', shape) ∈ netParams name useBn (blocks.map Prod.snd) numClasses C then get module name' shape else .error e) rsqrt st x tr = .ok (y, st') ∧ y.shape = [N, numClasses] := by
  refine net_runs hm hs (fun p h => ?_) hx hr
  obtain ⟨v, h1, h2⟩ := hp p h
  exact ⟨v, (if_pos h).trans h1, h2⟩

/-- C124: the outputs are those of the equations `netAt`: the first convolution, the blocks, the averages of the channels and the linear layer. -/
theorem net_computes {name : String} {blocks : List (Int × Nat)} {numClasses : Nat} {useBn : Bool} {m : Net} (hm : Net.make name (blocks.map Prod.fst) (blocks.map Prod.snd) numClasses useBn = .ok m) (hs : Sound 32 blocks) {C : Nat}
    (hp : ∀ p ∈ netParams name useBn (blocks.map Prod.snd) numClasses C, There get p) {N H W : Nat} {x : Arr K} (hx : x.shape = [N, H, W, C]) {st : States K} (hr : ∀ b ∈ netBns name useBn (blocks.map Prod.snd), Ready tr false b.2 (st b.1)) :
    ∃ y st', m.call get rsqrt st x tr = .ok (y, st') ∧ y.shape = [N, numClasses] ∧
      ∀ e < N, ∀ k < numClasses, y.val [e, k] = netAt get rsqrt tr useBn name blocks numClasses H W C N st (fun e h w c => x.val [e, h, w, c]) e k := by
  obtain rfl := made hm
  obtain ⟨-, -, h3, h4⟩ := there_of hp
  obtain ⟨y, st', y1, y2⟩ := (trunk_layer (rsqrt := rsqrt) (tr := tr) hs hp H W).computes N st x _ (el_is hx) hr
  obtain ⟨z, z1, z2, z3⟩ := spatialMean_is y2
  obtain ⟨u, u1, u2, u3⟩ := linear_is (l := logits (netOf name blocks numClasses useBn)) (m := numClasses) rfl h3 (fun _ => h4) (flatten_is z2).1
  refine ⟨u, st', (net_eq _ st x).trans ((bind_eq y1).trans ?_), u2, fun e he k hk => ?_⟩
  · show (lift (fun x => spatialMean x) st' y >>= fun p => lift (fun x => (logits (netOf name blocks numClasses useBn)).call get (flatten x) >>= fun p => .ok p.1) p.2 p.1) = _
    rw [show lift (fun x => spatialMean x) st' y = .ok (z, st') from bind_eq z1]
    exact bind_eq u1
  rw [u3 e k]
  unfold netAt
  refine congrArg₂ (· + ·) (Finset.sum_congr rfl fun c hc => ?_) rfl
  rw [(flatten_is z2).2, z3 e he c (Finset.mem_range.mp hc)]
  rfl

/-- C125: in training, the averages of what every batch normalisation gets, as listed by `netSeen`, are added to its stored ones with decay 0.999; there is an entry for each of the batch normalisations, and the others do not change. -/
theorem net_learns {name : String} {blocks : List (Int × Nat)} {numClasses : Nat} {useBn : Bool} {m : Net} (hm : Net.make name (blocks.map Prod.fst) (blocks.map Prod.snd) numClasses useBn = .ok m) (hs : Sound 32 blocks) {C : Nat}
    (hp : ∀ p ∈ netParams name useBn (blocks.map Prod.snd) numClasses C, There get p) {N H W : Nat} {x : Arr K} (hx : x.shape = [N, H, W, C]) {st : States K} (hr : ∀ b ∈ netBns name useBn (blocks.map Prod.snd), Ready true false b.2 (st b.1)) :
    ∃ y st', m.call get rsqrt st x true = .ok (y, st') ∧ Learned (999 / 1000) N st st' (netSeen get rsqrt true useBn name blocks H W C N st fun e h w c => x.val [e, h, w, c]) ∧
      ((netSeen get rsqrt true useBn name blocks H W C N st fun e h w c => x.val [e, h, w, c]).map fun b => (b.name, b.C)) = netBns name useBn (blocks.map Prod.snd) ∧
      ∀ n, n ∉ (netBns name useBn (blocks.map Prod.snd)).map Prod.fst → st' n = st n := by
  obtain ⟨y, st', h1, -, h3, -⟩ := good_net (tr := true) (rsqrt := rsqrt) hs hp H W N st x hx hr
  obtain rfl := made hm
  refine ⟨y, st', h1, ?_, ?_, h3⟩
  · have h1 := (net_eq _ st x).symm.trans h1
    obtain ⟨⟨z, st1⟩, z1, z2⟩ := bind_ok h1
    obtain ⟨⟨u, st2⟩, u1, u2⟩ := bind_ok z2
    obtain ⟨u', u3, u4⟩ := bind_ok u1
    obtain ⟨v, v1, v2⟩ := bind_ok u2
    obtain rfl : st1 = st2 := congrArg Prod.snd (Except.ok.inj u4)
    obtain rfl : st1 = st' := congrArg Prod.snd (Except.ok.inj v2)
    exact (trunk_layer (rsqrt := rsqrt) (tr := true) hs hp H W).learns rfl N st x _ (el_is hx) hr z st1 z1
  · unfold netSeen netBns
    rw [List.map_append]
    refine congrArg₂ (· ++ ·) (by cases useBn <;> rfl) ?_
    have : ∀ (ps : List (Int × Nat)) (H W C i : Nat) (f : Elements K), ((blocksSeen get rsqrt true useBn name H W C i ps N st f).map fun b => (b.name, b.C)) = blocksBns useBn name C i (ps.map Prod.snd) := by
      intro ps
      induction ps with
      | nil => exact fun _ _ _ _ _ => rfl
      | cons p ps ih =>
        intro H W C i f
        show ((blockSeen .. ++ blocksSeen ..).map _) = blockBns .. ++ blocksBns ..
        rw [List.map_append, ih]
        refine congrArg₂ (· ++ ·) ?_ rfl
        cases useBn <;> rfl
    exact this ..

/-- C125: after the first batch the stored averages are those of what the batch normalisations got in it. -/
theorem first_averages [CharZero K] {N : Nat} {st' : States K} {seen : List (Seen K)} (h : Learned (999 / 1000) N (fun _ => BnState.empty) st' seen) {b : Seen K} (hb : b ∈ seen) {c : Nat} (hc : c < b.C) :
    stored (st' b.name).mean c = batchMean N b.H b.W b.elements c ∧ stored (st' b.name).var c = batchVar N b.H b.W b.elements c := by
  have key : ∀ (e' : Verif.Norm.EmaState K) (v : Nat → K), Moved (999 / 1000) b.C (BnState.empty (K := K)).mean e' v → stored e' c = v c := by
    intro e' v h
    obtain ⟨h1, h2⟩ := h.2 c hc
    rw [h2, h1]
    show (999 / 1000 * 0 + (1 - 999 / 1000) * v c) / (1 - (999 / 1000) ^ ((0 : Int) + 1)) = v c
    rw [zero_add, zpow_one, mul_zero, zero_add]
    have : (1 : K) - 999 / 1000 ≠ 0 := by
      rw [show (1 : K) - 999 / 1000 = 1 / 1000 by ring]
      exact one_div_ne_zero (by exact_mod_cast (by decide : (1000 : Nat) ≠ 0))
    rw [mul_div_assoc, mul_comm, div_mul_cancel₀ _ this]
  exact ⟨key _ _ (h b hb).1, key _ _ (h b hb).2⟩

/-- C124: a block computes `blockAt`: each channel convolved by itself with a kernel of size 3, then all channels mixed at each position, each followed by normalisation and `relu`; the sizes are divided by the stride, rounded up. -/
theorem block_computes {name : String} {s : Int} {C ch : Nat} {useBn : Bool} (hs : 1 ≤ s) (hC : C ≠ 0) (hp : ∀ p ∈ blockParams useBn name C ch, There get p) {N H W : Nat} {x : Arr K} (hx : x.shape = [N, H, W, C]) {st : States K}
    (hr : ∀ b ∈ blockBns useBn name C ch, Ready tr false b.2 (st b.1)) :
    ∃ y st', (Block.make name ch s useBn).call get rsqrt st x tr = .ok (y, st') ∧ y.shape = [N, up H s.toNat, up W s.toNat, ch] ∧
      ∀ e < N, ∀ h < up H s.toNat, ∀ w < up W s.toNat, ∀ c < ch, y.val [e, h, w, c] = blockAt get rsqrt tr useBn name s.toNat H W C ch N st (fun e h w c => x.val [e, h, w, c]) e h w c := by
  obtain ⟨y, st', h1, h2⟩ := (block_layer (rsqrt := rsqrt) (tr := tr) hs hC hp H W).computes N st x _ (el_is hx) hr
  exact ⟨y, st', h1, h2.shape, h2.val⟩

theorem depth_fails {name : String} {s : Int} {withBias : Bool} {N H W C : Nat} (h : s < 1 ∨ C = 0) {x : Arr K} (hx : x.shape = [N, H, W, C]) : ∃ e, (depthModule name s withBias).call get x = .error e := by
  unfold Depthwise.call
  have hc : Verif.ConvArr.channels x (depthModule name s withBias).channelIndex = .ok C := by
    unfold Verif.ConvArr.channels
    rw [hx]; rfl
  rw [bind_eq hc, if_neg (show ¬ ((depthModule name s withBias).kernelShape.any (· < 0)) = true from (by decide : ¬ [(3 : Int), 3].any (· < 0) = true))]
  cases Verif.Mlp.getParameter get (depthModule name s withBias).name "w" ((depthModule name s withBias).kernelShape.map Int.toNat ++ [1, (depthModule name s withBias).channelMultiplier * C]) with
  | error e => exact ⟨e, rfl⟩
  | ok w =>
    have : ∃ e, Verif.ConvArr.convGeneralDilated x w (depthModule name s withBias).stride (depthModule name s withBias).padding [1, 1] (depthModule name s withBias).dn C = .error e := by
      unfold Verif.ConvArr.convGeneralDilated
      split
      · exact ⟨_, rfl⟩
      · split
        · exact ⟨_, rfl⟩
        · next hn =>
          rcases h with h | h
          · refine absurd (.inl ?_) hn
            show ([s, s].any (· ≤ 0)) = true
            rw [List.any_cons, decide_eq_true (by omega : s ≤ 0)]
            rfl
          · dsimp only
            rw [if_pos (.inl h)]
            exact ⟨_, rfl⟩
    obtain ⟨e, he⟩ := this
    refine ⟨e, ?_⟩
    show (Verif.ConvArr.convGeneralDilated x w (depthModule name s withBias).stride (depthModule name s withBias).padding [1, 1] (depthModule name s withBias).dn C >>= _) = _
    exact bind_err he

theorem blocks_fail {m : Net} : ∀ (ps : List (Int × Nat)) (C i N H W : Nat) (st : States K) (x : Arr K), m.strides.drop i = ps.map Prod.fst → m.channels.drop i = ps.map Prod.snd → ¬ Sound C ps →
    (∀ p ∈ blocksParams m.useBn m.name C i (ps.map Prod.snd), There get p) → x.shape = [N, H, W, C] → (∀ b ∈ blocksBns m.useBn m.name C i (ps.map Prod.snd), Ready tr false b.2 (st b.1)) → ∃ e, runBlocks get rsqrt m tr ps.length i st x = .error e
  | [], _, _, _, _, _, _, _, _, _, h, _, _, _ => absurd trivial h
  | (s, ch) :: ps, C, i, N, H, W, st, x, h1, h2, hn, hp, hx, hr => by
    have e := runBlocks_eq (get := get) (rsqrt := rsqrt) (tr := tr) (n := ps.length) h1 h2 st x
    by_cases hb : 1 ≤ s ∧ C ≠ 0
    · obtain ⟨y, st', y1, y2, y3, -⟩ := (block_layer (rsqrt := rsqrt) (tr := tr) (name := blockName m.name i) (ch := ch) hb.1 hb.2 (fun p h => hp p (List.mem_append_left _ h)) H W).good N st x hx fun b h => hr b (List.mem_append_left _ h)
      have hd := apart_of_nodup (blocks_nodup m.useBn m.name (ch :: ps.map Prod.snd) C i)
      obtain ⟨e', he⟩ := blocks_fail ps ch (i + 1) N _ _ st' y (index_of h1).2 (index_of h2).2 (fun k => hn ⟨hb.1, hb.2, k⟩) (fun p h => hp p (List.mem_append_right _ h)) y2 fun b h => by
        rw [y3 _ fun k => hd _ k (List.mem_map_of_mem h)]
        exact hr b (List.mem_append_right _ h)
      exact ⟨e', e.trans ((bind_eq y1).trans he)⟩
    · obtain ⟨e', he⟩ := depth_fails (get := get) (name := blockName m.name i ++ "/depthwise_conv") (s := s) (withBias := !m.useBn) (C := C) (by omega) hx
      refine ⟨e', e.trans (bind_err ?_)⟩
      exact (block_eq ..).trans (bind_err (bind_err he))

/-- C123: otherwise it fails on every batch: with these parameters and states a network runs exactly if its strides are positive and none of its blocks gets an input of no channels. -/
theorem net_runs_iff {name : String} {blocks : List (Int × Nat)} {numClasses : Nat} {useBn : Bool} {m : Net} (hm : Net.make name (blocks.map Prod.fst) (blocks.map Prod.snd) numClasses useBn = .ok m) {C : Nat}
    (hp : ∀ p ∈ netParams name useBn (blocks.map Prod.snd) numClasses C, There get p) {N H W : Nat} {x : Arr K} (hx : x.shape = [N, H, W, C]) {st : States K} (hr : ∀ b ∈ netBns name useBn (blocks.map Prod.snd), Ready tr false b.2 (st b.1)) :
    (∃ y st', m.call get rsqrt st x tr = .ok (y, st')) ↔ (∀ b ∈ blocks, 1 ≤ b.1) ∧ ∀ b ∈ blocks.dropLast, b.2 ≠ 0 := by
  have sound : ∀ (ps : List (Int × Nat)) (c : Nat), c ≠ 0 → (Sound c ps ↔ (∀ b ∈ ps, 1 ≤ b.1) ∧ ∀ b ∈ ps.dropLast, b.2 ≠ 0) := by
    intro ps
    induction ps with
    | nil => exact fun c _ => ⟨fun _ => ⟨fun b h => absurd h List.not_mem_nil, fun b h => absurd h List.not_mem_nil⟩, fun _ => trivial⟩
    | cons p ps ih =>
      intro c hc
      obtain ⟨s, ch⟩ := p
      cases ps with
      | nil => exact ⟨fun h => ⟨fun b hb => by rw [List.mem_singleton.mp hb]; exact h.1, fun b h => absurd h List.not_mem_nil⟩, fun h => ⟨h.1 _ (List.mem_singleton_self _), hc, trivial⟩⟩
      | cons q qs =>
        rw [List.dropLast_cons_of_ne_nil (List.cons_ne_nil _ _)]
        constructor
        · rintro ⟨h1, _, h3⟩
          have h4 := (ih ch h3.2.1).mp h3
          refine ⟨fun b hb => ?_, fun b hb => ?_⟩
          · rcases List.mem_cons.mp hb with rfl | hb
            · exact h1
            · exact h4.1 b hb
          · rcases List.mem_cons.mp hb with rfl | hb
            · exact h3.2.1
            · exact h4.2 b hb
        · rintro ⟨h1, h2⟩
          have hch : ch ≠ 0 := h2 (s, ch) (List.mem_cons_self ..)
          exact ⟨h1 (s, ch) (List.mem_cons_self ..), hc, (ih ch hch).mpr ⟨fun b hb => h1 b (List.mem_cons_of_mem _ hb), fun b hb => h2 b (List.mem_cons_of_mem _ hb)⟩⟩
  rw [← sound blocks 32 (by decide)]
  constructor
  · rintro ⟨y, st', h⟩
    refine Decidable.byContradiction (dec := Classical.propDecidable _) fun hs => ?_
    obtain rfl := made hm
    have hd := apart_of_nodup (net_nodup name useBn (blocks.map Prod.snd))
    obtain ⟨z, st1, z1, z2, z3, -⟩ := (start_layer (rsqrt := rsqrt) (tr := tr) hp H W).good N st x hx fun b hb => hr b (List.mem_append_left _ hb)
    obtain ⟨e, he⟩ := blocks_fail (rsqrt := rsqrt) (tr := tr) (m := netOf name blocks numClasses useBn) blocks 32 0 N _ _ st1 z rfl rfl hs (there_of hp).2.1 z2 fun b hb => by
      rw [z3 _ fun k => hd _ k (List.mem_map_of_mem hb)]
      exact hr b (List.mem_append_right _ hb)
    have ht : trunk get rsqrt (netOf name blocks numClasses useBn) tr st x = .error e := by
      have e1 : trunk get rsqrt (netOf name blocks numClasses useBn) tr st x = comp (comp (lift ((square (K := K) (name ++ "/conv2_d") 32 3 2 false (!useBn)).call get)) (act get rsqrt tr useBn (name ++ "/batch_norm")))
          (runBlocks get rsqrt (netOf name blocks numClasses useBn) tr (netOf name blocks numClasses useBn).strides.length 0) st x := by
        unfold trunk comp
        show (lift ((square (K := K) (name ++ "/conv2_d") 32 3 2 false (!useBn)).call get) st x >>= _) = (lift ((square (K := K) (name ++ "/conv2_d") 32 3 2 false (!useBn)).call get) st x >>= _) >>= _
        rcases lift ((square (K := K) (name ++ "/conv2_d") 32 3 2 false (!useBn)).call get) st x with e | ⟨y, st⟩ <;> rfl
      refine e1.trans ((bind_eq z1).trans ?_)
      rw [show (netOf name blocks numClasses useBn).strides.length = blocks.length from List.length_map ..]
      exact he
    rw [net_eq, show comp (trunk get rsqrt (netOf name blocks numClasses useBn) tr) (comp (lift fun x => spatialMean x) (lift fun x => (logits (netOf name blocks numClasses useBn)).call get (flatten x) >>= fun p => .ok p.1)) st x = .error e from
      bind_err ht] at h
    cases h
  · intro hs
    obtain ⟨y, st', h, -⟩ := net_runs (rsqrt := rsqrt) hm hs hp hx hr
    exact ⟨y, st', h⟩

/-- C125: training from new states fills those of exactly the batch normalisations in `netBns`; then the network runs on every other batch of pictures, also of other sizes, in training and in evaluation. -/
theorem net_trains {name : String} {blocks : List (Int × Nat)} {numClasses : Nat} {useBn : Bool} {m : Net} (hm : Net.make name (blocks.map Prod.fst) (blocks.map Prod.snd) numClasses useBn = .ok m) (hs : Sound 32 blocks) {C : Nat}
    (hp : ∀ p ∈ netParams name useBn (blocks.map Prod.snd) numClasses C, There get p) {N H W : Nat} {x : Arr K} (hx : x.shape = [N, H, W, C]) :
    ∃ y st, m.call get rsqrt (fun _ => BnState.empty) x true = .ok (y, st) ∧ y.shape = [N, numClasses] ∧ (∀ n, (∃ c, (n, c) ∈ netBns name useBn (blocks.map Prod.snd)) ↔ st n ≠ BnState.empty) ∧
      ∀ tr' N' H' W' (x' : Arr K), x'.shape = [N', H', W', C] → ∃ y' st', m.call get rsqrt st x' tr' = .ok (y', st') ∧ y'.shape = [N', numClasses] := by
  obtain rfl := made hm
  obtain ⟨y, st, h1, h2, h3, h4, h5, h6⟩ := good_net (tr := true) (rsqrt := rsqrt) hs hp H W N (fun _ => BnState.empty) x hx
    (fun b hb => ⟨fun _ => ⟨(fun h hh => by cases hh), (fun h hh => by cases hh)⟩, fun h => by cases h⟩)
  have hfull := h4 rfl
  refine ⟨y, st, h1, h2, fun n => ⟨?_, fun hne => ?_⟩, fun tr' N' H' W' x' hx' => ?_⟩
  · rintro ⟨c, hc⟩ he
    obtain ⟨-, ⟨v, hv, -⟩, -⟩ := hfull _ hc
    rw [he] at hv
    cases hv
  · by_cases hn : n ∈ (netBns name useBn (blocks.map Prod.snd)).map Prod.fst
    · obtain ⟨b, hb, rfl⟩ := List.mem_map.mp hn
      exact ⟨b.2, hb⟩
    · exact absurd (h3 n hn) hne
  · obtain ⟨y', st', k1, k2, -⟩ := good_net (tr := tr') (rsqrt := rsqrt) hs hp H' W' N' st x' hx' fun b hb => (hfull b hb).ready tr' false
    exact ⟨y', st', k1, k2⟩

/-- C125: in evaluation every choice of examples gives the same choice of the outputs, and no state changes. -/
theorem eval_examples {name : String} {blocks : List (Int × Nat)} {numClasses : Nat} {useBn : Bool} {m : Net} (hm : Net.make name (blocks.map Prod.fst) (blocks.map Prod.snd) numClasses useBn = .ok m) (hs : Sound 32 blocks) {C : Nat}
    (hp : ∀ p ∈ netParams name useBn (blocks.map Prod.snd) numClasses C, There get p) {N H W : Nat} {x : Arr K} (hx : x.shape = [N, H, W, C]) {st : States K} (hr : ∀ b ∈ netBns name useBn (blocks.map Prod.snd), Ready false false b.2 (st b.1))
    {N' : Nat} {x' : Arr K} (hx' : x'.shape = [N', H, W, C]) {ρ : Nat → Nat} (hρ : ∀ e < N', ρ e < N) (hpull : ∀ e < N', ∀ h < H, ∀ w < W, ∀ c < C, x'.val [e, h, w, c] = x.val [ρ e, h, w, c]) :
    ∃ y y', m.call get rsqrt st x false = .ok (y, st) ∧ m.call get rsqrt st x' false = .ok (y', st) ∧ ∀ e < N', ∀ k < numClasses, y'.val [e, k] = y.val [ρ e, k] := by
  obtain rfl := made hm
  obtain ⟨y, st', h1, h2, -, -, h5, h6⟩ := good_net (tr := false) (rsqrt := rsqrt) hs hp H W N st x hx hr
  obtain rfl := h5 rfl
  obtain ⟨y', k1, k2, k3⟩ := h6 N' x' ρ hx' ⟨hρ, fun h => by cases h⟩ fun e he i hi => by
    match i, hi with
    | [h, w, c], .cons hh (.cons hw (.cons hc .nil)) => exact hpull e he h hh w hw c hc
  exact ⟨y, y', h1, k1, fun e he k hk => k3 e he [k] (.cons hk .nil)⟩

/-- C125: in training, another order of the examples gives that order of the outputs and the same states. -/
theorem train_order {name : String} {blocks : List (Int × Nat)} {numClasses : Nat} {useBn : Bool} {m : Net} (hm : Net.make name (blocks.map Prod.fst) (blocks.map Prod.snd) numClasses useBn = .ok m) (hs : Sound 32 blocks) {C : Nat}
    (hp : ∀ p ∈ netParams name useBn (blocks.map Prod.snd) numClasses C, There get p) {N H W : Nat} {x : Arr K} (hx : x.shape = [N, H, W, C]) {st : States K} (hr : ∀ b ∈ netBns name useBn (blocks.map Prod.snd), Ready true false b.2 (st b.1))
    {x' : Arr K} (hx' : x'.shape = [N, H, W, C]) {ρ : Nat → Nat} (hρ : ∀ e < N, ρ e < N) (hinj : ∀ e < N, ∀ e' < N, ρ e = ρ e' → e = e') (hpull : ∀ e < N, ∀ h < H, ∀ w < W, ∀ c < C, x'.val [e, h, w, c] = x.val [ρ e, h, w, c]) :
    ∃ y y' st', m.call get rsqrt st x true = .ok (y, st') ∧ m.call get rsqrt st x' true = .ok (y', st') ∧ ∀ e < N, ∀ k < numClasses, y'.val [e, k] = y.val [ρ e, k] := by
  obtain rfl := made hm
  obtain ⟨y, st', h1, h2, -, -, h5, h6⟩ := good_net (tr := true) (rsqrt := rsqrt) hs hp H W N st x hx hr
  obtain ⟨y', k1, k2, k3⟩ := h6 N x' ρ hx' ⟨hρ, fun _ => ⟨rfl, hinj⟩⟩ fun e he i hi => by
    match i, hi with
    | [h, w, c], .cons hh (.cons hw (.cons hc .nil)) => exact hpull e he h hh w hw c hc
  exact ⟨y, y', st', h1, k1, fun e he k hk => k3 e he [k] (.cons hk .nil)⟩

/-! ### Sizes -/

theorem up_up (n : Nat) {a b : Nat} (ha : 1 ≤ a) (hb : 1 ≤ b) : up (up n a) b = up n (a * b) := by
  unfold up
  rw [Nat.add_sub_assoc hb, ← Nat.add_mul_div_right _ _ ha, Nat.div_div_eq_div_mul]
  congr 1
  have : (b - 1) * a + a = a * b := by
    obtain ⟨c, rfl⟩ := Nat.exists_eq_add_of_le hb
    rw [Nat.add_sub_cancel_left, ← Nat.succ_mul, Nat.mul_comm, Nat.succ_eq_add_one, Nat.add_comm]
  omega

theorem size_product : ∀ (strides : List Int) (n : Nat), (∀ s ∈ strides, 1 ≤ s) → sizeAfter n strides = up n (strides.map Int.toNat).prod
  | [], n, _ => (up_one n).symm
  | s :: rest, n, h => by
    have hs := h s (List.mem_cons_self ..)
    have hr : ∀ t ∈ rest, 1 ≤ t := fun t ht => h t (List.mem_cons_of_mem _ ht)
    have pos : 1 ≤ (rest.map Int.toNat).prod := by
      refine Nat.one_le_iff_ne_zero.mpr (List.prod_ne_zero fun h0 => ?_)
      obtain ⟨t, ht, h0⟩ := List.mem_map.mp h0
      have := hr t ht
      omega
    show sizeAfter (up n s.toNat) rest = _
    rw [size_product rest _ hr, up_up n (by omega) pos, List.map_cons, List.prod_cons]

/-- What a network does after its blocks. -/
theorem call_after {m : Net} {x : Arr K} {st st1 st2 : States K} {conv : Module K} {out out1 out2 : Arr K}
    (h1 : Module.make (K := K) (m.name ++ "/conv2_d") 2 32 (.seq [3, 3]) (.scalar 2) (.scalar 1) (.str "VALID".toList) m.withBias "NHWC".toList none 1 = .ok conv) (h2 : conv.call get x = .ok out)
    (h3 : normed get rsqrt m.useBn (m.name ++ "/" ++ numbered "batch_norm" 0) st out tr = .ok (out1, st1)) (h4 : runBlocks get rsqrt m tr m.strides.length 0 st1 (relu out1) = .ok (out2, st2)) :
    m.call get rsqrt st x tr = (do
        let out ← spatialMean out2
        let r ← (⟨m.name ++ "/logits", none, some m.numClasses, true⟩ : Linear).call get (flatten out)
        .ok (r.1, st2)) := by
  unfold Net.call
  rw [h1]
  dsimp only [bind, Except.bind]
  rw [h2]
  dsimp only
  rw [h3]
  dsimp only
  rw [h4]

/-- C127: before the average is taken, a picture of `H` by `W` has been shrunk to `(H - 1) / 2` by `(W - 1) / 2` and then divided by the product of all strides, rounded up once. -/
theorem features {name : String} {blocks : List (Int × Nat)} {numClasses : Nat} {useBn : Bool} {m : Net} (hm : Net.make name (blocks.map Prod.fst) (blocks.map Prod.snd) numClasses useBn = .ok m) (hs : Sound 32 blocks) {C : Nat}
    (hp : ∀ p ∈ netParams name useBn (blocks.map Prod.snd) numClasses C, There get p) {N H W : Nat} {x : Arr K} (hx : x.shape = [N, H, W, C]) {st : States K} (hr : ∀ b ∈ netBns name useBn (blocks.map Prod.snd), Ready tr false b.2 (st b.1)) :
    ∃ conv out out1 st1 out2 st2, Module.make (K := K) (m.name ++ "/conv2_d") 2 32 (.seq [3, 3]) (.scalar 2) (.scalar 1) (.str "VALID".toList) m.withBias "NHWC".toList none 1 = .ok conv ∧ conv.call get x = .ok out ∧
      normed get rsqrt m.useBn (m.name ++ "/" ++ numbered "batch_norm" 0) st out tr = .ok (out1, st1) ∧ runBlocks get rsqrt m tr m.strides.length 0 st1 (relu out1) = .ok (out2, st2) ∧
      out2.shape = [N, up ((H - 1) / 2) (blocks.map fun b => b.1.toNat).prod, up ((W - 1) / 2) (blocks.map fun b => b.1.toNat).prod, (blocks.map Prod.snd).getLastD 32] ∧
      m.call get rsqrt st x tr = (do
        let out ← spatialMean out2
        let r ← (⟨m.name ++ "/logits", none, some m.numClasses, true⟩ : Linear).call get (flatten out)
        .ok (r.1, st2)) := by
  obtain rfl := made hm
  have pos : ∀ s ∈ blocks.map Prod.fst, 1 ≤ s := by
    have : ∀ (ps : List (Int × Nat)) (c : Nat), Sound c ps → ∀ s ∈ ps.map Prod.fst, 1 ≤ s := by
      intro ps
      induction ps with
      | nil => exact fun _ _ s h => absurd h List.not_mem_nil
      | cons p ps ih =>
        rintro c ⟨h1, _, h3⟩ s h
        rcases List.mem_cons.mp h with rfl | h
        · exact h1
        · exact ih _ h3 s h
    exact this blocks 32 hs
  have e : ∀ n, sizeAfter n (blocks.map Prod.fst) = up n (blocks.map fun b => b.1.toNat).prod := fun n => by rw [size_product _ n pos, List.map_map]; rfl
  obtain ⟨y, st', y1, y2, -⟩ := (trunk_layer (rsqrt := rsqrt) (tr := tr) hs hp H W).good N st x hx hr
  rw [e, e] at y2
  have e1 : name ++ "/" ++ numbered "batch_norm" 0 = name ++ "/batch_norm" := by rw [String.append_assoc]; rfl
  obtain ⟨⟨a, sa⟩, a1, a2⟩ := bind_ok y1
  obtain ⟨⟨b, sb⟩, b1, b2⟩ := bind_ok a2
  obtain ⟨a', a3, a4⟩ := bind_ok a1
  obtain ⟨⟨c, sc⟩, c1, c2⟩ := bind_ok b1
  obtain ⟨rfl, rfl⟩ : a' = a ∧ st = sa := by have := Except.ok.inj a4; exact ⟨congrArg Prod.fst this, congrArg Prod.snd this⟩
  obtain ⟨rfl, rfl⟩ : relu c = b ∧ sc = sb := by have := Except.ok.inj c2; exact ⟨congrArg Prod.fst this, congrArg Prod.snd this⟩
  have c0 : normed get rsqrt useBn (name ++ "/" ++ numbered "batch_norm" 0) st a' tr = .ok (c, sc) := by rw [e1]; exact c1
  refine ⟨_, a', c, sc, y, st', rfl, a3, c0, b2, y2, ?_⟩
  exact call_after (m := netOf name blocks numClasses useBn) rfl a3 c0 b2

/-- C127: the average over rows and columns has two axes, not four as the docstring of the file says. -/
theorem averages_shape {N H W C : Nat} {x : Arr K} (hx : x.shape = [N, H, W, C]) : ∃ y, spatialMean x = .ok y ∧ y.shape = [N, C] := by
  obtain ⟨y, h1, h2, -⟩ := spatialMean_is (el_is hx)
  exact ⟨y, h1, h2⟩

end Run

/-! ### Cases -/

/-- The blocks of the standard network. -/
def standard : List (Int × Nat) := defaultStrides.zip defaultChannels

theorem standard_lists : standard.map Prod.fst = defaultStrides ∧ standard.map Prod.snd = defaultChannels := by decide

theorem standard_made (useBn : Bool) : Net.make "mobile_net_v1" (standard.map Prod.fst) (standard.map Prod.snd) 1000 useBn = .ok (netOf "mobile_net_v1" standard 1000 useBn) := rfl

theorem standard_sound : Sound 32 standard := by
  unfold standard defaultStrides defaultChannels
  simp [Sound]

/-- C127: the standard network gives 7 by 7 features for pictures of 224 by 224, and 1 by 1 for pictures of 32 by 32. -/
theorem standard_features {tr : Bool} {useBn : Bool} {get : ParamFn ℚ} {rsqrt : ℚ → ℚ} (hp : ∀ p ∈ netParams "mobile_net_v1" useBn defaultChannels 1000 3, There get p) {N n : Nat} (hn : n = 224 ∨ n = 32) {x : Arr ℚ} (hx : x.shape = [N, n, n, 3])
    {st : States ℚ} (hr : ∀ b ∈ netBns "mobile_net_v1" useBn defaultChannels, Ready tr false b.2 (st b.1)) :
    ∃ m conv out out1 st1 out2 st2, Net.make "mobile_net_v1" defaultStrides defaultChannels 1000 useBn = .ok m ∧ Module.make (m.name ++ "/conv2_d") 2 32 (.seq [3, 3]) (.scalar 2) (.scalar 1) (.str "VALID".toList) m.withBias "NHWC".toList none 1 = .ok conv ∧
      conv.call get x = .ok out ∧ normed get rsqrt m.useBn (m.name ++ "/" ++ numbered "batch_norm" 0) st out tr = .ok (out1, st1) ∧ runBlocks get rsqrt m tr m.strides.length 0 st1 (relu out1) = .ok (out2, st2) ∧
      out2.shape = [N, if n = 224 then 7 else 1, if n = 224 then 7 else 1, 1024] ∧
      m.call get rsqrt st x tr = (do
        let out ← spatialMean out2
        let r ← (⟨m.name ++ "/logits", none, some m.numClasses, true⟩ : Linear).call get (flatten out)
        .ok (r.1, st2)) := by
  obtain ⟨conv, out, out1, st1, out2, st2, h1, h2, h3, h4, h5, h6⟩ := features (rsqrt := rsqrt) (standard_made useBn) standard_sound (C := 3) (by rw [standard_lists.2]; exact hp) hx (by rw [standard_lists.2]; exact hr)
  refine ⟨_, conv, out, out1, st1, out2, st2, standard_made useBn, h1, h2, h3, h4, h5.trans ?_, h6⟩
  rcases hn with rfl | rfl <;> rfl

-- the hypotheses of `net_runs`, `net_asks`, `net_computes`, `net_runs_iff`, `net_trains`, `features` hold for the standard network in training on new states
example (N H W : Nat) (x : Arr ℚ) (hx : x.shape = [N, H, W, 3]) : ∃ y st, (netOf "mobile_net_v1" standard 1000 true).call anyGet (fun v => v) (fun _ => BnState.empty) x true = .ok (y, st) ∧ y.shape = [N, 1000] :=
  net_runs (standard_made true) standard_sound (fun p _ => anyGet_there p) hx fun b hb => ⟨fun _ => ⟨(fun h hh => by cases hh), (fun h hh => by cases hh)⟩, fun h => by cases h⟩
-- a stride of 0, and a block of no channels before another one, make every call fail
example (x : Arr ℚ) (hx : x.shape = [2, 32, 32, 3]) : ¬ ∃ y st, (netOf "m" [(1, 8), (0, 8)] 10 false).call anyGet (fun v => v) (fun _ => BnState.empty) x false = .ok (y, st) := fun h => by
  have := ((net_runs_iff (blocks := [(1, 8), (0, 8)]) rfl (fun p _ => anyGet_there p) hx fun b hb => absurd hb List.not_mem_nil).mp h).1 (0, 8) (by simp)
  exact absurd this (by decide)
example (x : Arr ℚ) (hx : x.shape = [2, 32, 32, 3]) : (¬ ∃ y st, (netOf "m" [(1, 0), (1, 8)] 10 false).call anyGet (fun v => v) (fun _ => BnState.empty) x false = .ok (y, st)) ∧
    ∃ y st, (netOf "m" [(1, 8), (1, 0)] 10 false).call anyGet (fun v => v) (fun _ => BnState.empty) x false = .ok (y, st) := ⟨fun h => by
  have := ((net_runs_iff (blocks := [(1, 0), (1, 8)]) rfl (fun p _ => anyGet_there p) hx fun b hb => absurd hb List.not_mem_nil).mp h).2 (1, 0) (by simp)
  exact absurd rfl this, (net_runs_iff (blocks := [(1, 8), (1, 0)]) rfl (fun p _ => anyGet_there p) hx fun b hb => absurd hb List.not_mem_nil).mpr ⟨by simp, by simp⟩⟩
-- lists of different lengths are rejected
example : Net.make "m" [1, 2] [64] 10 true = .error .value := rfl
-- the standard network has 4231976 parameters and 27 batch normalisations, and without them 4221032 parameters
example : ((netParams "m" true defaultChannels 1000 3).map fun p => Verif.Shapes.size p.2.2).sum = 4231976 ∧ (netBns "m" true defaultChannels).length = 27 ∧ ((netParams "m" false defaultChannels 1000 3).map fun p => Verif.Shapes.size p.2.2).sum = 4221032 := by
  decide +kernel
-- the names of two blocks
example : netBns "m" true [4, 5] = [("m/batch_norm", 32), ("m/mobile_net_v1_block/batch_norm", 32), ("m/mobile_net_v1_block/batch_norm_1", 4), ("m/mobile_net_v1_block_1/batch_norm", 4), ("m/mobile_net_v1_block_1/batch_norm_1", 5)] := by decide +kernel
example : netParams "m" false [4] 10 3 = [("m/conv2_d", "w", [3, 3, 3, 32]), ("m/conv2_d", "b", [32]), ("m/mobile_net_v1_block/depthwise_conv", "w", [3, 3, 1, 32]), ("m/mobile_net_v1_block/depthwise_conv", "b", [32]),
    ("m/mobile_net_v1_block/pointwise_conv", "w", [1, 1, 32, 4]), ("m/mobile_net_v1_block/pointwise_conv", "b", [4]), ("m/logits", "w", [4, 10]), ("m/logits", "b", [10])] := by decide +kernel

/-- A picture of 2 by 2 pixels with 2 channels, and small parameters. -/
def tiny : Arr ℚ := ⟨[1, 2, 2, 2], fun i => (i.getD 1 0) * (i.getD 2 0) - 3 * i.getD 3 0⟩

def small : ParamFn ℚ := fun m n s => .ok ⟨s, fun i => if n = "w" then (i.sum % 3 : Nat) - 1 else if n = "scale" then 2 else (i.sum : Nat)⟩

-- a block on it; the hypotheses of `block_computes` hold, and so its equations give these numbers
example : [0, 1].map (fun h => [0, 1].map fun w => [0, 1].map fun c => blockAt small (fun x => x) false false "m" 1 2 2 2 2 1 (fun _ => BnState.empty) (fun e h w c => tiny.val [e, h, w, c]) 0 h w c) = [[[0, 3], [0, 5]], [[0, 5], [0, 1]]] := by
  decide +kernel
example : ∃ y st, (Block.make "m" 2 1 false).call small (fun x => x) (fun _ => BnState.empty) tiny false = .ok (y, st) ∧ y.shape = [1, 2, 2, 2] ∧
    [0, 1].map (fun h => [0, 1].map fun w => [0, 1].map fun c => y.val [0, h, w, c]) = [[[0, 3], [0, 5]], [[0, 5], [0, 1]]] := by
  obtain ⟨y, st, h1, h2, h3⟩ := block_computes (get := small) (rsqrt := fun x => x) (tr := false) (name := "m") (s := 1) (C := 2) (ch := 2) (useBn := false) (by decide) (by decide) (fun p _ => ⟨_, rfl, rfl⟩) (x := tiny) rfl
    (st := fun _ => BnState.empty) fun b hb => absurd hb List.not_mem_nil
  refine ⟨y, st, h1, h2, Eq.trans ?_ (by decide +kernel : [0, 1].map (fun h => [0, 1].map fun w => [0, 1].map fun c => blockAt small (fun x => x) false false "m" 1 2 2 2 2 1 (fun _ => BnState.empty) (fun e h w c => tiny.val [e, h, w, c]) 0 h w c) = [[[0, 3], [0, 5]], [[0, 5], [0, 1]]])⟩
  simp only [List.map_cons, List.map_nil]
  rw [h3 0 (by decide) 0 (by decide) 0 (by decide) 0 (by decide), h3 0 (by decide) 0 (by decide) 0 (by decide) 1 (by decide), h3 0 (by decide) 0 (by decide) 1 (by decide) 0 (by decide), h3 0 (by decide) 0 (by decide) 1 (by decide) 1 (by decide),
    h3 0 (by decide) 1 (by decide) 0 (by decide) 0 (by decide), h3 0 (by decide) 1 (by decide) 0 (by decide) 1 (by decide), h3 0 (by decide) 1 (by decide) 1 (by decide) 0 (by decide), h3 0 (by decide) 1 (by decide) 1 (by decide) 1 (by decide)]
  rfl
-- the hypotheses of `net_learns` and `first_averages` hold: after one batch the stored averages of the 27 batch normalisations are those of this batch
example (N : Nat) (x : Arr ℚ) (hx : x.shape = [N, 32, 32, 3]) : ∃ y st, (netOf "mobile_net_v1" standard 1000 true).call anyGet (fun v => v) (fun _ => BnState.empty) x true = .ok (y, st) ∧
    ∀ b ∈ netSeen anyGet (fun v => v) true true "mobile_net_v1" standard 32 32 3 N (fun _ => BnState.empty) fun e h w c => x.val [e, h, w, c], ∀ c < b.C, stored (st b.name).mean c = batchMean N b.H b.W b.elements c := by
  obtain ⟨y, st, h1, h2, -⟩ := net_learns (rsqrt := fun v => v) (standard_made true) standard_sound (fun p _ => anyGet_there p) hx (st := fun _ => BnState.empty) fun b hb => ⟨fun _ => ⟨(fun h hh => by cases hh), (fun h hh => by cases hh)⟩, fun h => by cases h⟩
  exact ⟨y, st, h1, fun b hb c hc => (first_averages h2 hb hc).1⟩
-- two examples exchanged in training, and one example taken twice in evaluation after it
example : ∃ y y' st, (netOf "mobile_net_v1" standard 1000 true).call anyGet (fun v => v) (fun _ => BnState.empty) ⟨[2, 32, 32, 3], fun i => i.sum⟩ true = .ok (y, st) ∧
    (netOf "mobile_net_v1" standard 1000 true).call anyGet (fun v => v) (fun _ => BnState.empty) ⟨[2, 32, 32, 3], fun i => (1 - i.getD 0 0 : Nat) + (i.drop 1).sum⟩ true = .ok (y', st) ∧ ∀ e < 2, ∀ k < 1000, y'.val [e, k] = y.val [1 - e, k] :=
  train_order (standard_made true) standard_sound (fun p _ => anyGet_there p) rfl (fun b hb => ⟨fun _ => ⟨(fun h hh => by cases hh), (fun h hh => by cases hh)⟩, fun h => by cases h⟩) rfl (ρ := fun e => 1 - e)
    (fun e he => by omega) (fun e he e' he' h => by omega) (fun e _ h _ w _ c _ => by simp)
example : ∃ y y', (netOf "m" [(2, 4), (1, 5)] 10 false).call anyGet (fun v => v) (fun _ => BnState.empty) ⟨[2, 9, 9, 1], fun i => i.sum⟩ false = .ok (y, fun _ => BnState.empty) ∧
    (netOf "m" [(2, 4), (1, 5)] 10 false).call anyGet (fun v => v) (fun _ => BnState.empty) ⟨[3, 9, 9, 1], fun i => 1 + (i.drop 1).sum⟩ false = .ok (y', fun _ => BnState.empty) ∧ ∀ e < 3, ∀ k < 10, y'.val [e, k] = y.val [1, k] :=
  eval_examples (blocks := [(2, 4), (1, 5)]) rfl (by simp [Sound]) (fun p _ => anyGet_there p) rfl (fun b hb => absurd hb List.not_mem_nil) rfl (ρ := fun _ => 1) (by decide) (fun e _ h _ w _ c _ => by simp)
-- 4 pixels become 1 by strides 2 and 3, and 111 become 19; no pixels stay none
example : sizeAfter 4 [2, 3] = 1 ∧ sizeAfter 111 [2, 3] = 19 ∧ sizeAfter 0 [2] = 0 := by decide
-- an average over rows and columns
example : ∃ y, spatialMean tiny = .ok y ∧ y.shape = [1, 2] := averages_shape rfl

end Verif.Props.MobileNet
