import Verif.Lemmas.Flow
import Verif.Props.ResNetStart

/-!
# Residual networks: what blocks and networks compute and learn

Theorems about `Verif.Model.ResNet`: the elements of the result as formulas in the elements of the input, the parameters and the averages.
-/

set_option linter.unusedVariables false
set_option linter.unusedSectionVars false

namespace Verif.Props.ResNet
open Verif.Shapes (Err)
open Verif.Pool (Arr)
open Verif.Mlp (ParamFn)
open Verif.ConvArr (Module)
open Verif.Norm (BatchNorm BnState)
open Verif.Props.Reset (Valid)
open Verif.Props.Norm (bind_eq bind_err)
open Verif.ResNet
open Verif.Stage
open Verif.Picture
open Finset (range)

variable {K : Type}

/-! ### Specification: formulas -/

/-- What is computed, and what the batch normalisations get meanwhile, from the number of examples, the states and the elements. -/
abbrev Formula (K : Type) := Nat → States K → Elements K → Elements K × List (Seen K)

/-- One formula after the other. -/
def andThen (a b : Formula K) : Formula K := fun N st f => ((b N st (a N st f).1).1, (a N st f).2 ++ (b N st (a N st f).1).2)

@[inherit_doc] infixr:60 " ⨾ " => andThen

/-- The sum of two formulas. -/
def plus [Add K] (a b : Formula K) : Formula K := fun N st f => (fun e h w c => (b N st f).1 e h w c + (a N st f).1 e h w c, (a N st f).2 ++ (b N st f).2)

/-- Nothing happens. -/
def keep : Formula K := fun _ _ f => (f, [])

/-- Negative elements become 0. -/
def positive [Zero K] [Max K] : Formula K := fun _ _ f => (fun e h w c => max (f e h w c) 0, [])

/-- A convolution. -/
def convF [Semiring K] (get : ParamFn K) (name : String) (k s H W C ch : Nat) : Formula K := fun _ _ f => (sameSum get name k s H W C ch f, [])

/-- A batch normalisation, with the statistics of the batch if `mix`. -/
def normF [Field K] (get : ParamFn K) (rsqrt : K → K) (mix : Bool) (c : BnConfig K) (name : String) (H W C : Nat) : Formula K := fun N st f =>
  (bnAt get rsqrt mix (c.createScale.getD true) (c.createOffset.getD true) (c.eps.getD (1 / 100000)) name st N H W C f, [⟨name, H, W, C, f⟩])

/-- The layers of a block of version 1: every convolution is followed by a batch normalisation, and all but the last by `positive`. -/
def bodyV1 [Field K] [LinearOrder K] (get : ParamFn K) (rsqrt : K → K) (mix : Bool) (c : BnConfig K) (bottleneck : Bool) (name : String) (cin ch s H W : Nat) : Formula K :=
  if bottleneck then
    convF get (name ++ "/~/conv_0") 1 1 H W cin (ch / 4) ⨾ normF get rsqrt mix c (name ++ "/~/batchnorm_0") H W (ch / 4) ⨾ positive ⨾
    convF get (name ++ "/~/conv_1") 3 s H W (ch / 4) (ch / 4) ⨾ normF get rsqrt mix c (name ++ "/~/batchnorm_1") (up H s) (up W s) (ch / 4) ⨾ positive ⨾
    convF get (name ++ "/~/conv_2") 1 1 (up H s) (up W s) (ch / 4) ch ⨾ normF get rsqrt mix c (name ++ "/~/batchnorm_2") (up H s) (up W s) ch
  else
    convF get (name ++ "/~/conv_0") 3 s H W cin ch ⨾ normF get rsqrt mix c (name ++ "/~/batchnorm_0") (up H s) (up W s) ch ⨾ positive ⨾
    convF get (name ++ "/~/conv_1") 3 1 (up H s) (up W s) ch ch ⨾ normF get rsqrt mix c (name ++ "/~/batchnorm_1") (up H s) (up W s) ch

/-- What comes before the first convolution of a block of version 2. -/
def headV2 [Field K] [LinearOrder K] (get : ParamFn K) (rsqrt : K → K) (mix : Bool) (c : BnConfig K) (name : String) (cin H W : Nat) : Formula K := normF get rsqrt mix c (name ++ "/~/batchnorm_0") H W cin ⨾ positive

/-- The convolutions of a block of version 2, and a batch normalisation and `positive` before all but the first. -/
def tailV2 [Field K] [LinearOrder K] (get : ParamFn K) (rsqrt : K → K) (mix : Bool) (c : BnConfig K) (bottleneck : Bool) (name : String) (cin ch s H W : Nat) : Formula K :=
  if bottleneck then
    convF get (name ++ "/~/conv_0") 1 1 H W cin (ch / 4) ⨾
    normF get rsqrt mix c (name ++ "/~/batchnorm_1") H W (ch / 4) ⨾ positive ⨾ convF get (name ++ "/~/conv_1") 3 s H W (ch / 4) (ch / 4) ⨾
    normF get rsqrt mix c (name ++ "/~/batchnorm_2") (up H s) (up W s) (ch / 4) ⨾ positive ⨾ convF get (name ++ "/~/conv_2") 1 1 (up H s) (up W s) (ch / 4) ch
  else
    convF get (name ++ "/~/conv_0") 3 s H W cin ch ⨾
    normF get rsqrt mix c (name ++ "/~/batchnorm_1") (up H s) (up W s) ch ⨾ positive ⨾ convF get (name ++ "/~/conv_1") 3 1 (up H s) (up W s) ch ch

/-- A block.  The input, or a projection of it, is added; in version 2, the projection is of the input after the first batch normalisation. -/
def blockF [Field K] [LinearOrder K] (get : ParamFn K) (rsqrt : K → K) (mix : Bool) (c : BnConfig K) (v2 bottleneck : Bool) (name : String) (cin ch s : Nat) (proj : Bool) (H W : Nat) : Formula K :=
  match v2, proj with
  | false, false => plus keep (bodyV1 get rsqrt mix c bottleneck name cin ch s H W) ⨾ positive
  | false, true => plus (convF get (name ++ "/~/shortcut_conv") 1 s H W cin ch ⨾ normF get rsqrt mix c (name ++ "/~/shortcut_batchnorm") (up H s) (up W s) ch) (bodyV1 get rsqrt mix c bottleneck name cin ch s H W) ⨾ positive
  | true, false => plus keep (headV2 get rsqrt mix c name cin H W ⨾ tailV2 get rsqrt mix c bottleneck name cin ch s H W)
  | true, true => headV2 get rsqrt mix c name cin H W ⨾ plus (convF get (name ++ "/~/shortcut_conv") 1 s H W cin ch) (tailV2 get rsqrt mix c bottleneck name cin ch s H W)

/-- The blocks of a group from number `i` on: only number 0 has the stride and the projection. -/
def blocksF [Field K] [LinearOrder K] (get : ParamFn K) (rsqrt : K → K) (mix : Bool) (c : BnConfig K) (v2 bottleneck : Bool) (name : String) (ch s : Nat) (proj : Bool) : Nat → Nat → Nat → Nat → Nat → Formula K
  | _, _, _, _, 0 => keep
  | cin, i, H, W, n + 1 => blockF get rsqrt mix c v2 bottleneck (name ++ "/~/block_" ++ toString i) cin ch (if i = 0 then s else 1) (decide (i = 0) && proj) H W ⨾
    blocksF get rsqrt mix c v2 bottleneck name ch s proj ch (i + 1) (if i = 0 then up H s else H) (if i = 0 then up W s else W) n

/-- The groups from number `i` on. -/
def groupsF [Field K] [LinearOrder K] (get : ParamFn K) (rsqrt : K → K) (mix : Bool) (c : BnConfig K) (v2 bottleneck : Bool) (name : String) : Nat → Nat → Nat → Nat → List Group → Formula K
  | _, _, _, _, [] => keep
  | cin, i, H, W, g :: gs => blocksF get rsqrt mix c v2 bottleneck (name ++ "/~/block_group_" ++ toString i) g.2.1 g.2.2.1 g.2.2.2 cin 0 H W g.1 ⨾
    groupsF get rsqrt mix c v2 bottleneck name (after cin g) (i + 1) (groupUp H g) (groupUp W g) gs

/-- The size after the groups. -/
def lastSize (a : Args K) (n : Nat) : Nat := (groupsOf a).foldl groupUp (up (up n 2) 2)

/-- All of a network before the averages of the channels. -/
def trunkF [Field K] [LinearOrder K] (get : ParamFn K) (rsqrt : K → K) (mix : Bool) (name : String) (a : Args K) (H W C : Nat) : Formula K :=
  convF get (name ++ "/~/initial_conv") 7 2 H W C 64 ⨾
  (if a.resnetV2 then keep else normF get rsqrt mix a.bnConfig (name ++ "/~/initial_batchnorm") (up H 2) (up W 2) 64 ⨾ positive) ⨾
  (fun _ _ f => (poolMax (up H 2) (up W 2) f, [])) ⨾
  groupsF get rsqrt mix a.bnConfig a.resnetV2 a.bottleneck name 64 0 (up (up H 2) 2) (up (up W 2) 2) (groupsOf a) ⨾
  if a.resnetV2 then normF get rsqrt mix a.bnConfig (name ++ "/~/final_batchnorm") (lastSize a H) (lastSize a W) (lastChannels a) ⨾ positive else keep

/-- The output of a network for an example and a class. -/
def netValue [Field K] [LinearOrder K] (get : ParamFn K) (rsqrt : K → K) (mix : Bool) (name : String) (a : Args K) (H W C N : Nat) (st : States K) (f : Elements K) (e k : Nat) : K :=
  (∑ c ∈ range (lastChannels a), pictureMean (lastSize a H) (lastSize a W) (trunkF get rsqrt mix name a H W C N st f).1 e c * par get (name ++ "/~/" ++ a.logitsName) "w" [lastChannels a, a.numClasses] [c, k]) +
    if a.logitsBias then par get (name ++ "/~/" ++ a.logitsName) "b" [a.numClasses] [k] else 0

/-! ### Formulas of stages -/

theorem andThen_assoc (a b c : Formula K) : (a ⨾ b) ⨾ c = a ⨾ b ⨾ c := by
  funext N st f
  unfold andThen
  dsimp only
  rw [List.append_assoc]

theorem andThen_keep (a : Formula K) : a ⨾ keep = a := by
  funext N st f
  show ((a N st f).1, (a N st f).2 ++ []) = _
  rw [List.append_nil]

theorem keep_andThen (a : Formula K) : keep ⨾ a = a := rfl

section Run
variable [Field K] [LinearOrder K] {get : ParamFn K} {rsqrt : K → K} {tr tl : Bool} {d : K}

/-- The stage computes the formula; the batch normalisations are `bns`, in that order. -/
structure Has (tr tl : Bool) (d : K) (F : Stage K) (bns : List (String × Nat)) (H W C H' W' C' : Nat) (T : Formula K) : Prop where
  does : Does tr tl d F bns H W C H' W' C' (fun N st f => (T N st f).1) fun N st f => (T N st f).2
  list : ∀ N st f, ((T N st f).2.map fun b => (b.name, b.C)) = bns

variable {F G : Stage K} {b1 b2 : List (String × Nat)} {H W C H1 W1 C1 H2 W2 C2 : Nat} {T T1 T2 : Formula K}

theorem Has.comp (h1 : Has tr tl d F b1 H W C H1 W1 C1 T1) (h2 : Has tr tl d G b2 H1 W1 C1 H2 W2 C2 T2) (hd : Apart b1 b2) : Has tr tl d (Verif.Stage.comp F G) (b1 ++ b2) H W C H2 W2 C2 (T1 ⨾ T2) :=
  ⟨h1.does.comp h2.does hd, fun N st f => by
    show ((T1 N st f).2 ++ (T2 N st (T1 N st f).1).2).map _ = _
    rw [List.map_append, h1.list, h2.list]⟩

theorem Has.residual (h1 : Has tr tl d F b1 H W C H1 W1 C1 T1) (h2 : Has tr tl d G b2 H W C H1 W1 C1 T2) (hd : Apart b1 b2) : Has tr tl d (Verif.Stage.residual F G) (b1 ++ b2) H W C H1 W1 C1 (plus T1 T2) :=
  ⟨h1.does.residual h2.does hd, fun N st f => by
    show ((T1 N st f).2 ++ (T2 N st f).2).map _ = _
    rw [List.map_append, h1.list, h2.list]⟩

theorem Has.congr (h : Has tr tl d G b1 H W C H1 W1 C1 T) (e : ∀ st x, F st x = G st x) : Has tr tl d F b1 H W C H1 W1 C1 T := ⟨h.does.congr e, h.list⟩

theorem Has.mem (h : Has tr tl d F b1 H W C H1 W1 C1 T) (e : b2 = b1) : Has tr tl d F b2 H W C H1 W1 C1 T := e ▸ h

theorem Has.keep (H W C : Nat) : Has tr tl d (fun st (x : Arr K) => .ok (x, st)) [] H W C H W C keep := ⟨Does.id H W C, fun _ _ _ => rfl⟩

theorem Has.positive (H W C : Nat) : Has tr tl d (lift fun x : Arr K => .ok (relu x)) [] H W C H W C positive := ⟨Does.relu H W C, fun _ _ _ => rfl⟩

theorem Has.conv {name : String} {k s C ch : Nat} (hk : 1 ≤ k) (hs : 1 ≤ s) (hp : There get (name, "w", [k, k, C, ch])) (H W : Nat) :
    Has tr tl d (lift ((convModule (K := K) name ch k s).call get)) [] H W C (up H s) (up W s) ch (convF get name k s H W C ch) := ⟨Does.conv hk hs hp H W, fun _ _ _ => rfl⟩

theorem Has.norm {c : BnConfig K} {name : String} {C : Nat} (hp : BnParams get (bnOf c name) C) (H W : Nat) :
    Has tr tl (c.decayRate.getD (9 / 10)) (runBn get rsqrt tr tl (bnOf c name)) [(name, C)] H W C H W C (normF get rsqrt (tr || tl) c name H W C) := ⟨Does.bn (bn_plain c name) rfl hp H W, fun _ _ _ => rfl⟩

theorem apart_nil (b : List (String × Nat)) : Apart [] b := fun n h => absurd h List.not_mem_nil

theorem nil_apart (b : List (String × Nat)) : Apart b [] := fun n _ h => absurd h List.not_mem_nil

/-! ### Blocks -/

/-- The formula of the layers of version 1. -/
def layersV1 (get : ParamFn K) (rsqrt : K → K) (mix : Bool) (c : BnConfig K) : List Layer → Nat → Nat → Formula K
  | [], _, _ => keep
  | l :: ls, H, W => (convF get l.conv l.size l.stride H W l.cin l.cout ⨾ normF get rsqrt mix c l.bn (up H l.stride) (up W l.stride) l.cout) ⨾ (if ls.isEmpty then keep else positive) ⨾ layersV1 get rsqrt mix c ls (up H l.stride) (up W l.stride)

/-- The formula of the layers of version 2. -/
def layersV2 (get : ParamFn K) (rsqrt : K → K) (mix : Bool) (c : BnConfig K) : List Layer → Nat → Nat → Formula K
  | [], _, _ => keep
  | l :: ls, H, W => (normF get rsqrt mix c l.bn H W l.cin ⨾ positive) ⨾ convF get l.conv l.size l.stride H W l.cin l.cout ⨾ layersV2 get rsqrt mix c ls (up H l.stride) (up W l.stride)

theorem has_v1 (c : BnConfig K) : ∀ (ls : List Layer) (H W cin cout : Nat), Chained cin ls cout → Params get c false ls → (ls.map Layer.bn).Nodup →
    Has tr tl (c.decayRate.getD (9 / 10)) (BlockV1.loop get rsqrt tr tl (ls.map (Layer.pair c))) (ls.map fun l => (l.bn, l.cout)) H W cin (ups H ls) (ups W ls) cout (layersV1 get rsqrt (tr || tl) c ls H W)
  | [], H, W, cin, cout, hc, _, _ => by
    have hc : cin = cout := hc
    subst hc
    exact Has.congr (Has.keep H W cin) fun st x => rfl
  | l :: ls, H, W, cin, cout, hc, hp, hn => by
    obtain ⟨h1, h2, h3, h4⟩ := hc
    obtain ⟨p1, p2⟩ := hp l List.mem_cons_self
    subst h1
    have ih := has_v1 c ls (up H l.stride) (up W l.stride) l.cout cout h4 (fun l hl => hp l (List.mem_cons_of_mem _ hl)) (List.nodup_cons.mp hn).2
    have hr : Has tr tl (c.decayRate.getD (9 / 10)) (lift fun x : Arr K => .ok (if (ls.map (Layer.pair c)).isEmpty then x else relu x)) [] (up H l.stride) (up W l.stride) l.cout (up H l.stride) (up W l.stride) l.cout
        (if ls.isEmpty then keep else positive) := by
      cases ls with
      | nil => exact Has.keep ..
      | cons b bs => exact Has.positive ..
    refine Has.congr ((Has.comp (Has.comp (Has.conv h2 h3 p1 H W) (Has.norm p2 _ _) (apart_nil _)) (Has.comp hr ih (apart_nil _)) ?_)) (v1_cons _ _)
    intro n h1 h2
    rw [List.mem_singleton.mp h1] at h2
    have h2 : l.bn ∈ (ls.map fun l => (l.bn, l.cout)).map Prod.fst := h2
    rw [List.map_map] at h2
    exact (List.nodup_cons.mp hn).1 h2

theorem has_v2 (c : BnConfig K) : ∀ (ls : List Layer) (H W cin cout : Nat), Chained cin ls cout → Params get c true ls → (ls.map Layer.bn).Nodup →
    Has tr tl (c.decayRate.getD (9 / 10)) (v2Stage get rsqrt tr tl (ls.map (Layer.pair c))) (ls.map fun l => (l.bn, l.cin)) H W cin (ups H ls) (ups W ls) cout (layersV2 get rsqrt (tr || tl) c ls H W)
  | [], H, W, cin, cout, hc, _, _ => by
    have hc : cin = cout := hc
    subst hc
    exact Has.keep ..
  | l :: ls, H, W, cin, cout, hc, hp, hn => by
    obtain ⟨h1, h2, h3, h4⟩ := hc
    obtain ⟨p1, p2⟩ := hp l List.mem_cons_self
    subst h1
    have ih := has_v2 c ls (up H l.stride) (up W l.stride) l.cout cout h4 (fun l hl => hp l (List.mem_cons_of_mem _ hl)) (List.nodup_cons.mp hn).2
    refine Has.comp (b1 := [(l.bn, l.cin)]) (Has.comp (Has.norm p2 H W) (Has.positive ..) (nil_apart _)) (Has.comp (Has.conv h2 h3 p1 H W) ih (apart_nil _)) ?_
    intro n h1 h2
    rw [List.mem_singleton.mp h1] at h2
    have h2 : l.bn ∈ (ls.map fun l => (l.bn, l.cin)).map Prod.fst := h2
    rw [List.map_map] at h2
    exact (List.nodup_cons.mp hn).1 h2

theorem zero_name (name : String) : name ++ "/~/conv_" ++ toString 0 = name ++ "/~/conv_0" ∧ name ++ "/~/conv_" ++ toString 1 = name ++ "/~/conv_1" ∧ name ++ "/~/conv_" ++ toString 2 = name ++ "/~/conv_2" ∧
    name ++ "/~/batchnorm_" ++ toString 0 = name ++ "/~/batchnorm_0" ∧ name ++ "/~/batchnorm_" ++ toString 1 = name ++ "/~/batchnorm_1" ∧ name ++ "/~/batchnorm_" ++ toString 2 = name ++ "/~/batchnorm_2" := by
  refine ⟨?_, ?_, ?_, ?_, ?_, ?_⟩ <;> rw [String.append_assoc] <;> rfl

theorem named_v1 (mix : Bool) (c : BnConfig K) (bottleneck : Bool) (name : String) (cin ch s H W : Nat) :
    layersV1 get rsqrt mix c (named bottleneck name cin ch s) H W = bodyV1 get rsqrt mix c bottleneck name cin ch s H W := by
  obtain ⟨e1, e2, e3, e4, e5, e6⟩ := zero_name name
  unfold named blockLayers bodyV1
  cases bottleneck
  · simp only [Bool.false_eq_true, if_false, List.map_cons, List.map_nil, layersV1, List.isEmpty_cons, List.isEmpty_nil, if_true, andThen_keep, andThen_assoc, up_one, e1, e2, e4, e5]
  · simp only [Bool.false_eq_true, if_false, List.map_cons, List.map_nil, layersV1, List.isEmpty_cons, List.isEmpty_nil, if_true, andThen_keep, andThen_assoc, up_one, e1, e2, e3, e4, e5, e6]

theorem named_v2 (mix : Bool) (c : BnConfig K) (bottleneck : Bool) (name : String) (cin ch s H W : Nat) :
    layersV2 get rsqrt mix c (named bottleneck name cin ch s) H W = headV2 get rsqrt mix c name cin H W ⨾ tailV2 get rsqrt mix c bottleneck name cin ch s H W := by
  obtain ⟨e1, e2, e3, e4, e5, e6⟩ := zero_name name
  unfold named blockLayers headV2 tailV2
  cases bottleneck
  · simp only [Bool.false_eq_true, if_false, List.map_cons, List.map_nil, layersV2, andThen_keep, andThen_assoc, e1, e2, e4, e5]
  · simp only [List.map_cons, List.map_nil, layersV2, if_true, andThen_keep, andThen_assoc, up_one, e1, e2, e3, e4, e5, e6]

/-- The first layer of version 2 and the others. -/
theorem named_tail (mix : Bool) (c : BnConfig K) (bottleneck : Bool) (name : String) (cin ch s H W : Nat) {l : Layer} {ls : List Layer} (h : named bottleneck name cin ch s = l :: ls) :
    normF get rsqrt mix c l.bn H W l.cin ⨾ positive = headV2 get rsqrt mix c name cin H W ∧
    convF get l.conv l.size l.stride H W l.cin l.cout ⨾ layersV2 get rsqrt mix c ls (up H l.stride) (up W l.stride) = tailV2 get rsqrt mix c bottleneck name cin ch s H W := by
  obtain ⟨e1, e2, e3, e4, e5, e6⟩ := zero_name name
  unfold named blockLayers at h
  unfold headV2 tailV2
  cases bottleneck
  · simp only [Bool.false_eq_true, if_false, List.map_cons, List.map_nil, List.cons.injEq] at h
    obtain ⟨rfl, rfl⟩ := h
    simp only [Bool.false_eq_true, if_false, layersV2, andThen_keep, andThen_assoc, e1, e2, e4, e5, and_self]
  · simp only [if_true, List.map_cons, List.map_nil, List.cons.injEq] at h
    obtain ⟨rfl, rfl⟩ := h
    simp only [if_true, layersV2, andThen_keep, andThen_assoc, up_one, e1, e2, e3, e4, e5, e6, and_self]

theorem has_block {a : Args K} {name : String} {cin ch stride : Nat} {proj : Bool} (hs : 1 ≤ stride) (hfit : proj = true ∨ (stride = 1 ∧ cin = ch))
    (hp : ∀ p ∈ blockParams (kindOf a) name cin ch proj, There get p) (H W : Nat) :
    Has tr tl (a.bnConfig.decayRate.getD (9 / 10)) ((blockOf a.bnConfig a.resnetV2 a.bottleneck name ch stride proj).call get rsqrt tr tl) (blockBns (kindOf a) name cin ch proj) H W cin (up H stride) (up W stride) ch
      (blockF get rsqrt (tr || tl) a.bnConfig a.resnetV2 a.bottleneck name cin ch stride proj H W) := by
  have hnd := block_nodup (kindOf a) name cin ch proj
  have hps := named_params (stride := stride) hp
  have hproj : proj = true → There get (name ++ "/~/shortcut_conv", "w", [1, 1, cin, ch]) := fun h => hp _ (by
    unfold blockParams
    rw [h, if_pos rfl]
    exact List.mem_append_left _ List.mem_cons_self)
  rw [named_bns (stride := stride)] at hnd ⊢
  have hk : (kindOf a).bottleneck = a.bottleneck := rfl
  have hv2 : (kindOf a).v2 = a.resnetV2 := rfl
  rw [hk, hv2] at hnd ⊢
  have hnd2 : ((named a.bottleneck name cin ch stride).map Layer.bn).Nodup := by
    have := nodup_right hnd
    rwa [List.map_map] at this
  have hap := apart_of_nodup hnd
  unfold blockOf
  cases hv : a.resnetV2 with
  | false =>
    rw [hv] at hps hap
    rw [if_neg Bool.false_ne_true]
    have hl := has_v1 (tr := tr) (tl := tl) (rsqrt := rsqrt) a.bnConfig (named a.bottleneck name cin ch stride) H W cin ch (named_chained a.bottleneck name cin ch hs) hps hnd2
    rw [named_ups, named_ups, named_v1] at hl
    cases proj with
    | true =>
      have hsc : Has tr tl (a.bnConfig.decayRate.getD (9 / 10)) (BlockV1.shortcut get rsqrt tr tl (some (convModule (name ++ "/~/shortcut_conv") ch 1 stride, bnOf a.bnConfig (name ++ "/~/shortcut_batchnorm")))) [(name ++ "/~/shortcut_batchnorm", ch)]
          H W cin (up H stride) (up W stride) ch (convF get (name ++ "/~/shortcut_conv") 1 stride H W cin ch ⨾ normF get rsqrt (tr || tl) a.bnConfig (name ++ "/~/shortcut_batchnorm") (up H stride) (up W stride) ch) := by
        refine Has.congr (Has.comp (b1 := []) (Has.conv (Nat.le_refl _) hs (hproj rfl) H W) (Has.norm (rsqrt := rsqrt) (bn_there fun p h => hp p ?_) _ _) (apart_nil _)) fun st x => ?_
        · unfold blockParams
          rw [if_pos rfl, hv2, hv, if_neg Bool.false_ne_true]
          exact List.mem_append_left _ (List.mem_cons_of_mem _ h)
        · show ((convModule (name ++ "/~/shortcut_conv") ch 1 stride).call get x >>= _) = ((convModule (name ++ "/~/shortcut_conv") ch 1 stride).call get x >>= _) >>= _
          rcases (convModule (name ++ "/~/shortcut_conv") ch 1 stride).call get x with e | y
          · rfl
          rfl
      refine Has.mem (Has.congr (Has.comp (Has.residual hsc hl hap) (Has.positive ..) (nil_apart _)) (F := fun st x => BlockV1.call get rsqrt tr tl _ st x) (fun st x => ?_)) (by rw [List.append_nil]; rfl)
      rw [v1_call, named_pair a.bnConfig a.bottleneck name cin]
      rfl
    | false =>
      obtain ⟨rfl, rfl⟩ := hfit.resolve_left Bool.false_ne_true
      rw [up_one, up_one] at hl ⊢
      refine Has.mem (Has.congr (Has.comp (Has.residual (b1 := []) (Has.keep ..) hl (apart_nil _)) (Has.positive ..) (nil_apart _)) (F := fun st x => BlockV1.call get rsqrt tr tl _ st x)
        (fun st x => ?_)) (by rw [List.append_nil]; rfl)
      rw [v1_call, named_pair a.bnConfig a.bottleneck name cin]
      rfl
  | true =>
    rw [hv] at hps
    rw [if_pos rfl]
    cases proj with
    | false =>
      obtain ⟨rfl, rfl⟩ := hfit.resolve_left Bool.false_ne_true
      have hl := has_v2 (tr := tr) (tl := tl) (rsqrt := rsqrt) a.bnConfig (named a.bottleneck name cin cin 1) H W cin cin (named_chained a.bottleneck name cin cin hs) hps hnd2
      rw [named_ups, named_ups, up_one, up_one, named_v2] at hl
      rw [up_one, up_one]
      refine Has.congr (Has.residual (b1 := []) (Has.keep ..) hl (apart_nil _)) (F := fun st x => BlockV2.call get rsqrt tr tl _ st x) (fun st x => ?_)
      rw [← named_pair]
      exact v2_call_none ..
    | true =>
      obtain ⟨l, ls, hls, hc⟩ : ∃ l ls, named a.bottleneck name cin ch stride = l :: ls ∧ Chained cin (l :: ls) ch := by
        have hc := named_chained a.bottleneck name cin ch hs
        cases h : named a.bottleneck name cin ch stride with
        | nil =>
          unfold named blockLayers at h
          cases hb : a.bottleneck <;> rw [hb] at h <;> cases h
        | cons l ls => rw [h] at hc; exact ⟨l, ls, rfl, hc⟩
      have hu := named_ups a.bottleneck name cin ch stride
      have hT := named_tail (get := get) (rsqrt := rsqrt) (tr || tl) a.bnConfig a.bottleneck name cin ch stride H W hls
      rw [hls] at hps hnd2 hu ⊢
      obtain ⟨h1, h2, h3, h4⟩ := hc
      obtain ⟨p1, p2⟩ := hps l List.mem_cons_self
      have hbn : Has tr tl (a.bnConfig.decayRate.getD (9 / 10)) (runBn get rsqrt tr tl (l.pair a.bnConfig).2) [(l.bn, l.cin)] H W cin H W cin (normF get rsqrt (tr || tl) a.bnConfig l.bn H W l.cin) := by rw [← h1]; exact Has.norm p2 H W
      have hconv : Has tr tl (a.bnConfig.decayRate.getD (9 / 10)) (lift ((l.pair a.bnConfig).1.call get)) [] H W cin (up H l.stride) (up W l.stride) l.cout (convF get l.conv l.size l.stride H W l.cin l.cout) := by
        rw [← h1]; exact Has.conv h2 h3 p1 H W
      have hl := has_v2 (tr := tr) (tl := tl) (rsqrt := rsqrt) a.bnConfig ls (up H l.stride) (up W l.stride) l.cout ch h4 (fun l hl => hps l (List.mem_cons_of_mem _ hl)) (List.nodup_cons.mp hnd2).2
      have hH : ups (up H l.stride) ls = up H stride := hu H
      have hW : ups (up W l.stride) ls = up W stride := hu W
      rw [hH, hW] at hl
      have hpc : Has tr tl (a.bnConfig.decayRate.getD (9 / 10)) (lift ((convModule (name ++ "/~/shortcut_conv") ch 1 stride).call get)) [] H W cin (up H stride) (up W stride) ch (convF get (name ++ "/~/shortcut_conv") 1 stride H W cin ch) :=
        Has.conv (Nat.le_refl _) hs (hproj rfl) H W
      have hall := Has.comp (b1 := [(l.bn, l.cin)]) (Has.comp hbn (Has.positive ..) (nil_apart _)) (Has.residual (b1 := []) hpc (Has.comp (b1 := []) hconv hl (apart_nil _)) (apart_nil _)) (by
        intro n k1 k2
        rw [List.mem_singleton.mp k1] at k2
        have k2 : l.bn ∈ (ls.map fun l => (l.bn, l.cin)).map Prod.fst := k2
        rw [List.map_map] at k2
        exact (List.nodup_cons.mp hnd2).1 k2)
      rw [hT.1, hT.2] at hall
      refine Has.congr hall (F := fun st x => BlockV2.call get rsqrt tr tl _ st x) (fun st x => ?_)
      rw [named_pair a.bnConfig a.bottleneck name cin, hls]
      exact v2_call_some ..

/-! ### Groups and the network -/

theorem has_tail {a : Args K} {name : String} {ch stride : Nat} {proj : Bool} (H W : Nat) : ∀ (n i : Nat), 1 ≤ i → (∀ p ∈ blocksParams (kindOf a) name ch proj ch i n, There get p) →
    Has tr tl (a.bnConfig.decayRate.getD (9 / 10)) (runBlocks get rsqrt tr tl (blocksOf a.bnConfig a.resnetV2 a.bottleneck name ch stride proj i n)) (blocksBns (kindOf a) name ch proj ch i n) H W ch H W ch
      (blocksF get rsqrt (tr || tl) a.bnConfig a.resnetV2 a.bottleneck name ch stride proj ch i H W n)
  | 0, i, _, _ => Has.congr (Has.keep ..) fun st x => rfl
  | n + 1, i, hi, hp => by
    have hi0 : ¬ i = 0 := by omega
    have e1 : (decide (i = 0) && proj) = false := by rw [decide_eq_false hi0, Bool.false_and]
    have hb := has_block (tr := tr) (tl := tl) (rsqrt := rsqrt) (get := get) (a := a) (name := name ++ "/~/block_" ++ toString i) (cin := ch) (ch := ch) (stride := 1) (proj := false) (Nat.le_refl _) (.inr ⟨rfl, rfl⟩)
      (fun p h => hp p (by unfold blocksParams; rw [e1]; exact List.mem_append_left _ h)) H W
    rw [up_one, up_one] at hb
    have ih := has_tail (a := a) (name := name) (ch := ch) (stride := stride) (proj := proj) H W n (i + 1) (by omega) (fun p h => hp p (by unfold blocksParams; exact List.mem_append_right _ h))
    have hn := blocks_nodup (kindOf a) name ch proj (n + 1) ch i
    unfold blocksBns blocksOf blocksF
    unfold blocksBns at hn
    rw [e1] at hn ⊢
    rw [if_neg hi0, if_neg hi0, if_neg hi0]
    exact Has.congr (Has.comp hb ih (apart_of_nodup hn)) (runBlocks_cons _ _)

theorem has_group {a : Args K} {name : String} (g : Group) (hs : 1 ≤ g.2.2.1) (cin H W : Nat) (hfit : g.1 = 0 ∨ g.2.2.2 = true ∨ (g.2.2.1 = 1 ∧ cin = g.2.1))
    (hp : ∀ p ∈ blocksParams (kindOf a) name g.2.1 g.2.2.2 cin 0 g.1, There get p) :
    Has tr tl (a.bnConfig.decayRate.getD (9 / 10)) (runBlocks get rsqrt tr tl (blocksOf a.bnConfig a.resnetV2 a.bottleneck name g.2.1 g.2.2.1 g.2.2.2 0 g.1)) (blocksBns (kindOf a) name g.2.1 g.2.2.2 cin 0 g.1) H W cin
      (groupUp H g) (groupUp W g) (after cin g) (blocksF get rsqrt (tr || tl) a.bnConfig a.resnetV2 a.bottleneck name g.2.1 g.2.2.1 g.2.2.2 cin 0 H W g.1) := by
  obtain ⟨n, ch, s, proj⟩ := g
  cases n with
  | zero => exact Has.congr (Has.keep ..) fun st x => rfl
  | succ n =>
    have hfit := hfit.resolve_left (Nat.succ_ne_zero n)
    have hb := has_block (tr := tr) (tl := tl) (rsqrt := rsqrt) (get := get) (a := a) (name := name ++ "/~/block_" ++ toString 0) (cin := cin) (ch := ch) (stride := s) (proj := proj) hs hfit
      (fun p h => hp p (by unfold blocksParams; exact List.mem_append_left _ h)) H W
    have ih := has_tail (tr := tr) (tl := tl) (rsqrt := rsqrt) (a := a) (name := name) (ch := ch) (stride := s) (proj := proj) (up H s) (up W s) n 1 (Nat.le_refl _) (fun p h => hp p (by unfold blocksParams; exact List.mem_append_right _ h))
    have hn := blocks_nodup (kindOf a) name ch proj (n + 1) cin 0
    exact Has.congr (Has.comp hb ih (apart_of_nodup hn)) (runBlocks_cons _ _)

theorem has_groups {a : Args K} {name : String} : ∀ (gs : List Group) (cin i H W : Nat), (∀ g ∈ gs, 1 ≤ g.2.2.1) → Fits cin gs → (∀ p ∈ groupsParams (kindOf a) name cin i gs, There get p) →
    Has tr tl (a.bnConfig.decayRate.getD (9 / 10)) (runGroups get rsqrt tr tl (groupBlocksOf a name i gs)) (groupsBns (kindOf a) name cin i gs) H W cin (gs.foldl groupUp H) (gs.foldl groupUp W) (gs.foldl after cin)
      (groupsF get rsqrt (tr || tl) a.bnConfig a.resnetV2 a.bottleneck name cin i H W gs)
  | [], cin, i, H, W, _, _, _ => Has.congr (Has.keep ..) fun st x => rfl
  | g :: gs, cin, i, H, W, hs, hf, hp => by
    have hg := has_group (tr := tr) (tl := tl) (rsqrt := rsqrt) (a := a) (name := name ++ "/~/block_group_" ++ toString i) g (hs g List.mem_cons_self) cin H W hf.1
      (fun p h => hp p (by unfold groupsParams; exact List.mem_append_left _ h))
    have ih := has_groups (a := a) (name := name) gs (after cin g) (i + 1) (groupUp H g) (groupUp W g) (fun g h => hs g (List.mem_cons_of_mem _ h)) hf.2 (fun p h => hp p (by unfold groupsParams; exact List.mem_append_right _ h))
    have hn := groups_nodup (kindOf a) name (g :: gs) cin i
    exact Has.congr (Has.comp hg ih (apart_of_nodup hn)) (runGroups_cons _ _)

theorem has_normed {c : BnConfig K} {name : String} {C : Nat} (H W : Nat) (hp : ∀ p ∈ bnParams (c.createScale.getD true) (c.createOffset.getD true) name C, There get p) :
    Has tr tl (c.decayRate.getD (9 / 10)) (normed get rsqrt tr tl (some (bnOf c name))) [(name, C)] H W C H W C (normF get rsqrt (tr || tl) c name H W C ⨾ positive) := by
  refine Has.mem (Has.congr (Has.comp (Has.norm (rsqrt := rsqrt) (bn_there hp) H W) (Has.positive ..) (nil_apart _)) fun st x => ?_) (by rw [List.append_nil])
  show (runBn get rsqrt tr tl (bnOf c name) st x >>= _) = runBn get rsqrt tr tl (bnOf c name) st x >>= _
  rcases runBn get rsqrt tr tl (bnOf c name) st x with e | ⟨y, st'⟩
  · rfl
  rfl

/-- All of a network before the averages of the channels. -/
def pictures (get : ParamFn K) (rsqrt : K → K) (tr tl : Bool) (m : Net K) : Stage K :=
  comp (lift (m.initialConv.call get)) (comp (normed get rsqrt tr tl m.initialBn) (comp (lift fun x => maxPool x [1, 3, 3, 1] [1, 2, 2, 1]) (comp (runGroups get rsqrt tr tl m.groups) (normed get rsqrt tr tl m.finalBn))))

theorem pictures_call (m : Net K) (st : States K) (x : Arr K) : m.call get rsqrt st x tr tl = comp (pictures get rsqrt tr tl m) (lift fun y => spatialMean y >>= fun z => m.logits.call get z >>= fun p => .ok p.1) st x := by
  show (m.initialConv.call get x >>= _) = ((m.initialConv.call get x >>= _) >>= _) >>= _
  rcases m.initialConv.call get x with e | y
  · rfl
  show (normed get rsqrt tr tl m.initialBn st y >>= _) = (normed get rsqrt tr tl m.initialBn st y >>= _) >>= _
  rcases normed get rsqrt tr tl m.initialBn st y with e | ⟨z, st1⟩
  · rfl
  show (maxPool z [1, 3, 3, 1] [1, 2, 2, 1] >>= _) = ((maxPool z [1, 3, 3, 1] [1, 2, 2, 1] >>= _) >>= _) >>= _
  rcases maxPool z [1, 3, 3, 1] [1, 2, 2, 1] with e | w
  · rfl
  show (runGroups get rsqrt tr tl m.groups st1 w >>= _) = (runGroups get rsqrt tr tl m.groups st1 w >>= _) >>= _
  rcases runGroups get rsqrt tr tl m.groups st1 w with e | ⟨v, st2⟩
  · rfl
  show (normed get rsqrt tr tl m.finalBn st2 v >>= _) = normed get rsqrt tr tl m.finalBn st2 v >>= _
  rcases normed get rsqrt tr tl m.finalBn st2 v with e | ⟨u, st3⟩
  · rfl
  show (spatialMean u >>= _) = (spatialMean u >>= _) >>= _
  rcases spatialMean u with e | t
  · rfl
  show (m.logits.call get t >>= _) = (m.logits.call get t >>= _) >>= _
  rcases m.logits.call get t with e | ⟨r, l⟩
  · rfl
  rfl

theorem has_pictures {name : String} {a : Args K} (hfit : Fits 64 (groupsOf a)) (C H W : Nat) (hp : ∀ p ∈ netParams name a C, There get p) :
    Has tr tl (a.bnConfig.decayRate.getD (9 / 10)) (pictures get rsqrt tr tl (netOf name a)) (netBns name a) H W C (lastSize a H) (lastSize a W) (lastChannels a) (trunkF get rsqrt (tr || tl) name a H W C) := by
  have hconv : Has tr tl (a.bnConfig.decayRate.getD (9 / 10)) (lift ((netOf name a).initialConv.call get)) [] H W C (up H 2) (up W 2) 64 (convF get (name ++ "/~/initial_conv") 7 2 H W C 64) := Has.conv (by decide) (by decide) (hp _ (by
    unfold netParams
    exact List.mem_cons_self)) H W
  have hgr := fun H W => has_groups (tr := tr) (tl := tl) (rsqrt := rsqrt) (get := get) (a := a) (name := name) (groupsOf a) 64 0 H W (groups_pos a) hfit (fun p h => hp p (by
    unfold netParams
    simp only [List.cons_append, List.mem_cons, List.mem_append]
    exact .inr (.inl (.inl (.inr h)))))
  have hn := net_nodup name a
  have hini : Has tr tl (a.bnConfig.decayRate.getD (9 / 10)) (normed get rsqrt tr tl (netOf name a).initialBn) (if a.resnetV2 then [] else [(name ++ "/~/initial_batchnorm", 64)]) (up H 2) (up W 2) 64 (up H 2) (up W 2) 64
      (if a.resnetV2 then keep else normF get rsqrt (tr || tl) a.bnConfig (name ++ "/~/initial_batchnorm") (up H 2) (up W 2) 64 ⨾ positive) := by
    unfold netOf
    dsimp only
    cases hv : a.resnetV2 with
    | true => exact Has.congr (Has.keep ..) fun st x => rfl
    | false =>
      refine has_normed _ _ fun p h => hp p ?_
      unfold netParams
      rw [hv]
      simp only [Bool.false_eq_true, if_false, List.cons_append, List.mem_cons, List.mem_append]
      exact .inr (.inl (.inl (.inl h)))
  have hfin : Has tr tl (a.bnConfig.decayRate.getD (9 / 10)) (normed get rsqrt tr tl (netOf name a).finalBn) (if a.resnetV2 then [(name ++ "/~/final_batchnorm", lastChannels a)] else []) (lastSize a H) (lastSize a W) (lastChannels a)
      (lastSize a H) (lastSize a W) (lastChannels a) (if a.resnetV2 then normF get rsqrt (tr || tl) a.bnConfig (name ++ "/~/final_batchnorm") (lastSize a H) (lastSize a W) (lastChannels a) ⨾ positive else keep) := by
    unfold netOf
    dsimp only
    cases hv : a.resnetV2 with
    | false => exact Has.congr (Has.keep ..) fun st x => rfl
    | true =>
      refine has_normed _ _ fun p h => hp p ?_
      unfold netParams
      rw [hv]
      simp only [if_true, List.cons_append, List.mem_cons, List.mem_append]
      exact .inr (.inl (.inr h))
  have hpool : Has tr tl (a.bnConfig.decayRate.getD (9 / 10)) (lift fun x : Arr K => maxPool x [1, 3, 3, 1] [1, 2, 2, 1]) [] (up H 2) (up W 2) 64 (up (up H 2) 2) (up (up W 2) 2) 64 (fun _ _ f => (poolMax (up H 2) (up W 2) f, [])) :=
    ⟨Does.pool .., fun _ _ _ => rfl⟩
  unfold netBns at hn ⊢
  rw [List.append_assoc] at hn
  have h1 := Has.comp (hgr (up (up H 2) 2) (up (up W 2) 2)) hfin (apart_of_nodup (nodup_right hn))
  have h2 := Has.comp hconv (Has.comp hini (Has.comp hpool h1 (apart_nil _)) (apart_of_nodup hn)) (apart_nil _)
  exact Has.mem h2 (by rw [List.nil_append, List.nil_append, List.append_assoc])

/-! ### What blocks and networks compute -/

/-- C128: a block computes `blockF`: the convolutions, each with a batch normalisation and `relu` after it in version 1 and before it in version 2, and the input, or its projection, added. -/
theorem block_computes {a : Args K} {name : String} {cin ch stride : Nat} {proj : Bool} {m : Block K} (hm : Block.make a.resnetV2 name ch (.scalar (stride : Int)) proj a.bnConfig.withDefaults a.bottleneck = .ok m) (hs : 1 ≤ stride)
    (hfit : proj = true ∨ (stride = 1 ∧ cin = ch)) (hp : ∀ p ∈ blockParams (kindOf a) name cin ch proj, There get p) {N H W : Nat} {x : Arr K} (hx : x.shape = [N, H, W, cin])
    {st : States K} (hr : ∀ b ∈ blockBns (kindOf a) name cin ch proj, Ready tr tl b.2 (st b.1)) :
    ∃ y st', m.call get rsqrt tr tl st x = .ok (y, st') ∧ y.shape = [N, up H stride, up W stride, ch] ∧ ∀ e < N, ∀ h < up H stride, ∀ w < up W stride, ∀ c < ch,
      y.val [e, h, w, c] = (blockF get rsqrt (tr || tl) a.bnConfig a.resnetV2 a.bottleneck name cin ch stride proj H W N st fun e h w c => x.val [e, h, w, c]).1 e h w c := by
  obtain rfl := made_block hm
  obtain ⟨y, st', h1, h2⟩ := (has_block (tr := tr) (tl := tl) (rsqrt := rsqrt) hs hfit hp H W).does.computes N st x _ (el_is hx) hr
  exact ⟨y, st', h1, h2.shape, h2.val⟩

/-- C128: a network computes `netValue`: a convolution, in version 1 with batch normalisation and `relu`, the greatest elements of windows, the groups of blocks, in version 2 a batch normalisation and `relu`, the averages of the channels,
and a linear layer. -/
theorem net_computes {name : String} {a : Args K} {m : Net K} (hm : Net.make name a = .ok m) (hfit : Fits 64 (groupsOf a)) {C : Nat} (hp : ∀ p ∈ netParams name a C, There get p) {N H W : Nat} {x : Arr K} (hx : x.shape = [N, H, W, C])
    {st : States K} (hr : ∀ b ∈ netBns name a, Ready tr tl b.2 (st b.1)) :
    ∃ y st', m.call get rsqrt st x tr tl = .ok (y, st') ∧ y.shape = [N, a.numClasses] ∧ ∀ e < N, ∀ k < a.numClasses,
      y.val [e, k] = netValue get rsqrt (tr || tl) name a H W C N st (fun e h w c => x.val [e, h, w, c]) e k := by
  obtain ⟨_, rfl⟩ := (make_iff name a m).mp hm
  obtain ⟨y, st', h1, h2⟩ := (has_pictures (tr := tr) (tl := tl) (rsqrt := rsqrt) hfit C H W hp).does.computes N st x _ (el_is hx) hr
  obtain ⟨z, z1, z2, z3⟩ := spatialMean_is h2
  obtain ⟨w, w1, w2, w3⟩ := linear_is (l := (netOf name a).logits) rfl (last_there hp).1 (last_there hp).2 z2
  refine ⟨w, st', ?_, w2, fun e he k hk => ?_⟩
  · rw [pictures_call]
    exact (bind_eq h1).trans (bind_eq ((bind_eq z1).trans w1))
  · rw [w3]
    unfold netValue
    refine congrArg₂ (· + ·) (Finset.sum_congr rfl fun c hc => ?_) rfl
    rw [z3 e he c (Finset.mem_range.mp hc)]
    rfl

/-- C128: `poolMax` is the greatest element of the window of rows and columns that the padding and the stride give. -/
theorem pool_greatest {H W : Nat} (f : Elements K) (e c : Nat) {h w : Nat} (hh : h < up H 2) (hw : w < up W 2) :
    (∃ a < H, ∃ b < W, h * 2 ≤ a + samePad H 3 2 ∧ a + samePad H 3 2 < h * 2 + 3 ∧ w * 2 ≤ b + samePad W 3 2 ∧ b + samePad W 3 2 < w * 2 + 3 ∧ poolMax H W f e h w c = f e a b c) ∧
    ∀ a < H, ∀ b < W, h * 2 ≤ a + samePad H 3 2 → a + samePad H 3 2 < h * 2 + 3 → w * 2 ≤ b + samePad W 3 2 → b + samePad W 3 2 < w * 2 + 3 → f e a b c ≤ poolMax H W f e h w c :=
  poolMax_greatest f e c hh hw

/-! ### What networks learn -/

/-- C129: in training, the averages of what the batch normalisations of a block get are added to their stored ones, with the decay of the settings, or 0.9. -/
theorem block_learns {a : Args K} {name : String} {cin ch stride : Nat} {proj : Bool} {m : Block K} (hm : Block.make a.resnetV2 name ch (.scalar (stride : Int)) proj a.bnConfig.withDefaults a.bottleneck = .ok m) (hs : 1 ≤ stride)
    (hfit : proj = true ∨ (stride = 1 ∧ cin = ch)) (hp : ∀ p ∈ blockParams (kindOf a) name cin ch proj, There get p) {N H W : Nat} {x : Arr K} (hx : x.shape = [N, H, W, cin])
    {st : States K} (hr : ∀ b ∈ blockBns (kindOf a) name cin ch proj, Ready true tl b.2 (st b.1)) :
    ∃ y st', m.call get rsqrt true tl st x = .ok (y, st') ∧
      Learned (a.bnConfig.decayRate.getD (9 / 10)) N st st' (blockF get rsqrt true a.bnConfig a.resnetV2 a.bottleneck name cin ch stride proj H W N st fun e h w c => x.val [e, h, w, c]).2 ∧
      ((blockF get rsqrt true a.bnConfig a.resnetV2 a.bottleneck name cin ch stride proj H W N st fun e h w c => x.val [e, h, w, c]).2.map fun b => (b.name, b.C)) = blockBns (kindOf a) name cin ch proj ∧
      ∀ n, n ∉ (blockBns (kindOf a) name cin ch proj).map Prod.fst → st' n = st n := by
  obtain rfl := made_block hm
  have hb := has_block (tr := true) (tl := tl) (rsqrt := rsqrt) (get := get) hs hfit hp H W
  obtain ⟨y, st', h1, h2, h3, -⟩ := hb.does.good N st x hx hr
  exact ⟨y, st', h1, hb.does.learns rfl N st x _ (el_is hx) hr y st' h1, hb.list .., h3⟩

/-- C129: the same for all batch normalisations of a network, in the order of `netBns`; no other state changes. -/
theorem net_learns {name : String} {a : Args K} {m : Net K} (hm : Net.make name a = .ok m) (hfit : Fits 64 (groupsOf a)) {C : Nat} (hp : ∀ p ∈ netParams name a C, There get p) {N H W : Nat} {x : Arr K} (hx : x.shape = [N, H, W, C])
    {st : States K} (hr : ∀ b ∈ netBns name a, Ready true tl b.2 (st b.1)) :
    ∃ y st', m.call get rsqrt st x true tl = .ok (y, st') ∧ Learned (a.bnConfig.decayRate.getD (9 / 10)) N st st' (trunkF get rsqrt true name a H W C N st fun e h w c => x.val [e, h, w, c]).2 ∧
      ((trunkF get rsqrt true name a H W C N st fun e h w c => x.val [e, h, w, c]).2.map fun b => (b.name, b.C)) = netBns name a ∧ ∀ n, n ∉ (netBns name a).map Prod.fst → st' n = st n := by
  obtain ⟨_, rfl⟩ := (make_iff name a m).mp hm
  have hb := has_pictures (tr := true) (tl := tl) (rsqrt := rsqrt) (get := get) hfit C H W hp
  obtain ⟨y, st', h1, h2, h3, -⟩ := hb.does.good N st x hx hr
  obtain ⟨y', h2'⟩ : ∃ y', (netOf name a).call get rsqrt st x true tl = .ok (y', st') := by
    obtain ⟨z, z1, z2, z3⟩ := spatialMean_is (el_is h2)
    obtain ⟨w, w1, -⟩ := linear_is (l := (netOf name a).logits) rfl (last_there hp).1 (last_there hp).2 z2
    refine ⟨w, ?_⟩
    rw [pictures_call]
    exact (bind_eq h1).trans (bind_eq ((bind_eq z1).trans w1))
  exact ⟨y', st', h2', hb.does.learns rfl N st x _ (el_is hx) hr y st' h1, hb.list .., h3⟩

/-- C129: if the decay is not 1, after the first batch the stored averages are those of what the batch normalisations got in it. -/
theorem first_averages {d : K} (hd : d ≠ 1) {N : Nat} {st' : States K} {seen : List (Seen K)} (h : Learned d N (fun _ => BnState.empty) st' seen) {b : Seen K} (hb : b ∈ seen) {c : Nat} (hc : c < b.C) :
    stored (st' b.name).mean c = batchMean N b.H b.W b.elements c ∧ stored (st' b.name).var c = batchVar N b.H b.W b.elements c := by
  have key : ∀ (e' : Verif.Norm.EmaState K) (v : Nat → K), Moved d b.C (BnState.empty (K := K)).mean e' v → stored e' c = v c := by
    intro e' v h
    obtain ⟨h1, h2⟩ := h.2 c hc
    rw [h2, h1]
    show (d * 0 + (1 - d) * v c) / (1 - d ^ ((0 : Int) + 1)) = v c
    rw [zero_add, zpow_one, mul_zero, zero_add]
    rw [mul_div_assoc, mul_comm, div_mul_cancel₀ _ (sub_ne_zero.mpr hd.symm)]
  exact ⟨key _ _ (h b hb).1, key _ _ (h b hb).2⟩

end Run

/-! ### Cases -/

/-- Parameters that depend on the position: kernels have `1 + 2 i + j` at row `i` and column `j`. -/
def small : ParamFn ℚ := fun _ name shape => .ok ⟨shape, fun i => if name = "w" then ((1 + 2 * i.getD 0 0 + i.getD 1 0 : Nat) : ℚ) - 3 * (i.getD 3 0 : Nat) else if name = "scale" then 1 else 0⟩

/-- Averages 1 and variances 0 for one channel. -/
def ones : States ℚ := fun _ => ⟨⟨some 1, none, some ⟨[1, 1, 1, 1], fun _ => 1⟩⟩, ⟨some 1, none, some ⟨[1, 1, 1, 1], fun _ => 0⟩⟩⟩

/-- Settings of a small network. -/
def smallArgs (v2 : Bool) : Args ℚ := { blocksPerGroup := [1, 1, 1, 1], numClasses := 2, bnConfig := { eps := some 1 }, resnetV2 := v2, bottleneck := false }

/-- One picture of two rows and two columns. -/
def tinyPic : Arr ℚ := ⟨[1, 2, 2, 1], fun i => (i.getD 1 0 : Nat) * 2 - (i.getD 2 0 : Nat)⟩

/-- The elements of the picture. -/
def tinyEl : Elements ℚ := fun e h w c => tinyPic.val [e, h, w, c]

theorem small_made (v2 : Bool) (ch stride : Nat) (proj : Bool) : Block.make v2 "b" ch (.scalar (stride : Int)) proj (smallArgs v2).bnConfig.withDefaults false = .ok (blockOf (smallArgs v2).bnConfig v2 false "b" ch stride proj) :=
  block_made v2 false ⟨(fun h => by cases h), (fun h => by cases h), fun h => by cases v2 <;> cases h⟩ "b" ch stride proj

theorem ones_ready {n : String} : Ready false false 1 (ones n) := ⟨(fun h => by cases h), fun _ _ => ⟨⟨_, rfl, rfl⟩, ⟨_, rfl, rfl⟩⟩⟩

theorem small_bns (v2 proj : Bool) : ∀ b ∈ blockBns (kindOf (smallArgs v2)) "b" 1 1 proj, b.2 = 1 := by
  cases v2 <;> cases proj <;> decide

-- the four kinds of blocks, in evaluation
example : [0, 1].map (fun h => [0, 1].map fun w => (blockF small (fun x => x) false { eps := some 1 } false false "b" 1 1 1 false 2 2 1 ones tinyEl).1 0 h w 0) = [[209, 168], [131, 90]] := by decide +kernel
example : [0, 1].map (fun h => [0, 1].map fun w => (blockF small (fun x => x) false { eps := some 1 } true false "b" 1 1 1 false 2 2 1 ones tinyEl).1 0 h w 0) = [[72, 57], [46, 31]] := by decide +kernel
example : (blockF small (fun x => x) false { eps := some 1 } false false "b" 1 1 2 true 2 2 1 ones tinyEl).1 0 0 0 0 = 26 := by decide +kernel
example : (blockF small (fun x => x) false { eps := some 1 } true false "b" 1 1 2 true 2 2 1 ones tinyEl).1 0 0 0 0 = 8 := by decide +kernel

-- the hypotheses of `block_computes` hold: the blocks themselves give these values
example : ∃ y st, (blockOf (smallArgs false).bnConfig false false "b" 1 1 false).call small (fun x => x) false false ones tinyPic = .ok (y, st) ∧ y.shape = [1, 2, 2, 1] ∧ y.val [0, 0, 1, 0] = 168 := by
  obtain ⟨y, st, h1, h2, h3⟩ := block_computes (a := smallArgs false) (get := small) (rsqrt := fun x => x) (tr := false) (tl := false) (cin := 1) (small_made false 1 1 false) (Nat.le_refl _) (.inr ⟨rfl, rfl⟩) (fun p _ => ⟨_, rfl, rfl⟩) (x := tinyPic) rfl
    (st := ones) fun b hb => by rw [small_bns false false b hb]; exact ones_ready
  exact ⟨y, st, h1, h2, (h3 0 (by decide) 0 (by decide) 1 (by decide) 0 (by decide)).trans (by decide +kernel : (blockF small (fun x => x) false { eps := some 1 } false false "b" 1 1 1 false 2 2 1 ones tinyEl).1 0 0 1 0 = 168)⟩

example : ∃ y st, (blockOf (smallArgs true).bnConfig true false "b" 1 2 true).call small (fun x => x) false false ones tinyPic = .ok (y, st) ∧ y.shape = [1, 1, 1, 1] ∧ y.val [0, 0, 0, 0] = 8 := by
  obtain ⟨y, st, h1, h2, h3⟩ := block_computes (a := smallArgs true) (get := small) (rsqrt := fun x => x) (tr := false) (tl := false) (cin := 1) (small_made true 1 2 true) (by decide) (.inl rfl) (fun p _ => ⟨_, rfl, rfl⟩) (x := tinyPic) rfl
    (st := ones) fun b hb => by rw [small_bns true true b hb]; exact ones_ready
  exact ⟨y, st, h1, h2, (h3 0 (by decide) 0 (by decide) 0 (by decide) 0 (by decide)).trans (by decide +kernel : (blockF small (fun x => x) false { eps := some 1 } true false "b" 1 1 2 true 2 2 1 ones tinyEl).1 0 0 0 0 = 8)⟩

-- the hypotheses of `block_learns` hold for a block with a projection, which has three batch normalisations in version 1
example : ∃ y st, (blockOf (smallArgs false).bnConfig false false "b" 1 2 true).call small (fun x => x) true false (fun _ => BnState.empty) tinyPic = .ok (y, st) ∧
    Learned (9 / 10) 1 (fun _ => BnState.empty) st (blockF small (fun x => x) true { eps := some 1 } false false "b" 1 1 2 true 2 2 1 (fun _ => BnState.empty) tinyEl).2 ∧
    ((blockF small (fun x => x) true { eps := some 1 } false false "b" 1 1 2 true 2 2 1 (fun _ => BnState.empty) tinyEl).2.map fun b => (b.name, b.C)) = [("b/~/shortcut_batchnorm", 1), ("b/~/batchnorm_0", 1), ("b/~/batchnorm_1", 1)] := by
  obtain ⟨y, st, h1, h2, h3, -⟩ := block_learns (a := smallArgs false) (get := small) (rsqrt := fun x => x) (tl := false) (cin := 1) (small_made false 1 2 true) (by decide) (.inl rfl) (fun p _ => ⟨_, rfl, rfl⟩) (x := tinyPic) rfl
    (st := fun _ => BnState.empty) fun b hb => ⟨fun _ => ⟨(fun h hh => by cases hh), (fun h hh => by cases hh)⟩, fun h => by cases h⟩
  exact ⟨y, st, h1, h2, h3.trans (by decide)⟩

-- the greatest elements of windows: four rows and three columns become two of each
example : [0, 1].map (fun h => [0, 1].map fun w => poolMax 4 3 (fun e h w c => ((h * 7 + w * 5 : Nat) : ℚ) * (-1) ^ h) 0 h w 0) = [[19, 24], [19, 24]] := by decide +kernel
example : samePad 4 3 2 = 0 ∧ samePad 3 3 2 = 1 ∧ samePad 224 7 2 = 2 ∧ samePad 225 7 2 = 3 ∧ samePad 5 1 2 = 0 := by decide

-- the hypotheses of `net_computes`, `net_learns` and `first_averages` hold for ResNet50 in both versions
example (v2 : Bool) (N : Nat) (x : Arr ℚ) (hx : x.shape = [N, 224, 224, 3]) : ∃ y st, (netOf "resnet50" (fifty v2)).call anyGet (fun v => v) (fun _ => BnState.empty) x true false = .ok (y, st) ∧
    ∀ e < N, ∀ k < 1000, y.val [e, k] = netValue anyGet (fun v => v) true "resnet50" (fifty v2) 224 224 3 N (fun _ => BnState.empty) (fun e h w c => x.val [e, h, w, c]) e k := by
  obtain ⟨y, st, h1, -, h2⟩ := net_computes (tr := true) (tl := false) (rsqrt := fun v => v) (fifty_made v2) (fifty_fits v2).2 (fun p _ => anyGet_there p) hx (st := fun _ => BnState.empty)
    fun b hb => ⟨fun _ => ⟨(fun h hh => by cases hh), (fun h hh => by cases hh)⟩, fun h => by cases h⟩
  exact ⟨y, st, h1, h2⟩

example (v2 : Bool) (N : Nat) (x : Arr ℚ) (hx : x.shape = [N, 224, 224, 3]) : ∃ y st, (netOf "resnet50" (fifty v2)).call anyGet (fun v => v) (fun _ => BnState.empty) x true false = .ok (y, st) ∧
    ∀ b ∈ (trunkF anyGet (fun v => v) true "resnet50" (fifty v2) 224 224 3 N (fun _ => BnState.empty) fun e h w c => x.val [e, h, w, c]).2, ∀ c < b.C, stored (st b.name).mean c = batchMean N b.H b.W b.elements c := by
  obtain ⟨y, st, h1, h2, -⟩ := net_learns (tl := false) (rsqrt := fun v => v) (fifty_made v2) (fifty_fits v2).2 (fun p _ => anyGet_there p) hx (st := fun _ => BnState.empty)
    fun b hb => ⟨fun _ => ⟨(fun h hh => by cases hh), (fun h hh => by cases hh)⟩, fun h => by cases h⟩
  exact ⟨y, st, h1, fun b hb c hc => (first_averages (by show (9 / 10 : ℚ) ≠ 1; norm_num) h2 hb hc).1⟩

-- a picture of 224 × 224 pixels has 7 × 7 positions at the end
example : lastSize (fifty false) 224 = 7 ∧ lastChannels (fifty false) = 2048 := by decide

end Verif.Props.ResNet
