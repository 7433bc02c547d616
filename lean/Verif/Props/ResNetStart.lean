import Verif.Props.ResNet

/-!
# Residual networks at the start of training, blocks without projection, and arguments that are refused

Theorems about `Verif.Model.ResNet`.
-/

set_option linter.unusedVariables false
set_option linter.unusedSectionVars false

namespace Verif.Props.ResNet
open Verif.Shapes (Err)
open Verif.Pool (Arr)
open Verif.Utils (Arg)
open Verif.Mlp (ParamFn Linear)
open Verif.ConvArr (Module)
open Verif.Norm (BatchNorm BnState)
open Verif.Props.Reset (Valid)
open Verif.Props.Conv (bind_ok)
open Verif.Props.Norm (bind_eq bind_err)
open Verif.Props.Cores (Has)
open Verif.ResNet
open Verif.Stage

variable {K : Type}

section Run
variable [Field K] [LinearOrder K] {get : ParamFn K} {rsqrt : K → K} {tr tl : Bool}

/-! ### Values at the start of training -/

theorem last_zero (c : BnConfig K) : ∀ (ls : List Layer) (N H W cin cout : Nat) (st : States K) (x : Arr K), ls ≠ [] → Chained cin ls cout → Params get c false ls → (ls.map Layer.bn).Nodup → x.shape = [N, H, W, cin] →
    (∀ l ∈ ls, Ready tr tl l.cout (st l.bn)) → c.createScale.getD true = true → (∀ l, ls.getLast? = some l → (∀ p, get l.bn "scale" [1, 1, 1, l.cout] = .ok p → ∀ i, p.val i = 0) ∧
      (c.createOffset.getD true = true → ∀ p, get l.bn "offset" [1, 1, 1, l.cout] = .ok p → ∀ i, p.val i = 0)) →
    ∃ y st', BlockV1.loop get rsqrt tr tl (ls.map (Layer.pair c)) st x = .ok (y, st') ∧ y.shape = [N, ups H ls, ups W ls, cout] ∧ ∀ i, Valid y.shape i → y.val i = 0
  | [], N, H, W, cin, cout, st, x, hne, hc, hp, hn, hx, hr, hs, hz => absurd rfl hne
  | l :: ls, N, H, W, cin, cout, st, x, hne, hc, hp, hn, hx, hr, hs, hz => by
    obtain ⟨h1, h2, h3, h4⟩ := hc
    obtain ⟨p1, p2⟩ := hp l List.mem_cons_self
    have hconv : Good tr tl (lift ((l.pair c).1.call get)) [] [H, W, cin] [up H l.stride, up W l.stride, l.cout] := good_conv2d h2 h3 (by rw [← h1]; exact p1)
    obtain ⟨z, st0, z1, z2, z3, -⟩ := hconv N st x hx fun b hb => absurd hb List.not_mem_nil
    have e0 : st0 = st := funext fun n => z3 n List.not_mem_nil
    subst e0
    have hlr := hr l List.mem_cons_self
    cases ls with
    | nil =>
      obtain ⟨mu, v, g, b, y, st', hg, hb, y1, y2, y3⟩ := bn_value (rsqrt := rsqrt) (bn_plain c l.bn) p2 z2 hlr
      have hc : l.cout = cout := h4
      refine ⟨y, st', ?_, by rw [y2, ← hc]; rfl, fun i hi => ?_⟩
      · refine (v1_cons _ _ st0 x).trans ((bind_eq ((bind_eq z1).trans y1)).trans rfl)
      · obtain ⟨k1, k2⟩ := hz l rfl
        have hg0 : ∀ j, g.val j = 0 := by
          obtain ⟨p, q1, q2⟩ := p2.1 hs
          have : g = p := by
            have e := (Verif.Props.Norm.affine_of (create := true) (d := (1 : K)) (.inl ⟨rfl, rfl, q1, q2⟩)).1
            have hg' := hg
            have hcs : (bnOf c l.bn).createScale = true := hs
            rw [hcs] at hg'
            injection hg'.symm.trans e
          rw [this]
          exact k1 p q1
        have hb0 : ∀ j, b.val j = 0 := by
          cases ho : c.createOffset.getD true with
          | true =>
            obtain ⟨p, q1, q2⟩ := p2.2 ho
            have : b = p := by
              have e := (Verif.Props.Norm.affine_of (create := true) (d := (0 : K)) (.inl ⟨rfl, rfl, q1, q2⟩)).1
              have hb' := hb
              have hcs : (bnOf c l.bn).createOffset = true := ho
              rw [hcs] at hb'
              injection hb'.symm.trans e
            rw [this]
            exact k2 ho p q1
          | false =>
            have hb' := hb
            have hcs : (bnOf c l.bn).createOffset = false := ho
            rw [hcs] at hb'
            have : Verif.Nd.scalar (0 : K) = b := by injection hb'
            rw [← this]
            exact fun j => rfl
        rw [y3 i (by rw [← y2]; exact hi)]
        unfold Verif.Props.Norm.spread
        rw [hg0, hb0]
        ring
    | cons l' ls =>
      have hbn : Good tr tl (runBn get rsqrt tr tl (l.pair c).2) [(l.bn, l.cout)] [up H l.stride, up W l.stride, l.cout] [up H l.stride, up W l.stride, l.cout] := good_bn (bn_plain c l.bn) p2
      obtain ⟨y, st1, y1, y2, y3, -⟩ := hbn N st0 z z2 fun b hb => by rw [List.mem_singleton.mp hb]; exact hlr
      have hnd := List.nodup_cons.mp hn
      obtain ⟨u, st2, u1, u2, u3⟩ := last_zero c (l' :: ls) N (up H l.stride) (up W l.stride) l.cout cout st1 (relu y) (List.cons_ne_nil _ _) h4 (fun k hk => hp k (List.mem_cons_of_mem _ hk)) hnd.2 y2 (fun k hk => by
        have : k.bn ∉ [(l.bn, l.cout)].map Prod.fst := fun h => hnd.1 (by
          rw [← (List.mem_singleton.mp h : k.bn = l.bn)]
          exact List.mem_map_of_mem hk)
        rw [y3 _ this]
        exact hr k (List.mem_cons_of_mem _ hk)) hs (fun k hk => hz k (by rw [List.getLast?_cons_cons]; exact hk))
      refine ⟨u, st2, (v1_cons _ _ st0 x).trans ?_, u2, u3⟩
      refine (bind_eq ((bind_eq z1).trans y1)).trans ?_
      exact u1

theorem made_v1 {c : BnConfig K} {name : String} {ch stride : Nat} {proj bottleneck : Bool} {b : Block K} (h : Block.make false name ch (.scalar (stride : Int)) proj c.withDefaults bottleneck = .ok b) :
    b = blockOf c false bottleneck name ch stride proj := by
  have hok : BnOk c bottleneck := by
    cases bottleneck with
    | true => exact block_inv h
    | false =>
      unfold Block.make at h
      rw [if_neg Bool.false_ne_true] at h
      cases hb : BlockV1.make name ch (.scalar (stride : Int)) proj c.withDefaults false with
      | error e => rw [hb] at h; cases h
      | ok b' =>
        unfold BlockV1.make at hb
        dsimp only at hb
        rw [withCreate_full, show ({ c.withDefaults with decayRate := some (c.withDefaults.decayRate.getD (999 / 1000)) } : BnConfig K) = c.withDefaults from rfl] at hb
        have key : ∀ {ls : List (Module K × BatchNorm K)}, makeLayers c.withDefaults name ch (.scalar (stride : Int)) false true = .ok ls → BnOk c false := by
          intro ls h
          unfold makeLayers at h
          obtain ⟨_, h, _⟩ := bind_ok h
          exact layer_inv h
        cases proj with
        | true =>
          rw [if_pos rfl] at hb
          obtain ⟨_, _, hb⟩ := bind_ok hb
          obtain ⟨ls, hls, _⟩ := bind_ok hb
          exact bn_inv hls
        | false =>
          rw [if_neg Bool.false_ne_true] at hb
          obtain ⟨_, _, hb⟩ := bind_ok hb
          obtain ⟨ls, hls, _⟩ := bind_ok hb
          exact key hls
  have e := block_made (c := c) false bottleneck hok name ch stride proj
  injection h.symm.trans e

/-- The name of the last batch normalisation of a block. -/
def lastBn (bottleneck : Bool) (name : String) : String := name ++ "/~/batchnorm_" ++ toString (if bottleneck then 2 else 1)

/-- C120: a block of version 1 whose last batch normalisation has scale and offset 0, as at the start (for the scale if `bottleneck`), computes only the shortcut: without projection the input where it is positive, with one the projection
where it is positive. -/
theorem zero_block {c : BnConfig K} {name : String} {cin ch stride : Nat} {proj bottleneck : Bool} {b : Block K} (hm : Block.make false name ch (.scalar (stride : Int)) proj c.withDefaults bottleneck = .ok b) (hs : 1 ≤ stride)
    (hfit : proj = true ∨ (stride = 1 ∧ cin = ch)) (hp : ∀ p ∈ blockParams ⟨false, bottleneck, c.createScale.getD true, c.createOffset.getD true⟩ name cin ch proj, There get p) (hc : c.createScale.getD true = true)
    (hz : ∀ p, get (lastBn bottleneck name) "scale" [1, 1, 1, ch] = .ok p → ∀ i, p.val i = 0) (hz' : c.createOffset.getD true = true → ∀ p, get (lastBn bottleneck name) "offset" [1, 1, 1, ch] = .ok p → ∀ i, p.val i = 0)
    {N H W : Nat} {st : States K} {x : Arr K} (hx : x.shape = [N, H, W, cin]) (hr : ∀ b ∈ blockBns ⟨false, bottleneck, c.createScale.getD true, c.createOffset.getD true⟩ name cin ch proj, Ready tr tl b.2 (st b.1)) :
    ∃ y st', b.call get rsqrt tr tl st x = .ok (y, st') ∧ y.shape = [N, up H stride, up W stride, ch] ∧ (proj = false → ∀ i, Valid [N, H, W, ch] i → y.val i = max (x.val i) 0) ∧
      (proj = true → ∃ u v st1, (convModule (name ++ "/~/shortcut_conv") ch 1 stride).call get x = .ok u ∧ runBn get rsqrt tr tl (bnOf c (name ++ "/~/shortcut_batchnorm")) st u = .ok (v, st1) ∧
        ∀ i, Valid [N, up H stride, up W stride, ch] i → y.val i = max (v.val i) 0) := by
  obtain rfl := made_v1 hm
  let a : Args K := { blocksPerGroup := [], numClasses := 0, bnConfig := c, bottleneck := bottleneck }
  have hps : Params get c false (named bottleneck name cin ch stride) := named_params (a := a) (stride := stride) hp
  have hnd := block_nodup (kindOf a) name cin ch proj
  rw [named_bns (stride := stride)] at hnd hr
  have hnd2 : ((named bottleneck name cin ch stride).map Layer.bn).Nodup := by
    have := nodup_right hnd
    rwa [List.map_map] at this
  have hap := apart_of_nodup hnd
  have hlast : ∀ l, (named bottleneck name cin ch stride).getLast? = some l → l.bn = lastBn bottleneck name ∧ l.cout = ch := by
    intro l hl
    unfold named blockLayers at hl
    cases bottleneck <;> (injection hl with hl; rw [← hl]; exact ⟨rfl, rfl⟩)
  have hne : named bottleneck name cin ch stride ≠ [] := by
    unfold named blockLayers
    cases bottleneck <;> exact List.cons_ne_nil _ _
  have loop : ∀ st1 : States K, (∀ l ∈ named bottleneck name cin ch stride, Ready tr tl l.cout (st1 l.bn)) →
      ∃ y st', BlockV1.loop get rsqrt tr tl (layersOf c name bottleneck ch stride) st1 x = .ok (y, st') ∧ y.shape = [N, up H stride, up W stride, ch] ∧ ∀ i, Valid y.shape i → y.val i = 0 := by
    intro st1 h1
    obtain ⟨y, st', y1, y2, y3⟩ := last_zero (tr := tr) (tl := tl) (rsqrt := rsqrt) c (named bottleneck name cin ch stride) N H W cin ch st1 x hne (named_chained bottleneck name cin ch hs) hps hnd2 hx h1 hc (fun l hl => by
      obtain ⟨e1, e2⟩ := hlast l hl
      rw [e1, e2]
      exact ⟨hz, hz'⟩)
    rw [named_ups, named_ups] at y2
    exact ⟨y, st', by rw [named_pair c bottleneck name cin]; exact y1, y2, y3⟩
  have fin : ∀ (m : BlockV1 K) (st1 : States K) (sc : Arr K), m.layers = layersOf c name bottleneck ch stride → BlockV1.shortcut get rsqrt tr tl m.proj st x = .ok (sc, st1) → sc.shape = [N, up H stride, up W stride, ch] →
      (∀ l ∈ named bottleneck name cin ch stride, Ready tr tl l.cout (st1 l.bn)) →
      ∃ y st', m.call get rsqrt tr tl st x = .ok (y, st') ∧ y.shape = [N, up H stride, up W stride, ch] ∧ ∀ i, Valid [N, up H stride, up W stride, ch] i → y.val i = max (sc.val i) 0 := by
    intro m st1 sc hl h1 h2 h3
    obtain ⟨y, st', y1, y2, y3⟩ := loop st1 h3
    obtain ⟨z, z1, z2, z3⟩ := zip_equal (f := (· + ·)) (x := y) (y := sc) (h2.trans y2.symm)
    refine ⟨relu z, st', ?_, z2.trans y2, fun i hi => ?_⟩
    · refine (bind_eq h1).trans ?_
      dsimp only
      rw [hl]
      exact (bind_eq y1).trans (bind_eq z1)
    · have hi : Valid y.shape i := by rw [y2]; exact hi
      show max (z.val i) 0 = _
      rw [z3 i hi, y3 i hi, zero_add]
  unfold blockOf
  rw [if_neg Bool.false_ne_true]
  cases proj with
  | false =>
    obtain ⟨rfl, rfl⟩ := hfit.resolve_left Bool.false_ne_true
    obtain ⟨y, st', y1, y2, y3⟩ := fin ⟨none, layersOf c name bottleneck cin 1⟩ st x rfl rfl (by rw [hx, up_one, up_one]) (fun l hl => hr (l.bn, l.cout) (List.mem_append_right _ (List.mem_map_of_mem (f := fun l : Layer => (l.bn, l.cout)) hl)))
    rw [up_one, up_one] at y2 y3
    refine ⟨y, st', y1, by rw [up_one, up_one]; exact y2, fun _ => y3, (fun h => by cases h)⟩
  | true =>
    have hconv : Good tr tl (lift ((convModule (name ++ "/~/shortcut_conv") ch 1 stride).call get)) [] [H, W, cin] [up H stride, up W stride, ch] := good_conv2d (Nat.le_refl _) hs (hp _ (by
      unfold blockParams
      exact List.mem_append_left _ List.mem_cons_self))
    have hbn : Good tr tl (runBn get rsqrt tr tl (bnOf c (name ++ "/~/shortcut_batchnorm"))) [(name ++ "/~/shortcut_batchnorm", ch)] [up H stride, up W stride, ch] [up H stride, up W stride, ch] :=
      good_bn (bn_plain c _) (bn_there fun p h => hp p (by
        unfold blockParams
        exact List.mem_append_left _ (List.mem_cons_of_mem _ h)))
    obtain ⟨u, st0, u1, u2, u3, -⟩ := hconv N st x hx fun b hb => absurd hb List.not_mem_nil
    have e0 : st0 = st := funext fun n => u3 n List.not_mem_nil
    subst e0
    obtain ⟨v, st1, v1, v2, v3, -⟩ := hbn N st0 u u2 fun b hb => hr b (List.mem_append_left _ hb)
    have hu : (convModule (name ++ "/~/shortcut_conv") ch 1 stride).call get x = .ok u := by
      obtain ⟨u', h1, h2⟩ := bind_ok u1
      injection h2 with h2
      injection h2 with h2
      rw [h1, h2]
    obtain ⟨y, st', y1, y2, y3⟩ := fin ⟨some (convModule (name ++ "/~/shortcut_conv") ch 1 stride, bnOf c (name ++ "/~/shortcut_batchnorm")), layersOf c name bottleneck ch stride⟩ st1 v rfl ((bind_eq hu).trans v1) v2 (fun l hl => by
      have hmem : (l.bn, l.cout) ∈ (named bottleneck name cin ch stride).map fun l => (l.bn, l.cout) := List.mem_map_of_mem (f := fun l : Layer => (l.bn, l.cout)) hl
      rw [v3 _ fun h => hap _ h (List.mem_map_of_mem (f := Prod.fst) hmem)]
      exact hr (l.bn, l.cout) (List.mem_append_right _ hmem))
    exact ⟨y, st', y1, y2, (fun h => by cases h), fun _ => ⟨u, v, st1, hu, v1, y3⟩⟩

/-- C120: with zero weights and bias in the last layer, as at the start, every output is 0. -/
theorem zero_logits {name : String} {a : Args K} {m : Net K} (hm : Net.make name a = .ok m) (hfit : Fits 64 (groupsOf a)) {C : Nat} (hp : ∀ p ∈ netParams name a C, There get p) {N H W : Nat} {x : Arr K} (hx : x.shape = [N, H, W, C])
    {st : States K} (hr : ∀ b ∈ netBns name a, Ready tr tl b.2 (st b.1)) (hw : ∀ p, get (name ++ "/~/" ++ a.logitsName) "w" [lastChannels a, a.numClasses] = .ok p → ∀ i, p.val i = 0)
    (hb : ∀ p, get (name ++ "/~/" ++ a.logitsName) "b" [a.numClasses] = .ok p → ∀ i, p.val i = 0) :
    ∃ y st', m.call get rsqrt st x tr tl = .ok (y, st') ∧ y.shape = [N, a.numClasses] ∧ ∀ e < N, ∀ k < a.numClasses, y.val [e, k] = 0 := by
  obtain ⟨_, rfl⟩ := (make_iff name a m).mp hm
  obtain ⟨z, st', z1, z2, -⟩ := good_trunk (tr := tr) (tl := tl) (rsqrt := rsqrt) hfit C H W hp N st x hx hr
  obtain ⟨w, b, w1, b1, run⟩ := linear_run (l := (netOf name a).logits) rfl (last_there hp).1 (last_there hp).2
  obtain ⟨y, y1, y2⟩ := run N z z2
  refine ⟨y, st', by rw [net_call]; exact (bind_eq z1).trans (bind_eq y1), by rw [y2.shape, z2]; rfl, fun e he k hk => ?_⟩
  refine (y2.val [e] k).trans ?_
  rw [Finset.sum_eq_zero fun j _ => by rw [hw w w1, mul_zero], zero_add]
  cases b with
  | none => rfl
  | some b => exact hb b (b1 b rfl) _

/-! ### Blocks without projection -/

theorem made_block {c : BnConfig K} {name : String} {ch stride : Nat} {proj v2 bottleneck : Bool} {b : Block K} (h : Block.make v2 name ch (.scalar (stride : Int)) proj c.withDefaults bottleneck = .ok b) :
    b = blockOf c v2 bottleneck name ch stride proj := by
  cases v2 with
  | false => exact made_v1 h
  | true =>
    have hok : BnOk c false := by
      unfold Block.make at h
      rw [if_pos rfl] at h
      cases hb : BlockV2.make name ch (.scalar (stride : Int)) proj c.withDefaults bottleneck with
      | error e => rw [hb] at h; cases h
      | ok b' =>
        unfold BlockV2.make at hb
        dsimp only at hb
        rw [withCreate_full] at hb
        have key : ∀ {ls : List (Module K × BatchNorm K)}, makeLayers c.withDefaults name ch (.scalar (stride : Int)) bottleneck false = .ok ls → BnOk c false := by
          intro ls h
          unfold makeLayers at h
          obtain ⟨_, h, _⟩ := bind_ok h
          exact layer_inv h
        cases proj with
        | true =>
          rw [if_pos rfl] at hb
          obtain ⟨_, _, hb⟩ := bind_ok hb
          obtain ⟨ls, hls, _⟩ := bind_ok hb
          exact key hls
        | false =>
          rw [if_neg Bool.false_ne_true] at hb
          obtain ⟨_, _, hb⟩ := bind_ok hb
          obtain ⟨ls, hls, _⟩ := bind_ok hb
          exact key hls
    have e := block_made (c := c) true bottleneck hok name ch stride proj
    injection h.symm.trans e

/-- One size is broadcast to the other. -/
def Compat (a b : Nat) : Prop := a = b ∨ a = 1 ∨ b = 1

instance (a b : Nat) : Decidable (Compat a b) := inferInstanceAs (Decidable (_ ∨ _))

theorem broadcast_four (N h w c H W C : Nat) : Verif.Recurrent.broadcast [N, h, w, c] [N, H, W, C] =
    if Compat h H ∧ Compat w W ∧ Compat c C then some [N, if h = 1 then H else h, if w = 1 then W else w, if c = 1 then C else c] else none := by
  have one : ∀ (a b : Nat) (s t : List Nat), Verif.Recurrent.broadcastRev (a :: s) (b :: t) = if Compat a b then (Verif.Recurrent.broadcastRev s t).map ((if a = 1 then b else a) :: ·) else none := by
    intro a b s t
    rw [Verif.Recurrent.broadcastRev]
    unfold Compat
    by_cases h1 : a = b
    · subst h1
      simp
    · by_cases h2 : a = 1
      · simp [h2]
        intro h
        rw [← h]
      · by_cases h3 : b = 1
        · simp [h2, h3]
        · simp [h1, h2, h3]
  unfold Verif.Recurrent.broadcast
  show (Verif.Recurrent.broadcastRev [c, w, h, N] [C, W, H, N]).map List.reverse = _
  rw [one, one, one, one, if_pos (show Compat N N from .inl rfl)]
  by_cases h1 : Compat c C
  · by_cases h2 : Compat w W
    · by_cases h3 : Compat h H
      · simp [h1, h2, h3, Verif.Recurrent.broadcastRev]
      · simp [h1, h2, h3]
    · simp [h1, h2]
  · simp [h1]

theorem inner {a : Args K} {name : String} {cin ch stride : Nat} (hs : 1 ≤ stride) (hp : ∀ p ∈ blockParams (kindOf a) name cin ch false, There get p) (H W : Nat) :
    ∃ f : Stage K, Good tr tl f (blockBns (kindOf a) name cin ch false) [H, W, cin] [up H stride, up W stride, ch] ∧
      ∃ g : Arr K → Arr K, (∀ z, (g z).shape = z.shape) ∧ ∀ st x, (blockOf a.bnConfig a.resnetV2 a.bottleneck name ch stride false).call get rsqrt tr tl st x =
        residual (fun st x => .ok (x, st)) f st x >>= fun p => .ok (g p.1, p.2) := by
  have hnd := block_nodup (kindOf a) name cin ch false
  have hps := named_params (stride := stride) hp
  rw [named_bns (stride := stride)] at hnd ⊢
  have hk : (kindOf a).bottleneck = a.bottleneck := rfl
  have hv2 : (kindOf a).v2 = a.resnetV2 := rfl
  rw [hk, hv2] at hnd ⊢
  have hnd2 : ((named a.bottleneck name cin ch stride).map Layer.bn).Nodup := by
    have := nodup_right hnd
    rwa [List.map_map] at this
  unfold blockOf
  cases hv : a.resnetV2 with
  | false =>
    rw [hv] at hps
    rw [if_neg Bool.false_ne_true]
    have hl := good_v1 (tr := tr) (tl := tl) (rsqrt := rsqrt) a.bnConfig (named a.bottleneck name cin ch stride) H W cin ch (named_chained a.bottleneck name cin ch hs) hps hnd2
    rw [named_ups, named_ups] at hl
    refine ⟨_, hl, relu, fun z => rfl, fun st x => ?_⟩
    show BlockV1.call get rsqrt tr tl _ st x = _
    rw [v1_call, named_pair a.bnConfig a.bottleneck name cin]
    rfl
  | true =>
    rw [hv] at hps
    rw [if_pos rfl]
    have hl := good_v2 (tr := tr) (tl := tl) (rsqrt := rsqrt) a.bnConfig (named a.bottleneck name cin ch stride) H W cin ch (named_chained a.bottleneck name cin ch hs) hps hnd2
    rw [named_ups, named_ups] at hl
    refine ⟨_, hl, id, fun z => rfl, fun st x => ?_⟩
    have e := v2_call_none (get := get) (rsqrt := rsqrt) (tr := tr) (tl := tl) ((named a.bottleneck name cin ch stride).map (Layer.pair a.bnConfig)) st x
    rw [← named_pair] at e ⊢
    refine Eq.trans e ?_
    rcases residual (fun st x => Except.ok (x, st)) (v2Stage get rsqrt tr tl (layersOf a.bnConfig name a.bottleneck ch stride)) st x with e | ⟨y, st'⟩
    · rfl
    · rfl

/-- C119: a block without projection runs exactly where the sizes after the layers and the sizes before are equal or one of them is 1, and then has the larger of both. -/
theorem bare_block {a : Args K} {name : String} {cin ch stride : Nat} {b : Block K} (hm : Block.make a.resnetV2 name ch (.scalar (stride : Int)) false a.bnConfig.withDefaults a.bottleneck = .ok b) (hs : 1 ≤ stride)
    (hp : ∀ p ∈ blockParams (kindOf a) name cin ch false, There get p) {N H W : Nat} {st : States K} {x : Arr K} (hx : x.shape = [N, H, W, cin]) (hr : ∀ b ∈ blockBns (kindOf a) name cin ch false, Ready tr tl b.2 (st b.1)) :
    (∀ y st', b.call get rsqrt tr tl st x = .ok (y, st') → y.shape = [N, if up H stride = 1 then H else up H stride, if up W stride = 1 then W else up W stride, if ch = 1 then cin else ch]) ∧
    ((∃ r, b.call get rsqrt tr tl st x = .ok r) ↔ Compat (up H stride) H ∧ Compat (up W stride) W ∧ Compat ch cin) := by
  obtain rfl := made_block hm
  obtain ⟨f, hf, g, hg, e⟩ := inner (tr := tr) (tl := tl) (rsqrt := rsqrt) (get := get) hs hp H W
  obtain ⟨y, st', y1, y2, -⟩ := hf N st x hx hr
  have e : (blockOf a.bnConfig a.resnetV2 a.bottleneck name ch stride false).call get rsqrt tr tl st x = Verif.Nd.zip (· + ·) y x >>= fun z => .ok (g z, st') := by
    rw [e]
    unfold Verif.Stage.residual
    show ((f st x >>= _) >>= _) = _
    rw [y1]
    show ((Verif.Nd.zip (· + ·) y x >>= _) >>= _) = _
    rcases Verif.Nd.zip (· + ·) y x with e | z
    · rfl
    · rfl
  rw [e]
  unfold Verif.Nd.zip
  rw [y2, hx]
  rw [broadcast_four]
  by_cases h : Compat (up H stride) H ∧ Compat (up W stride) W ∧ Compat ch cin
  · rw [if_pos h]
    refine ⟨fun y st' hy => ?_, fun _ => h, fun _ => ⟨_, rfl⟩⟩
    injection hy with hy
    injection hy with hy _
    rw [← hy, hg]
  · rw [if_neg h]
    exact ⟨(fun y st' hy => by cases hy), (fun ⟨r, hr⟩ => by cases hr), fun k => absurd k h⟩

/-- C119: with stride 2 and the same channels it runs exactly on pictures of at most 2 rows and columns, and then leaves their sizes, though the layers halve them. -/
theorem bare_stride_two {a : Args K} {name : String} {ch : Nat} {b : Block K} (hm : Block.make a.resnetV2 name ch (.scalar 2) false a.bnConfig.withDefaults a.bottleneck = .ok b)
    (hp : ∀ p ∈ blockParams (kindOf a) name ch ch false, There get p) {N H W : Nat} {st : States K} {x : Arr K} (hx : x.shape = [N, H, W, ch]) (hr : ∀ b ∈ blockBns (kindOf a) name ch ch false, Ready tr tl b.2 (st b.1)) :
    ((∃ r, b.call get rsqrt tr tl st x = .ok r) ↔ H ≤ 2 ∧ W ≤ 2) ∧ ∀ y st', b.call get rsqrt tr tl st x = .ok (y, st') → y.shape = x.shape := by
  obtain ⟨h1, h2⟩ := bare_block (tr := tr) (tl := tl) (rsqrt := rsqrt) (stride := 2) hm (by decide) hp hx hr
  have key : ∀ n, Compat (up n 2) n ↔ n ≤ 2 := by
    intro n
    unfold Compat up
    omega
  have k2 : ∀ n, n ≤ 2 → (if up n 2 = 1 then n else up n 2) = n := by
    intro n hn
    unfold up
    split <;> omega
  have iff : (∃ r, b.call get rsqrt tr tl st x = .ok r) ↔ H ≤ 2 ∧ W ≤ 2 := by
    rw [h2, key, key]
    exact ⟨fun h => ⟨h.1, h.2.1⟩, fun h => ⟨h.1, h.2, .inl rfl⟩⟩
  refine ⟨iff, fun y st' hy => ?_⟩
  obtain ⟨hh, hw⟩ := iff.mp ⟨_, hy⟩
  rw [h1 y st' hy, hx, k2 H hh, k2 W hw]
  split
  · rename_i h; rw [h]
  · rfl

end Run

/-! ### The names of the parameters -/

/-- Module and name of a parameter. -/
abbrev key (p : Param) : String × String := (p.1, p.2.1)

theorem bn_key {s o : Bool} {name : String} {c : Nat} {p : Param} (h : p ∈ bnParams s o name c) : p.1 = name := by
  unfold bnParams at h
  rcases List.mem_append.mp h with h | h
  · split at h
    · rw [List.mem_singleton.mp h]
    · cases h
  · split at h
    · rw [List.mem_singleton.mp h]
    · cases h

theorem bn_keys (s o : Bool) (name : String) (c : Nat) : ((bnParams s o name c).map key).Nodup := by
  unfold bnParams
  cases s <;> cases o <;> simp

theorem bparams_below {k : Kind} {name : String} {cin ch : Nat} {proj : Bool} {p : Param} (h : p ∈ blockParams k name cin ch proj) : ∃ r, p.1 = name ++ "/" ++ r := by
  unfold blockParams at h
  rcases List.mem_append.mp h with h | h
  · split at h
    · rcases List.mem_cons.mp h with rfl | h
      · exact ⟨"~/shortcut_conv", by rw [String.append_assoc]; rfl⟩
      · split at h
        · cases h
        · rw [bn_key h]
          exact ⟨"~/shortcut_batchnorm", by rw [String.append_assoc]; rfl⟩
    · cases h
  · obtain ⟨⟨i, _, _, _, _⟩, _, h⟩ := List.mem_flatMap.mp h
    rcases List.mem_cons.mp h with rfl | h
    · exact ⟨"~/conv_" ++ toString i, by
        rw [show "/~/conv_" = "/" ++ "~/conv_" from rfl]
        simp only [String.append_assoc]⟩
    · rw [bn_key h]
      exact ⟨"~/batchnorm_" ++ toString i, by
        rw [show "/~/batchnorm_" = "/" ++ "~/batchnorm_" from rfl]
        simp only [String.append_assoc]⟩

theorem bsparams_below {k : Kind} {name : String} {ch : Nat} {proj : Bool} : ∀ {n cin i : Nat} {p : Param}, p ∈ blocksParams k name ch proj cin i n → ∃ j r, i ≤ j ∧ p.1 = name ++ "/~/block_" ++ toString j ++ "/" ++ r
  | 0, cin, i, p, h => absurd h List.not_mem_nil
  | n + 1, cin, i, p, h => by
    unfold blocksParams at h
    rcases List.mem_append.mp h with h | h
    · obtain ⟨r, e⟩ := bparams_below h
      exact ⟨i, r, Nat.le_refl _, e⟩
    · obtain ⟨j, r, hj, e⟩ := bsparams_below h
      exact ⟨j, r, by omega, e⟩

theorem gparams_below {k : Kind} {name : String} : ∀ {gs : List Group} {cin i : Nat} {p : Param}, p ∈ groupsParams k name cin i gs → ∃ j r, i ≤ j ∧ p.1 = name ++ "/~/block_group_" ++ toString j ++ "/" ++ r
  | [], cin, i, p, h => absurd h List.not_mem_nil
  | g :: gs, cin, i, p, h => by
    unfold groupsParams at h
    rcases List.mem_append.mp h with h | h
    · obtain ⟨j, r, _, e⟩ := bsparams_below h
      exact ⟨i, "~/block_" ++ toString j ++ "/" ++ r, Nat.le_refl _, by
        rw [e, show "/~/block_" = "/" ++ "~/block_" from rfl]
        simp only [String.append_assoc]⟩
    · obtain ⟨j, r, hj, e⟩ := gparams_below h
      exact ⟨j, r, by omega, e⟩

theorem nodup_keys {a b : List Param} (ha : (a.map key).Nodup) (hb : (b.map key).Nodup) (h : ∀ p ∈ a, ∀ q ∈ b, p.1 ≠ q.1) : ((a ++ b).map key).Nodup := by
  rw [List.map_append]
  refine List.nodup_append'.mpr ⟨ha, hb, fun s h1 h2 => ?_⟩
  obtain ⟨p, hp, rfl⟩ := List.mem_map.mp h1
  obtain ⟨q, hq, e⟩ := List.mem_map.mp h2
  exact h p hp q hq (congrArg Prod.fst e).symm

theorem bparams_nodup (k : Kind) (name : String) (cin ch : Nat) (proj : Bool) : ((blockParams k name cin ch proj).map key).Nodup := by
  have h : ∃ l : List (String × String), l.Nodup ∧ (blockParams k name cin ch proj).map key = l.map fun p => (name ++ p.1, p.2) := by
    obtain ⟨v2, bo, sc, off⟩ := k
    refine ⟨(if proj then ("/~/shortcut_conv", "w") :: (if v2 then [] else (if sc then [("/~/shortcut_batchnorm", "scale")] else []) ++ (if off then [("/~/shortcut_batchnorm", "offset")] else [])) else []) ++
      (if bo then [0, 1, 2] else [0, 1]).flatMap fun i : Nat => ("/~/conv_" ++ toString i, "w") :: (if sc then [("/~/batchnorm_" ++ toString i, "scale")] else []) ++ (if off then [("/~/batchnorm_" ++ toString i, "offset")] else []), ?_, ?_⟩
    · cases v2 <;> cases bo <;> cases sc <;> cases off <;> cases proj <;> decide
    · unfold blockParams bnParams blockLayers
      cases v2 <;> cases bo <;> cases sc <;> cases off <;> cases proj <;> simp [String.append_assoc]
  obtain ⟨l, h1, h2⟩ := h
  rw [h2]
  exact h1.map fun a b h => by
    injection h with h3 h4
    exact Prod.ext (append_inj h3) h4

theorem bsparams_nodup (k : Kind) (name : String) (ch : Nat) (proj : Bool) : ∀ (n cin i : Nat), ((blocksParams k name ch proj cin i n).map key).Nodup
  | 0, _, _ => List.nodup_nil
  | n + 1, cin, i => nodup_keys (bparams_nodup ..) (bsparams_nodup k name ch proj n ch (i + 1)) fun p hp q hq e => by
    obtain ⟨r, h1⟩ := bparams_below hp
    obtain ⟨j, r', hj, h2⟩ := bsparams_below hq
    have := num_slash (h1.symm.trans (e.trans h2))
    omega

theorem gparams_nodup (k : Kind) (name : String) : ∀ (gs : List Group) (cin i : Nat), ((groupsParams k name cin i gs).map key).Nodup
  | [], _, _ => List.nodup_nil
  | g :: gs, cin, i => nodup_keys (bsparams_nodup ..) (gparams_nodup k name gs _ (i + 1)) fun p hp q hq e => by
    obtain ⟨j, r, _, h1⟩ := bsparams_below hp
    obtain ⟨j', r', hj, h2⟩ := gparams_below hq
    have : i = j' := num_slash (r := "~/block_" ++ toString j ++ "/" ++ r) (r' := r') (by
      rw [← h2, ← e, h1, show "/~/block_" = "/" ++ "~/block_" from rfl]
      simp only [String.append_assoc])
    omega

/-- C122: no two parameters of a network have the same module and name, if the name of the last layer is not that of another layer. -/
theorem params_nodup (name : String) (a : Args K) (C : Nat) (h1 : a.logitsName ≠ "initial_conv") (h2 : a.logitsName ≠ "initial_batchnorm") (h3 : a.logitsName ≠ "final_batchnorm") (h4 : ∀ r, a.logitsName ≠ "block_group_" ++ r) :
    ((netParams name a C).map key).Nodup := by
  have group : ∀ {p : Param}, p ∈ groupsParams (kindOf a) name 64 0 (groupsOf a) → ∃ r, p.1 = name ++ "/~/" ++ "block_group_" ++ r := by
    intro p hp
    obtain ⟨j, r, _, e⟩ := gparams_below hp
    exact ⟨toString j ++ "/" ++ r, by
      rw [e, show "/~/block_group_" = "/~/" ++ "block_group_" from rfl]
      simp only [String.append_assoc]⟩
  have e1 : name ++ "/~/initial_conv" = name ++ "/~/" ++ "initial_conv" := by rw [String.append_assoc]; rfl
  have e2 : name ++ "/~/initial_batchnorm" = name ++ "/~/" ++ "initial_batchnorm" := by rw [String.append_assoc]; rfl
  have e3 : name ++ "/~/final_batchnorm" = name ++ "/~/" ++ "final_batchnorm" := by rw [String.append_assoc]; rfl
  have ini : ∀ {p : Param}, p ∈ (if a.resnetV2 then [] else bnParams (kindOf a).scale (kindOf a).offset (name ++ "/~/initial_batchnorm") 64) → p.1 = name ++ "/~/" ++ "initial_batchnorm" := by
    intro p hp
    split at hp
    · cases hp
    · rw [bn_key hp, e2]
  have fin : ∀ {p : Param}, p ∈ (if a.resnetV2 then bnParams (kindOf a).scale (kindOf a).offset (name ++ "/~/final_batchnorm") (lastChannels a) else []) → p.1 = name ++ "/~/" ++ "final_batchnorm" := by
    intro p hp
    split at hp
    · rw [bn_key hp, e3]
    · cases hp
  have log : ∀ {p : Param}, p ∈ (name ++ "/~/" ++ a.logitsName, "w", [lastChannels a, a.numClasses]) :: (if a.logitsBias then [(name ++ "/~/" ++ a.logitsName, "b", [a.numClasses])] else []) → p.1 = name ++ "/~/" ++ a.logitsName := by
    intro p hp
    rcases List.mem_cons.mp hp with rfl | hp
    · rfl
    · split at hp
      · rw [List.mem_singleton.mp hp]
      · cases hp
  have ne : ∀ {s t : String}, s ≠ t → name ++ "/~/" ++ s ≠ name ++ "/~/" ++ t := fun h e => h (append_inj e)
  have neg : ∀ {s : String} {r : String} {c : Char} {l : List Char}, s.toList = c :: l → c ≠ 'b' → name ++ "/~/" ++ s ≠ name ++ "/~/" ++ "block_group_" ++ r := fun {s r c l} hs hc e =>
    differ hs (b' := "block_group_") (d := 'b') rfl hc "" r (by rw [String.append_empty]; exact e)
  unfold netParams
  rw [show ∀ (x : Param) (l m n o : List Param), (x :: l) ++ m ++ n ++ o = [x] ++ (l ++ (m ++ (n ++ o))) from fun x l m n o => by simp only [List.append_assoc, List.nil_append, List.cons_append]]
  refine nodup_keys (List.nodup_singleton _) (nodup_keys ?_ (nodup_keys (gparams_nodup ..) (nodup_keys ?_ ?_ ?_) ?_) ?_) ?_
  · split
    · exact List.nodup_nil
    · exact bn_keys ..
  · split
    · exact bn_keys ..
    · exact List.nodup_nil
  · cases a.logitsBias <;> simp
  · intro p hp q hq
    rw [fin hp, log hq]
    exact ne h3.symm
  · intro p hp q hq
    obtain ⟨r, e⟩ := group hp
    rw [e]
    rcases List.mem_append.mp hq with hq | hq
    · rw [fin hq]
      exact (neg (c := 'f') rfl (by decide)).symm
    · rw [log hq, String.append_assoc]
      exact ne (h4 r).symm
  · intro p hp q hq
    rw [ini hp]
    rcases List.mem_append.mp hq with hq | hq
    · obtain ⟨r, e⟩ := group hq
      rw [e]
      exact neg (c := 'i') rfl (by decide)
    rcases List.mem_append.mp hq with hq | hq
    · rw [fin hq]
      exact ne (by decide)
    · rw [log hq]
      exact ne h2.symm
  · intro p hp q hq
    rw [List.mem_singleton.mp hp]
    show name ++ "/~/initial_conv" ≠ _
    rw [e1]
    rcases List.mem_append.mp hq with hq | hq
    · rw [ini hq]
      exact ne (by decide)
    rcases List.mem_append.mp hq with hq | hq
    · obtain ⟨r, e⟩ := group hq
      rw [e]
      exact neg (c := 'i') rfl (by decide)
    rcases List.mem_append.mp hq with hq | hq
    · rw [fin hq]
      exact ne (by decide)
    · rw [log hq]
      exact ne h1.symm

-- the parameters of ResNet50
example (v2 : Bool) : ((netParams "resnet50" (fifty v2) 3).map key).Nodup := by
  have e : (fifty v2).logitsName = "logits" := rfl
  refine params_nodup _ _ _ ?_ ?_ ?_ fun r h => differ (a := "") (b := "logits") (b' := "block_group_") (c := 'l') (d := 'b') rfl rfl (by decide) "" r (by rw [← e, h]; simp)
  all_goals
    rw [e]
    decide

/-! ### Cases -/

/-- Parameters of all sizes, the last scale and offset of the block `b` and those of the last layer being 0. -/
def startGet : ParamFn ℚ := fun module name shape => .ok ⟨shape, fun i => if module = "b/~/batchnorm_2" ∨ module = "resnet50/~/logits" then 0 else if name = "w" then i.sum + 1 else if name = "scale" then 2 else 1⟩

theorem startGet_there (p : Param) : There startGet p := ⟨_, rfl, rfl⟩

theorem new_ready (tl : Bool) (c : Nat) : Ready (K := ℚ) true tl c BnState.empty := ⟨fun _ => ⟨(fun h hh => by cases hh), (fun h hh => by cases hh)⟩, fun h => by cases h⟩

-- a bottleneck block of version 1 without projection
example (rsqrt : ℚ → ℚ) (x : Arr ℚ) (hx : x.shape = [3, 5, 7, 8]) (b : Block ℚ) (hb : Block.make false "b" 8 (.scalar 1) false ({} : BnConfig ℚ).withDefaults true = .ok b) :
    ∃ y st', b.call startGet rsqrt true false (fun _ => BnState.empty) x = .ok (y, st') ∧ ∀ i, Valid [3, 5, 7, 8] i → y.val i = max (x.val i) 0 := by
  obtain ⟨y, st', h1, _, h2, _⟩ := zero_block (tr := true) (tl := false) (get := startGet) (rsqrt := rsqrt) (st := fun _ => BnState.empty) (stride := 1) hb (Nat.le_refl _) (.inr ⟨rfl, rfl⟩) (fun p _ => startGet_there p) rfl
    (fun p h => by cases h; exact fun i => rfl) (fun _ p h => by cases h; exact fun i => rfl) hx (fun b _ => new_ready false b.2)
  exact ⟨y, st', h1, h2 rfl⟩

example : ∃ b, Block.make false "b" 8 (.scalar 1) false ({} : BnConfig ℚ).withDefaults true = .ok b := ⟨_, rfl⟩

-- ResNet50 at the start
example (rsqrt : ℚ → ℚ) (x : Arr ℚ) (hx : x.shape = [2, 224, 224, 3]) :
    ∃ y st', (netOf "resnet50" (fifty false)).call startGet rsqrt (fun _ => BnState.empty) x true false = .ok (y, st') ∧ y.shape = [2, 1000] ∧ ∀ e < 2, ∀ k < 1000, y.val [e, k] = 0 :=
  zero_logits (fifty_made false) (fifty_fits false).2 (fun p _ => startGet_there p) hx (fun b _ => new_ready false b.2) (fun p h => by cases h; exact fun i => rfl) (fun p h => by cases h; exact fun i => rfl)

-- without projection, with stride 2: pictures of 4 × 4 pixels are an error, those of 2 × 2 keep their size
example (rsqrt : ℚ → ℚ) (b : Block ℚ) (hb : Block.make false "b" 8 (.scalar 2) false ({} : BnConfig ℚ).withDefaults true = .ok b) (x : Arr ℚ) (hx : x.shape = [3, 4, 4, 8]) :
    ¬ ∃ r, b.call startGet rsqrt true false (fun _ => BnState.empty) x = .ok r := fun h =>
  absurd ((bare_stride_two (a := { blocksPerGroup := [], numClasses := 0 }) hb (fun p _ => startGet_there p) hx (fun b _ => new_ready false b.2)).1.mp h).1 (by decide)
example (rsqrt : ℚ → ℚ) (b : Block ℚ) (hb : Block.make false "b" 8 (.scalar 2) false ({} : BnConfig ℚ).withDefaults true = .ok b) (x : Arr ℚ) (hx : x.shape = [3, 2, 2, 8]) :
    ∃ y st', b.call startGet rsqrt true false (fun _ => BnState.empty) x = .ok (y, st') ∧ y.shape = [3, 2, 2, 8] := by
  obtain ⟨h1, h2⟩ := bare_stride_two (a := { blocksPerGroup := [], numClasses := 0 }) (tr := true) (tl := false) (st := fun _ => BnState.empty) (rsqrt := rsqrt) hb (fun p _ => startGet_there p) hx (fun b _ => new_ready false b.2)
  obtain ⟨⟨y, st'⟩, h⟩ := h1.mpr ⟨Nat.le_refl _, Nat.le_refl _⟩
  exact ⟨y, st', h, (h2 y st' h).trans hx⟩

end Verif.Props.ResNet
