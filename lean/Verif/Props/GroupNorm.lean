import Verif.Lemmas.Reshape
import Verif.Props.BatchNorm

/-!
# Group normalisation (C70, C71)
-/

set_option linter.unusedVariables false
set_option linter.unusedSectionVars false

namespace Verif.Props.GroupNorm
open Verif.Shapes (Err size)
open Verif.Pool (Arr)
open Verif.Conv (indices)
open Verif.Mlp (ParamFn getParameter)
open Verif.Recurrent (project)
open Verif.Props.Reset (Valid mem_indices)
open Verif.Props.Conv (bind_ok)
open Verif.Props.Norm
open Verif.Nd
open Verif.Norm

variable {K : Type}

/-! ### Specification -/

/-- The object after successful calls on the inputs `l`, with any scale and offset arguments. -/
inductive History [Field K] (get : ParamFn K) (rsqrt : K → K) (m : GroupNorm K) : List (Arr K) → GroupNorm K → Prop
  | nil : History get rsqrt m [] m
  | snoc {l : List (Arr K)} {m' m'' : GroupNorm K} {x y : Arr K} {scale offset : Option (Arr K)} :
      History get rsqrt m l m' → m'.call get rsqrt x scale offset = .ok (y, m'') → History get rsqrt m (l ++ [x]) m''

/-- The positions that the statistics of position `i` are taken over: those that differ from it at most on the axes `ax` and belong to the same group of channels, where `c` is the channel axis. -/
def group (groups c : Nat) (ax shape i : List Nat) : Finset (List Nat) :=
  (slice ax shape i).filter fun j => j.getD c 0 / (shape.getD c 0 / groups) = i.getD c 0 / (shape.getD c 0 / groups)

/-- The channel axis of an array of rank `n`. -/
def channelAxis (channelIndex : Int) (n : Nat) : Nat := if channelIndex = -1 then n - 1 else 1

/-- The shape of an own scale or offset: one entry per channel, so placed that it is broadcast along the other axes. -/
def ownShape (channelIndex : Int) (shape : List Nat) : List Nat :=
  if channelIndex = -1 then [shape.getD (shape.length - 1) 0] else shape.getD 1 0 :: List.replicate (shape.length - 2) 1

/-! ### Lemmas -/

theorem channel_cases {l : List Char} {c : Int} (h : Verif.Utils.getChannelIndex l = .ok c) : c = 1 ∨ c = -1 := by
  unfold Verif.Utils.getChannelIndex at h
  split at h
  · cases h; exact .inl rfl
  split at h
  · cases h; exact .inr rfl
  split at h
  · cases h; exact .inl rfl
  split at h
  · cases h; exact .inr rfl
  split at h
  · cases h; exact .inr rfl
  · cases h

/-- Where axis `k` goes when axis `c` is split. -/
def moved (c k : Nat) : Nat := if k < c then k else k + 1

theorem split_axes (c : Nat) (ax : List Nat) : SplitAxes c ax (ax.map (moved c)) := by
  have key : ∀ k, moved c k = if k < c then k else k + 1 := fun k => rfl
  refine ⟨fun k hk => ?_, fun h => ?_, ?_, fun k hk => ?_⟩
  · rw [List.mem_map]
    constructor
    · rintro ⟨a, ha, e⟩
      rw [key] at e
      split at e
      · exact e ▸ ha
      · omega
    · intro h
      exact ⟨k, h, by rw [key, if_pos hk]⟩
  · obtain ⟨a, ha, e⟩ := List.mem_map.mp h
    rw [key] at e
    split at e <;> omega
  · rw [List.mem_map]
    constructor
    · rintro ⟨a, ha, e⟩
      rw [key] at e
      split at e
      · omega
      · have : a = c := by omega
        exact this ▸ ha
    · intro h
      exact ⟨c, h, by rw [key, if_neg (Nat.lt_irrefl c)]⟩
  · rw [List.mem_map]
    constructor
    · rintro ⟨a, ha, e⟩
      rw [key] at e
      split at e
      · omega
      · have : a = k := by omega
        exact this ▸ ha
    · intro h
      exact ⟨k, h, by rw [key, if_neg (by omega)]⟩

theorem moved_inj (c : Nat) : Function.Injective (moved c) := by
  intro a b h
  unfold moved at h
  split at h <;> split at h <;> omega

theorem nonneg_axes {n : Nat} {l : List Int} {ax : List Nat} (h : Denotes n l ax) (hn : ∀ a ∈ l, 0 ≤ a) : l = ax.map Int.ofNat ∧ ∀ k ∈ ax, k < n := by
  have h' := h.1
  clear h
  induction h' with
  | nil => exact ⟨rfl, fun k hk => by cases hk⟩
  | @cons a k l ax h _ ih =>
    obtain ⟨h1, h2⟩ := ih fun a ha => hn a (List.mem_cons_of_mem _ ha)
    have h0 := hn a List.mem_cons_self
    refine ⟨?_, fun b hb => ?_⟩
    · rw [List.map_cons, ← h1]
      congr 1
      show a = (k : Int)
      omega
    · rcases List.mem_cons.mp hb with rfl | hb
      · exact h.1
      · exact h2 b hb

/-- What `_initialize` sets. -/
theorem initialize_spec {m : GroupNorm K} (hc : m.channelIndex = 1 ∨ m.channelIndex = -1) {shape : List Nat} (hs : 2 ≤ shape.length) {C : Nat} (hC : channelsOf m.channelIndex shape = .ok C) {ax : List Nat}
    (hax : Denotes shape.length (m.axis.resolve shape.length) ax) (hn : ∀ a ∈ m.axis.resolve shape.length, 0 ≤ a) :
    ∃ N pre post, shape = N :: pre ++ C :: post ∧ channelAxis m.channelIndex shape.length = (N :: pre).length ∧ ownShape m.channelIndex shape = C :: List.replicate post.length 1 ∧
      (m.initialize shape C).rank = shape.length ∧ (m.initialize shape C).groupShape = pre ++ m.groups :: C / m.groups :: post ∧ (m.initialize shape C).firstInputShape = pre ++ C :: post ∧
      canonAxes (shape.length + 1) (m.initialize shape C).axis = .ok (ax.map (moved (N :: pre).length)) := by
  obtain ⟨hl, hlt⟩ := nonneg_axes hax hn
  have fin : ∀ (c : Nat) (f : Int → Int), c < shape.length → (∀ k, k < shape.length → f (Int.ofNat k) = Int.ofNat (moved c k)) → canonAxes (shape.length + 1) ((m.axis.resolve shape.length).map f) = .ok (ax.map (moved c)) := by
    intro c f hc hf
    have e : (m.axis.resolve shape.length).map f = (ax.map (moved c)).map Int.ofNat := by
      rw [hl, List.map_map, List.map_map]
      exact List.map_congr_left fun k hk => hf k (hlt k hk)
    rw [e]
    refine canonAxes_nat (fun k hk => ?_) (hax.2.map (moved_inj c))
    obtain ⟨a, ha, rfl⟩ := List.mem_map.mp hk
    have := hlt a ha
    unfold moved
    split <;> omega
  unfold channelsOf at hC
  rcases hc with hc | hc
  · rw [hc, if_neg (by decide)] at hC
    rw [hc]
    match shape, hs with
    | N :: D :: post, _ =>
      have : D = C := by cases hC; rfl
      subst this
      unfold GroupNorm.initialize
      rw [hc]
      dsimp only
      rw [if_neg (by decide)]
      refine ⟨N, [], post, rfl, rfl, rfl, rfl, rfl, rfl, fin 1 _ (by rw [List.length_cons, List.length_cons]; omega) fun k hk => ?_⟩
      unfold moved
      by_cases h : k = 0
      · subst h
        rfl
      · rw [if_neg (by rw [Int.ofNat_eq_natCast]; omega), if_neg (by omega)]
        rfl
  · rw [hc, if_pos rfl] at hC
    rw [hc]
    match shape, hs with
    | N :: D :: rest, _ =>
      obtain ⟨pre, e⟩ : ∃ pre, D :: rest = pre ++ [C] := by
        rcases hg : (N :: D :: rest).getLast? with _ | v
        · rw [hg] at hC
          cases hC
        · rw [hg] at hC
          cases hC
          rw [List.getLast?_cons_cons] at hg
          obtain ⟨pre, e⟩ := List.getLast?_eq_some_iff.mp hg
          exact ⟨pre, e⟩
      generalize D :: rest = t at hax hn hl hlt fin e ⊢
      subst e
      unfold GroupNorm.initialize
      rw [hc]
      dsimp only
      rw [if_pos rfl]
      have hlen : (N :: (pre ++ [C])).length = (N :: pre).length + 1 := by rw [List.length_cons, List.length_append, List.length_cons, List.length_cons, List.length_nil]
      refine ⟨N, pre, [], rfl, ?_, ?_, rfl, ?_, rfl, fin _ _ (by rw [hlen]; omega) fun k hk => ?_⟩
      · show _ - 1 = _
        rw [hlen]
        rfl
      · show [_] = [C]
        congr 1
        rw [hlen, Nat.add_sub_cancel, List.length_cons]
        show (pre ++ [C]).getD pre.length 0 = C
        rw [show pre.length = pre.length + 0 from rfl, getD_right]
        rfl
      · show (pre ++ [C]).dropLast ++ _ = _
        rw [List.dropLast_concat]
      · unfold moved
        rw [hlen] at hk ⊢
        by_cases h : k < (N :: pre).length
        · rw [if_pos h, if_pos (by rw [Int.ofNat_eq_natCast]; omega)]
        · rw [if_neg h, if_neg (by rw [Int.ofNat_eq_natCast]; omega)]
          rfl

/-- The shapes only depend on the sizes behind the first. -/
theorem initialize_tail {m : GroupNorm K} {s t : List Nat} (hs : 2 ≤ s.length) (h : s.tail = t.tail) (ht : t.length = s.length) (C : Nat) : m.initialize s C = m.initialize t C ∧ channelsOf m.channelIndex s = channelsOf m.channelIndex t := by
  match s, t, hs with
  | a :: b :: s, c :: t, _ =>
    have h : b :: s = t := h
    subst h
    refine ⟨rfl, ?_⟩
    unfold channelsOf
    rw [List.getLast?_cons_cons, List.getLast?_cons_cons]
    rfl
  | _ :: _ :: _, [], _ => cases ht

theorem reshape_ok {x y : Arr K} {N : Nat} {s t : List Nat} (hx : x.shape = N :: s) (hst : size s = size t) (h : reshapeLead x t = .ok y) :
    y.shape = N :: t ∧ ∀ i, y.val i = x.val (unravel x.shape (ravel (N :: t) i)) := by
  unfold reshapeLead at h
  dsimp only at h
  by_cases h0 : size t = 0 ∨ size x.shape % size t ≠ 0
  · rw [if_pos h0] at h
    cases h
  · rw [if_neg h0] at h
    have e : size x.shape / size t = N := by
      rw [hx, size_cons, hst, Nat.mul_div_cancel _ (by omega)]
    rw [e] at h
    cases h
    exact ⟨rfl, fun i => rfl⟩

theorem paramOr_ok {get : ParamFn K} {create : Bool} {mn n : String} {shape : List Nat} {arg p : Option (Arr K)} {d : K} (ha : ¬ (create = true ∧ arg.isSome = true))
    (h : paramOr get create mn n shape arg = .ok p) : ∃ q, Effective get create mn n shape arg d q ∧ (p = some q ∨ (p = none ∧ q = ⟨[], fun _ => d⟩)) := by
  unfold paramOr at h
  cases create with
  | true =>
    rw [if_pos rfl] at h
    obtain ⟨q, hq, h⟩ := bind_ok h
    unfold getParameter at hq
    obtain ⟨q', hq', hq⟩ := bind_ok hq
    by_cases e : q'.shape = shape
    · rw [if_pos e] at hq
      cases hq
      cases h
      cases arg with
      | none => exact ⟨q, .inl ⟨rfl, rfl, hq', e⟩, .inl rfl⟩
      | some a => exact absurd ⟨rfl, rfl⟩ ha
    · rw [if_neg e] at hq
      cases hq
  | false =>
    rw [if_neg Bool.false_ne_true] at h
    cases h
    cases arg with
    | none => exact ⟨⟨[], fun _ => d⟩, .inr (.inr ⟨rfl, rfl, rfl⟩), .inr ⟨rfl, rfl⟩⟩
    | some a => exact ⟨a, .inr (.inl ⟨rfl, rfl⟩), .inl rfl⟩

theorem applyOpt_ok {f : K → K → K} {x y q : Arr K} {p : Option (Arr K)} {d : K} (hd : ∀ v, f v d = v) (hp : p = some q ∨ (p = none ∧ q = ⟨[], fun _ => d⟩)) (hq : BroadcastsTo q.shape x.shape)
    (h : applyOpt f x p = .ok y) : y.shape = x.shape ∧ ∀ i, Valid x.shape i → y.val i = f (x.val i) (spread q i) := by
  rcases hp with rfl | ⟨rfl, rfl⟩
  · unfold applyOpt at h
    dsimp only at h
    obtain ⟨w, hw, h⟩ := bind_ok h
    unfold broadcastToRank at hw
    have hl := hq.length
    rw [if_neg (by omega)] at hw
    obtain ⟨l, r, e, hr⟩ := hq
    have hrl := hr.length_eq
    have hll : x.shape.length - q.shape.length = l.length := by
      rw [e, List.length_append, hrl]
      omega
    rw [hll] at hw
    cases hw
    have hb : BroadcastsTo (List.replicate l.length 1 ++ q.shape) x.shape := by
      refine ⟨[], x.shape, rfl, ?_⟩
      rw [e]
      refine List.rel_append ?_ hr
      clear e hll h
      induction l with
      | nil => exact .nil
      | cons a l ih => exact .cons (.inl rfl) ih
    obtain ⟨z, hz, hzs, hzv⟩ := zip_at (f := f) (x := x) (y := ⟨List.replicate l.length 1 ++ q.shape, fun i => q.val (i.drop l.length)⟩) hb
    rw [hz] at h
    cases h
    refine ⟨hzs, fun i hi => ?_⟩
    rw [hzv i hi]
    congr 1
    unfold spread
    dsimp only
    have hil : i.length = x.shape.length := hi.length
    congr 1
    rw [List.drop_zipWith, List.drop_left' List.length_replicate, List.drop_drop, List.length_append, List.length_replicate]
    congr 2
    omega
  · cases h
    exact ⟨rfl, fun i hi => (hd _).symm⟩

/-- The steps of a successful call. -/
theorem call_ok [Field K] {get : ParamFn K} {rsqrt : K → K} {m m' : GroupNorm K} {x y : Arr K} {scale offset : Option (Arr K)} (h : m.call get rsqrt x scale offset = .ok (y, m')) :
    ∃ C s p q g mu v c n z u, channelsOf m.channelIndex x.shape = .ok C ∧ m.groups ≠ 0 ∧ C % m.groups = 0 ∧ s = m.shapes.getD (m.initialize x.shape C) ∧ x.shape.length = s.rank ∧ m' = { m with shapes := some s } ∧
      ¬ (m.createScale = true ∧ scale.isSome = true) ∧ ¬ (m.createOffset = true ∧ offset.isSome = true) ∧
      paramOr get m.createScale m.name "scale" (if m.channelIndex = -1 then [C] else C :: List.replicate (s.rank - 2) 1) scale = .ok p ∧
      paramOr get m.createOffset m.name "offset" (if m.channelIndex = -1 then [C] else C :: List.replicate (s.rank - 2) 1) offset = .ok q ∧
      reshapeLead x s.groupShape = .ok g ∧ mean g s.axis = .ok mu ∧ var g s.axis = .ok v ∧ Verif.Nd.zip (· - ·) g mu = .ok c ∧ Verif.Nd.zip (· * ·) c (map (fun v => rsqrt (v + m.eps)) v) = .ok n ∧
      reshapeLead n s.firstInputShape = .ok z ∧ applyOpt (· * ·) z p = .ok u ∧ applyOpt (· + ·) u q = .ok y := by
  unfold GroupNorm.call at h
  by_cases h0 : rankChanged x.shape.length m.shapes = true
  · rw [if_pos h0] at h
    cases h
  rw [if_neg h0] at h
  by_cases h1 : m.createScale = true ∧ scale.isSome = true
  · rw [if_pos h1] at h
    cases h
  rw [if_neg h1] at h
  by_cases h2 : m.createOffset = true ∧ offset.isSome = true
  · rw [if_pos h2] at h
    cases h
  rw [if_neg h2] at h
  obtain ⟨C, hC, h⟩ := bind_ok h
  by_cases h3 : m.groups = 0
  · rw [if_pos h3] at h
    cases h
  rw [if_neg h3] at h
  by_cases h4 : C % m.groups ≠ 0
  · rw [if_pos h4] at h
    cases h
  rw [if_neg h4] at h
  obtain ⟨p, hp, h⟩ := bind_ok h
  obtain ⟨q, hq, h⟩ := bind_ok h
  obtain ⟨g, hg, h⟩ := bind_ok h
  obtain ⟨mu, hmu, h⟩ := bind_ok h
  obtain ⟨v, hv, h⟩ := bind_ok h
  obtain ⟨c, hcc, h⟩ := bind_ok h
  obtain ⟨n, hn, h⟩ := bind_ok h
  obtain ⟨z, hz, h⟩ := bind_ok h
  obtain ⟨u, hu, h⟩ := bind_ok h
  obtain ⟨y', hy, h⟩ := bind_ok h
  cases h
  refine ⟨C, _, p, q, g, mu, v, c, n, z, u, hC, h3, not_not.mp h4, rfl, ?_, rfl, h1, h2, hp, hq, hg, hmu, hv, hcc, hn, hz, hu, hy⟩
  cases hs : m.shapes with
  | none =>
    unfold GroupNorm.initialize
    dsimp only [Option.getD]
    split <;> rfl
  | some s =>
    rw [hs] at h0
    by_cases e : x.shape.length = s.rank
    · exact e
    · exact absurd (decide_eq_true e) h0

theorem own_broadcasts {channelIndex : Int} {shape : List Nat} {N C : Nat} {pre post : List Nat} (hs : shape = N :: pre ++ C :: post) (ho : ownShape channelIndex shape = C :: List.replicate post.length 1) :
    BroadcastsTo (ownShape channelIndex shape) shape := by
  refine ⟨N :: pre, C :: post, hs, ?_⟩
  rw [ho]
  refine .cons (.inr rfl) ?_
  clear hs ho
  induction post with
  | nil => exact .nil
  | cons a l ih => exact .cons (.inl rfl) ih

/-- One call whose recorded shapes fit the input. -/
theorem call_value [Field K] {get : ParamFn K} {rsqrt : K → K} {m m' : GroupNorm K} {x y : Arr K} {scale offset : Option (Arr K)} (hc : m.channelIndex = 1 ∨ m.channelIndex = -1) (hr : 2 ≤ x.shape.length)
    (ax : List Nat) (hax : Denotes x.shape.length (m.axis.resolve x.shape.length) ax) (hn : ∀ a ∈ m.axis.resolve x.shape.length, 0 ≤ a)
    (hs : ∀ a, scale = some a → BroadcastsTo a.shape x.shape) (ho : ∀ a, offset = some a → BroadcastsTo a.shape x.shape)
    (hsh : ∀ C, channelsOf m.channelIndex x.shape = .ok C → m.shapes = none ∨ m.shapes = some (m.initialize x.shape C))
    (h : m.call get rsqrt x scale offset = .ok (y, m')) :
    ∃ g b, Effective get m.createScale m.name "scale" (ownShape m.channelIndex x.shape) scale 1 g ∧ Effective get m.createOffset m.name "offset" (ownShape m.channelIndex x.shape) offset 0 b ∧
      y.shape = x.shape ∧ ∀ i, Valid x.shape i → y.val i =
        (x.val i - avg (group m.groups (channelAxis m.channelIndex x.shape.length) ax x.shape i) x.val) *
          rsqrt (variance (group m.groups (channelAxis m.channelIndex x.shape.length) ax x.shape i) x.val + m.eps) * spread g i + spread b i := by
  obtain ⟨C, s, p, q, g, mu, v, c, n, z, u, hC, hg0, hCg, hss, hrank, _, h1, h2, hp, hq, hg, hmu, hv, hcc, hnn, hz, hu, hy⟩ := call_ok h
  have hs' : s = m.initialize x.shape C := by
    rcases hsh C hC with e | e
    · rw [hss, e]
      rfl
    · rw [hss, e]
      rfl
  obtain ⟨N, pre, post, e1, e2, e3, e4, e5, e6, e7⟩ := initialize_spec hc hr hC hax hn
  rw [← hs'] at e4 e5 e6 e7
  have hown : (if m.channelIndex = -1 then [C] else C :: List.replicate (s.rank - 2) 1) = ownShape m.channelIndex x.shape := by
    rw [e3, e4]
    rcases hc with hc | hc
    · rw [hc, if_neg (by decide)]
      have : (N :: pre).length = 1 := by
        rw [← e2, hc]
        rfl
      congr 2
      rw [e1, List.length_append, this, List.length_cons]
      omega
    · rw [hc, if_pos rfl]
      have : (N :: pre).length = x.shape.length - 1 := by
        rw [← e2, hc]
        rfl
      have h0 : post.length = 0 := by
        have h5 := congrArg List.length e1
        rw [List.length_append, this, List.length_cons] at h5
        omega
      rw [h0]
      rfl
  rw [hown] at hp hq
  obtain ⟨G, hG, hGp⟩ := paramOr_ok (d := (1 : K)) h1 hp
  obtain ⟨B, hB, hBq⟩ := paramOr_ok (d := (0 : K)) h2 hq
  have bc : ∀ {create : Bool} {nm : String} {arg : Option (Arr K)} {d : K} {P : Arr K}, (∀ a, arg = some a → BroadcastsTo a.shape x.shape) →
      Effective get create m.name nm (ownShape m.channelIndex x.shape) arg d P → BroadcastsTo P.shape x.shape := by
    intro create nm arg d P harg h
    rcases h with ⟨_, _, _, h⟩ | ⟨_, h⟩ | ⟨_, _, h⟩
    · rw [h]
      exact own_broadcasts e1 e3
    · exact harg P h
    · rw [h]
      exact broadcasts_nil _
  have hm : C = m.groups * (C / m.groups) := (Nat.mul_div_cancel' (Nat.dvd_of_mod_eq_zero hCg)).symm
  generalize hM : C / m.groups = M at *
  have hsize : size (pre ++ C :: post) = size (pre ++ m.groups :: M :: post) := by
    rw [size_append, size_append, size_cons, size_cons, size_cons, hm, Nat.mul_assoc]
  rw [e5] at hg
  obtain ⟨g1, g2⟩ := reshape_ok (N := N) (s := pre ++ C :: post) e1 hsize hg
  have hgl : g.shape.length = x.shape.length + 1 := by
    rw [g1, e1]
    simp only [List.length_cons, List.length_append]
    omega
  rw [← hgl] at e7
  have hmu' := mean_eq e7
  rw [hmu] at hmu'
  cases hmu'
  obtain ⟨v', hv', hvs, hvv⟩ := var_eq e7
  rw [hv] at hv'
  cases hv'
  obtain ⟨c', hc', hcs, hcv⟩ := zip_at (f := (· - ·)) (x := g) (y := meanArr g (ax.map (moved (N :: pre).length))) (broadcasts_keep _ _)
  rw [hcc] at hc'
  cases hc'
  obtain ⟨n', hn', hns, hnv⟩ := zip_at (f := (· * ·)) (x := c) (y := map (fun v => rsqrt (v + m.eps)) v) (show BroadcastsTo v.shape c.shape by rw [hvs, hcs]; exact broadcasts_keep _ _)
  rw [hnn] at hn'
  cases hn'
  rw [e6] at hz
  obtain ⟨z1, z2⟩ := reshape_ok (x := n) (N := N) (s := pre ++ m.groups :: M :: post) (by rw [hns, hcs, g1]) hsize.symm hz
  have zs : z.shape = x.shape := by rw [z1, e1]; rfl
  obtain ⟨u1, u2⟩ := applyOpt_ok (f := (· * ·)) (fun v => mul_one v) hGp (by rw [zs]; exact bc hs hG) hu
  obtain ⟨y1, y2⟩ := applyOpt_ok (f := (· + ·)) (fun v => add_zero v) hBq (by rw [u1, zs]; exact bc ho hB) hy
  refine ⟨G, B, hG, hB, by rw [y1, u1, zs], fun i hi => ?_⟩
  rw [y2 i (by rw [u1, zs]; exact hi), u2 i (by rw [zs]; exact hi)]
  congr 2
  have hi' := hi
  rw [e1] at hi'
  obtain ⟨a, l, rfl, ha, hl⟩ := valid_append_inv hi'
  cases hl with
  | @cons w _ b _ hw hb =>
    have hM0 : 0 < M := by
      rw [hm] at hw
      exact Nat.pos_of_mul_pos_left (Nat.lt_of_le_of_lt (Nat.zero_le _) hw)
    have hq' : w / M < m.groups := (Nat.div_lt_iff_lt_mul hM0).mpr (by rw [← hm]; exact hw)
    have hr' : w % M < M := Nat.mod_lt _ hM0
    have hw' : w = w / M * M + w % M := (Nat.div_add_mod' w M).symm
    have hal : (N :: pre).length = a.length := ha.length.symm
    have vG : Valid (N :: pre ++ m.groups :: M :: post) (a ++ w / M :: w % M :: b) := valid_append ha (.cons hq' (.cons hr' hb))
    have hgs : g.shape = N :: pre ++ m.groups :: M :: post := g1
    have hxs : x.shape = N :: pre ++ (m.groups * M) :: post := by rw [e1, ← hm]
    have hGv : ∀ a' q' r' b', Valid (N :: pre) a' → Valid post b' → q' < m.groups → r' < M → g.val (a' ++ q' :: r' :: b') = x.val (a' ++ (q' * M + r') :: b') := by
      intro a' q' r' b' ha' hb' hq' hr'
      rw [g2]
      congr 1
      have v1 : Valid x.shape (a' ++ (q' * M + r') :: b') := by
        rw [hxs]
        refine valid_append ha' (.cons ?_ hb')
        calc q' * M + r' < q' * M + M := by omega
          _ = (q' + 1) * M := by rw [Nat.add_mul, Nat.one_mul]
          _ ≤ m.groups * M := Nat.mul_le_mul_right _ hq'
      have := ravel_merge (pre := N :: pre) (a := a') m.groups M q' r' post b' ha'.length.symm
      rw [show N :: (pre ++ m.groups :: M :: post) = (N :: pre) ++ m.groups :: M :: post from rfl, ← this, ← hxs, unravel_ravel v1]
    have hzi : z.val (a ++ w :: b) = n.val (a ++ w / M :: w % M :: b) := by
      rw [z2]
      congr 1
      have := ravel_merge (pre := N :: pre) (a := a) m.groups M (w / M) (w % M) post b hal
      rw [← hw', ← hm] at this
      rw [show N :: (pre ++ C :: post) = (N :: pre) ++ C :: post from rfl, this, hns, hcs, hgs, unravel_ravel vG]
    have vg : Valid g.shape (a ++ w / M :: w % M :: b) := by rw [hgs]; exact vG
    have hblock : block ax (N :: pre).length M x.shape (a ++ w :: b) = group m.groups (channelAxis m.channelIndex x.shape.length) ax x.shape (a ++ w :: b) := by
      unfold block group
      rw [e2]
      have : x.shape.getD (N :: pre).length 0 = C := by
        rw [e1, show (N :: pre).length = (N :: pre).length + 0 from rfl, getD_right]
        rfl
      rw [this, hM]
    have hav := avg_split (K := K) (pre := N :: pre) (post := post) (ax := ax) (split_axes _ ax) ha hb hq' hr' (F := x.val) (G := g.val) hGv
    have hva := variance_split (K := K) (pre := N :: pre) (post := post) (ax := ax) (split_axes _ ax) ha hb hq' hr' (F := x.val) (G := g.val) hGv
    rw [← hw', ← hxs, hblock, ← hgs] at hav hva
    rw [hzi, hnv _ (by rw [hcs]; exact vg), hcv _ vg]
    have s1 : spread (meanArr g (ax.map (moved (N :: pre).length))) (a ++ w / M :: w % M :: b) = avg (group m.groups (channelAxis m.channelIndex x.shape.length) ax x.shape (a ++ w :: b)) x.val := by
      rw [← hav]
      exact meanArr_project vg
    have s2 : spread (map (fun v => rsqrt (v + m.eps)) v) (a ++ w / M :: w % M :: b) = rsqrt (variance (group m.groups (channelAxis m.channelIndex x.shape.length) ax x.shape (a ++ w :: b)) x.val + m.eps) := by
      rw [← hva]
      show rsqrt (spread v _ + m.eps) = _
      rw [show spread v (a ++ w / M :: w % M :: b) = _ from hvv _ vg]
    rw [s1, s2, hGv a _ _ b ha hb hq' hr', ← hw']

/-- The object after calls on inputs that all have the sizes `t` behind the first. -/
theorem history_shapes [Field K] {get : ParamFn K} {rsqrt : K → K} {m m' : GroupNorm K} {l : List (Arr K)} (h : History get rsqrt m l m') (hm : m.shapes = none) (s : List Nat) (hs : 2 ≤ s.length)
    (hl : ∀ x ∈ l, x.shape.length = s.length ∧ x.shape.tail = s.tail) :
    { m' with shapes := none } = m ∧ ∀ C, channelsOf m.channelIndex s = .ok C → m'.shapes = none ∨ m'.shapes = some (m.initialize s C) := by
  induction h with
  | nil =>
    refine ⟨?_, fun C _ => .inl hm⟩
    obtain ⟨a, b, c, d, e, f, g, h⟩ := m
    cases hm
    rfl
  | @snoc l m' m'' x y scale offset hl' hc ih =>
    obtain ⟨i1, i2⟩ := ih fun x hx => hl x (List.mem_append_left _ hx)
    obtain ⟨hx1, hx2⟩ := hl x (List.mem_append_right _ List.mem_cons_self)
    obtain ⟨C, sh, p, q, g, mu, v, c, n, z, u, hC, _, _, hss, _, hm'', _⟩ := call_ok hc
    refine ⟨by rw [hm'', ← i1], fun D hD => ?_⟩
    have e : m'.channelIndex = m.channelIndex := by rw [← i1]
    have ei : ∀ t D, m'.initialize t D = m.initialize t D := fun t D => by rw [← i1]; rfl
    rw [e] at hC
    have hCs : channelsOf m.channelIndex s = .ok C := by
      rw [← (initialize_tail (m := m) (s := x.shape) (by rw [hx1]; exact hs) hx2 hx1.symm C).2]
      exact hC
    have : C = D := Except.ok.inj (hCs.symm.trans hD)
    subst this
    rw [hm'']
    refine .inr (congrArg some ?_)
    rw [hss]
    rcases i2 C hD with h | h
    · rw [h]
      show m'.initialize x.shape C = _
      rw [ei, (initialize_tail (m := m) (by rw [hx1]; exact hs) hx2 hx1.symm C).1]
    · rw [h]
      rfl

/-! ### C70 -/

/-- C70, C71 A `GroupNorm` with axes that are not negative, called on inputs of rank at least 2 whose sizes behind the first never change, returns each time an array of the shape of its input.  Its element at position `i` is
`(x - mean) * rsqrt(var + eps) * scale + offset`, with mean and variance over the positions that differ from `i` at most on the given axes and lie in the same group of neighbouring channels.
Missing: the shape is wrong when other sizes change between calls (`group_norm_shape_wrong`); the groups are mixed with negative axes (`group_norm_negative_axis`). -/
theorem group_norm_partial [Field K] (get : ParamFn K) (rsqrt : K → K) (name : String) (groups : Nat) (axis : AxisArg) (cs co : Bool) (eps : K) (si oi : Bool) (fmt : List Char) (m0 m m' : GroupNorm K)
    (hm : GroupNorm.make name groups axis cs co eps si oi fmt = .ok m0) (c : Int) (hc : Verif.Utils.getChannelIndex fmt = .ok c) (earlier : List (Arr K)) (hh : History get rsqrt m0 earlier m)
    (x y : Arr K) (hr : 2 ≤ x.shape.length) (he : ∀ e ∈ earlier, e.shape.length = x.shape.length ∧ e.shape.tail = x.shape.tail)
    (ax : List Nat) (hax : Denotes x.shape.length (m0.axis.resolve x.shape.length) ax) (hn : ∀ a ∈ m0.axis.resolve x.shape.length, 0 ≤ a) (scale offset : Option (Arr K))
    (hs : ∀ a, scale = some a → BroadcastsTo a.shape x.shape) (ho : ∀ a, offset = some a → BroadcastsTo a.shape x.shape)
    (h : m.call get rsqrt x scale offset = .ok (y, m')) :
    ∃ g b, Effective get cs name "scale" (ownShape c x.shape) scale 1 g ∧ Effective get co name "offset" (ownShape c x.shape) offset 0 b ∧
      y.shape = x.shape ∧ ∀ i, Valid x.shape i → y.val i =
        (x.val i - avg (group groups (channelAxis c x.shape.length) ax x.shape i) x.val) *
          rsqrt (variance (group groups (channelAxis c x.shape.length) ax x.shape i) x.val + eps) * spread g i + spread b i := by
  unfold GroupNorm.make at hm
  obtain ⟨A, hA, hm⟩ := bind_ok hm
  rw [bind_eq hc] at hm
  by_cases h1 : cs = false ∧ si = true
  · rw [if_pos h1] at hm
    cases hm
  rw [if_neg h1] at hm
  by_cases h2 : co = false ∧ oi = true
  · rw [if_pos h2] at hm
    cases hm
  rw [if_neg h2] at hm
  have hm := Except.ok.inj hm
  obtain ⟨i1, i2⟩ := history_shapes hh (by rw [← hm]) x.shape hr he
  obtain ⟨n', g', a', cs', co', e', c', s'⟩ := m
  rw [← i1] at hm hax hn i2
  obtain ⟨rfl, rfl, rfl, rfl, rfl, rfl, rfl, _⟩ := GroupNorm.mk.inj hm
  exact call_value (m := ⟨name, groups, A, cs, co, eps, c, s'⟩) (channel_cases hc) hr ax hax hn hs ho i2 h

/-- The modules of the concrete cases. -/
def gn (axis : AxisArg) (groups : Nat) (fmt : String) : Except Err (GroupNorm Rat) := GroupNorm.make "gn" groups axis false false 1 false false fmt.toList

/-- No parameters are needed. -/
def noParams : ParamFn Rat := fun _ _ _ => .error .value

/-- The result of a call. -/
def out (m : Except Err (GroupNorm Rat)) (shape : List Nat) (v : List Nat → Rat) (i : List Nat) : Option (List Nat × Rat) :=
  (m.bind fun m => m.call noParams (fun v => v) ⟨shape, v⟩ none none).toOption.map fun r => (r.1.shape, r.1.val i)

/-- Four channels in two groups, normalised over all axes but the first: the group of channel 0 has mean 3/2 and variance 5/4. -/
example : out (gn (.slice (some 1) none) 2 "channels_last") [1, 2, 4] (fun i => ((i.getD 1 0 * 2 + i.getD 2 0 : Nat) : Rat)) [0, 0, 0] = some ([1, 2, 4], -27 / 8) ∧
    Denotes 3 ((Axis.slice (some 1) none).resolve 3) [1, 2] ∧ ([0, 1, 1] ∈ group 2 2 [1, 2] [1, 2, 4] [0, 0, 0]) ∧ ¬ ([0, 1, 2] ∈ group 2 2 [1, 2] [1, 2, 4] [0, 0, 0]) := by
  refine ⟨by decide +kernel, ⟨.cons ⟨by decide, .inl rfl⟩ (.cons ⟨by decide, .inl rfl⟩ .nil), by decide⟩, by decide +kernel, by decide +kernel⟩

/-- C71 The own scale and offset of `GroupNorm` have one value per channel: positions with the same channel get the same. -/
theorem group_norm_per_channel (c : Int) (hc : c = 1 ∨ c = -1) (shape : List Nat) (hr : 2 ≤ shape.length) (p : Arr K) (hp : p.shape = ownShape c shape) (i j : List Nat) (hi : Valid shape i) (hj : Valid shape j)
    (h : i.getD (channelAxis c shape.length) 0 = j.getD (channelAxis c shape.length) 0) : spread p i = spread p j := by
  unfold spread
  congr 1
  rw [hp, hi.length, hj.length]
  have hil : i.length = shape.length := hi.length
  have hjl : j.length = shape.length := hj.length
  unfold ownShape
  unfold channelAxis at h
  rcases hc with rfl | rfl
  · rw [if_neg (by decide)] at h ⊢
    rw [List.length_cons, List.length_replicate, show shape.length - (shape.length - 2 + 1) = 1 by omega]
    match i, j, hil, hjl, h with
    | i0 :: i1 :: is, j0 :: j1 :: js, hil, hjl, h =>
      have h : i1 = j1 := h
      subst h
      show (_ :: List.zipWith _ (List.replicate _ 1) is) = (_ :: List.zipWith _ (List.replicate _ 1) js)
      congr 1
      have key : ∀ (n : Nat) (a b : List Nat), a.length = b.length → List.zipWith (fun d j => if d = 1 then 0 else j) (List.replicate n 1) a = List.zipWith (fun d j => if d = 1 then 0 else j) (List.replicate n 1) b := by
        intro n
        induction n with
        | zero => intro a b _; rfl
        | succ n ih =>
          intro a b hab
          match a, b, hab with
          | [], [], _ => rfl
          | a :: as, b :: bs, hab =>
            show (0 :: _) = (0 :: _)
            exact congrArg _ (ih as bs (Nat.succ.inj hab))
      refine key _ _ _ ?_
      simp only [List.length_cons] at hil hjl
      omega
    | [], _, hil, _, _ => simp at hil; omega
    | [_], _, hil, _, _ => simp at hil; omega
    | _ :: _ :: _, [], _, hjl, _ => simp at hjl; omega
    | _ :: _ :: _, [_], _, hjl, _ => simp at hjl; omega
  · rw [if_pos rfl] at h ⊢
    have last : ∀ l : List Nat, l.length = shape.length → l.drop (shape.length - 1) = [l.getD (shape.length - 1) 0] := by
      intro l hl
      have hlt : shape.length - 1 < l.length := by omega
      rw [List.drop_eq_getElem_cons hlt, List.drop_of_length_le (by omega), List.getD_eq_getElem _ _ hlt]
    show List.zipWith _ _ (i.drop (shape.length - 1)) = List.zipWith _ _ (j.drop (shape.length - 1))
    rw [last i hil, last j hjl, h]

/-- Scales for three channels: on the last axis and on axis 1. -/
example : ownShape (-1) [2, 5, 3] = [3] ∧ ownShape 1 [2, 3, 5] = [3, 1] ∧ channelAxis 1 3 = 1 ∧ channelAxis (-1) 3 = 2 := by decide

/-- C70 is violated when the module is called on inputs of different sizes: after an input of shape `[1, 4, 2]` an input of shape `[1, 8, 2]` gives an output of shape `[2, 4, 2]`. -/
theorem group_norm_shape_wrong : ((gn (.slice (some 1) none) 2 "channels_last").toOption.bind fun m =>
    (m.call noParams (fun v => v) ⟨[1, 4, 2], fun _ => 0⟩ none none).toOption.bind fun r =>
      (r.2.call noParams (fun v => v) ⟨[1, 8, 2], fun _ => 0⟩ none none).toOption.map fun q => (r.1.shape, q.1.shape)) = some ([1, 4, 2], [2, 4, 2]) := by
  decide +kernel

/-- C71 is violated for negative axes.  With the channels on the last axis and `axis=-2` (the spatial axis of an array of rank 3), the output of the first group depends on the second group; with the channels on axis 1 and `axis=-1`
(the last axis), the output of the first example depends on the second example. -/
theorem group_norm_negative_axis :
    (out (gn (.int (-2)) 2 "channels_last") [1, 1, 2] (fun _ => 0) [0, 0, 0] = some ([1, 1, 2], 0) ∧
      out (gn (.int (-2)) 2 "channels_last") [1, 1, 2] (fun i => if i = [0, 0, 1] then 1 else 0) [0, 0, 0] = some ([1, 1, 2], -5 / 8)) ∧
    (out (gn (.int (-1)) 1 "channels_first") [2, 1, 1] (fun _ => 0) [0, 0, 0] = some ([2, 1, 1], 0) ∧
      out (gn (.int (-1)) 1 "channels_first") [2, 1, 1] (fun i => if i = [1, 0, 0] then 1 else 0) [0, 0, 0] = some ([2, 1, 1], -5 / 8)) := by
  refine ⟨⟨by decide +kernel, by decide +kernel⟩, by decide +kernel, by decide +kernel⟩

end Verif.Props.GroupNorm
