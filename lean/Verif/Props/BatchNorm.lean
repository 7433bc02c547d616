import Verif.Props.Norm
import Verif.Props.Ema

/-!
# Batch normalisation (C66, C67, C68, C69)
-/

set_option linter.unusedVariables false
set_option linter.unusedSectionVars false

namespace Verif.Props.BatchNorm
open Verif.Shapes (Err)
open Verif.Pool (Arr)
open Verif.Conv (indices)
open Verif.Mlp (ParamFn getParameter)
open Verif.Recurrent (project)
open Verif.Props.Reset (Valid mem_indices)
open Verif.Props.Conv (bind_ok)
open Verif.Props.Norm
open Verif.Nd
open Verif.Norm

variable {K : Type}

/-! ### Specification -/

/-- The average of a function of the elements at the positions in `s` of all arrays of a group. -/
def pooled [Field K] (group : List (Arr K)) (s : Finset (List Nat)) (f : K → K) : K := (group.map fun d => ∑ j ∈ s, f (d.val j)).sum / ((group.length : K) * (s.card : K))

/-- The variance of those elements. -/
def pooledVar [Field K] (group : List (Arr K)) (s : Finset (List Nat)) : K := pooled group s fun v => (v - pooled group s fun v => v) ^ 2

/-- The inputs that the statistics are taken over: those of all devices of the group, or only the own one. -/
def population (m : BatchNorm K) (x : Arr K) (group : List (Arr K)) : List (Arr K) := if m.crossReplica then group else [x]

/-! ### Lemmas -/

theorem sum_pooled [Field K] (group : List (Arr K)) (s : Finset (List Nat)) (f : K → K) :
    (group.map fun d => avg s fun j => f (d.val j)).sum / (group.length : K) = pooled group s f := by
  unfold pooled avg
  have : (group.map fun d => (∑ j ∈ s, f (d.val j)) / (s.card : K)).sum = (group.map fun d => ∑ j ∈ s, f (d.val j)).sum / (s.card : K) := by
    induction group with
    | nil => rw [List.map_nil, List.map_nil, List.sum_nil, zero_div]
    | cons d group ih => rw [List.map_cons, List.map_cons, List.sum_cons, List.sum_cons, ih, add_div]
  rw [this, div_div, mul_comm]

theorem pooled_single [Field K] (x : Arr K) (s : Finset (List Nat)) (f : K → K) : pooled [x] s f = avg s fun j => f (x.val j) := by
  rw [← sum_pooled]
  show (_ + 0) / ((1 : Nat) : K) = _
  rw [add_zero, Nat.cast_one, div_one]

theorem pooled_add [Field K] (group : List (Arr K)) (s : Finset (List Nat)) (f g : K → K) : pooled group s (fun v => f v + g v) = pooled group s f + pooled group s g := by
  unfold pooled
  rw [← add_div]
  congr 1
  induction group with
  | nil => rw [List.map_nil, List.map_nil, List.map_nil, List.sum_nil, add_zero]
  | cons d group ih =>
    rw [List.map_cons, List.map_cons, List.map_cons, List.sum_cons, List.sum_cons, List.sum_cons, ih, Finset.sum_add_distrib]
    ring

theorem pooled_smul [Field K] (group : List (Arr K)) (s : Finset (List Nat)) (c : K) (f : K → K) : pooled group s (fun v => c * f v) = c * pooled group s f := by
  unfold pooled
  rw [← mul_div_assoc]
  congr 1
  induction group with
  | nil => rw [List.map_nil, List.map_nil, List.sum_nil, mul_zero]
  | cons d group ih =>
    rw [List.map_cons, List.map_cons, List.sum_cons, List.sum_cons, ih, ← Finset.mul_sum]
    ring

theorem pooled_const [Field K] (group : List (Arr K)) (s : Finset (List Nat)) (hg : (group.length : K) ≠ 0) (hs : (s.card : K) ≠ 0) (c : K) : pooled group s (fun _ => c) = c := by
  unfold pooled
  rw [div_eq_iff (mul_ne_zero hg hs)]
  clear hg
  induction group with
  | nil => rw [List.map_nil, List.sum_nil, List.length_nil, Nat.cast_zero, zero_mul, mul_zero]
  | cons d group ih =>
    rw [List.map_cons, List.sum_cons, ih, Finset.sum_const, nsmul_eq_mul, List.length_cons]
    push_cast
    ring

/-- The mean of the squares minus the square of the mean is the variance. -/
theorem pooledVar_eq [Field K] (group : List (Arr K)) (s : Finset (List Nat)) (hg : (group.length : K) ≠ 0) (hs : (s.card : K) ≠ 0) :
    pooled group s (fun v => v * v) - pooled group s (fun v => v) * pooled group s (fun v => v) = pooledVar group s := by
  unfold pooledVar
  generalize hm : pooled group s (fun v => v) = mu
  have e : pooled group s (fun v => (v - mu) ^ 2) = pooled group s (fun v => v * v + ((-2 * mu) * v + mu ^ 2)) := by
    congr 1
    funext v
    ring
  rw [e, pooled_add, pooled_add, pooled_smul, pooled_const group s hg hs, hm]
  ring

theorem mapM_means [Field K] {axes : List Int} {ax : List Nat} {n : Nat} (f : K → K) (h : canonAxes n axes = .ok ax) :
    ∀ {l : List (Arr K)}, (∀ d ∈ l, d.shape.length = n) → l.mapM (fun y => mean (map f y) axes) = .ok (l.map fun y => meanArr (map f y) ax)
  | [], _ => rfl
  | d :: l, hl => by
    have h1 : mean (map f d) axes = .ok (meanArr (map f d) ax) := mean_eq (by show canonAxes d.shape.length axes = _; rw [hl d List.mem_cons_self]; exact h)
    rw [List.mapM_cons, h1, mapM_means f h fun e he => hl e (List.mem_cons_of_mem _ he)]
    rfl

theorem map_self (x : Arr K) : map (fun v => v) x = x := rfl

/-- What the statistics are. -/
theorem stats_eq [Field K] [CharZero K] {m : BatchNorm K} {x : Arr K} {group : List (Arr K)} {ax : List Nat} (hax : canonAxes x.shape.length (m.axes x.shape.length) = .ok ax)
    (hne : population m x group ≠ []) (hsh : ∀ d ∈ population m x group, d.shape = x.shape) :
    ∃ mu v : Arr K, m.stats x group = .ok (mu, v) ∧ mu.shape = keepShape ax x.shape ∧ v.shape = keepShape ax x.shape ∧ ∀ i, Valid x.shape i →
      spread mu i = pooled (population m x group) (slice ax x.shape i) (fun v => v) ∧ spread v i = pooledVar (population m x group) (slice ax x.shape i) := by
  have hlen : ((population m x group).length : K) ≠ 0 := Nat.cast_ne_zero.mpr fun h => hne (List.eq_nil_of_length_eq_zero h)
  have e0 : ∀ f : K → K, mean (map f x) (m.axes x.shape.length) = .ok (meanArr (map f x) ax) := fun f => mean_eq (x := map f x) hax
  have fin : ∀ mu sq : Arr K, mu.shape = keepShape ax x.shape → sq.shape = keepShape ax x.shape →
      (∀ i, Valid x.shape i → spread mu i = pooled (population m x group) (slice ax x.shape i) (fun v => v) ∧ spread sq i = pooled (population m x group) (slice ax x.shape i) (fun v => v * v)) →
      ∃ v : Arr K, Verif.Nd.zip (· - ·) sq (map (fun v => v * v) mu) = .ok v ∧ v.shape = keepShape ax x.shape ∧
        ∀ i, Valid x.shape i → spread v i = pooledVar (population m x group) (slice ax x.shape i) := by
    intro mu sq h1 h2 h3
    have hz := zip_right (f := (· - ·)) (x := sq) (y := map (fun v => v * v) mu) (show BroadcastsTo mu.shape sq.shape by rw [h1, h2]; exact broadcasts_refl _)
    obtain ⟨z, hz', _, hzv⟩ := zip_common (f := (· - ·)) (x := sq) (y := map (fun v => v * v) mu) (s := x.shape) (by rw [h2]; exact broadcasts_keep _ _) (show BroadcastsTo mu.shape _ by rw [h1]; exact broadcasts_keep _ _)
    rw [hz] at hz'
    cases hz'
    refine ⟨_, hz, h2, fun i hi => ?_⟩
    refine (hzv i hi).trans ?_
    show spread sq i - spread mu i * spread mu i = _
    rw [(h3 i hi).1, (h3 i hi).2, pooledVar_eq _ _ hlen (slice_card_ne hi)]
  unfold BatchNorm.stats
  cases hc : m.crossReplica with
  | false =>
    have hp : population m x group = [x] := by unfold population; rw [hc]; rfl
    obtain ⟨v, hv, hvs, hvv⟩ := fin (meanArr x ax) (meanArr (map (fun v => v * v) x) ax) rfl rfl fun i hi => by
      rw [hp, pooled_single, pooled_single]
      exact ⟨meanArr_project hi, meanArr_project (x := map (fun v => v * v) x) hi⟩
    refine ⟨meanArr x ax, v, ?_, rfl, hvs, fun i hi => ⟨?_, hvv i hi⟩⟩
    · refine (bind_eq (e0 fun v => v)).trans ((bind_eq (e0 fun v => v * v)).trans ?_)
      rw [if_neg Bool.false_ne_true]
      show (do let v ← Verif.Nd.zip (· - ·) _ _; Except.ok (_, v)) = _
      exact bind_eq hv
    · rw [hp, pooled_single]
      exact meanArr_project hi
  | true =>
    have hp : population m x group = group := by unfold population; rw [hc]; rfl
    rw [hp] at hsh
    have hm1 := mapM_means (K := K) (fun v => v) hax (l := group) fun d hd => by rw [hsh d hd]
    have hm2 := mapM_means (K := K) (fun v => v * v) hax (l := group) fun d hd => by rw [hsh d hd]
    have val : ∀ (f : K → K) (i : List Nat), Valid x.shape i → spread (pmean (meanArr (map f x) ax) (group.map fun y => meanArr (map f y) ax)) i = pooled group (slice ax x.shape i) f := by
      intro f i hi
      rw [← sum_pooled]
      show ((group.map fun y => meanArr (map f y) ax).map (·.val (project (keepShape ax x.shape) i))).sum / (((group.map fun y => meanArr (map f y) ax).length : Nat) : K) = _
      rw [List.length_map, List.map_map]
      congr 2
      refine List.map_congr_left fun d hd => ?_
      show avg (slice ax d.shape (project (keepShape ax x.shape) i)) (fun j => f (d.val j)) = _
      rw [hsh d hd, slice_project hi]
    obtain ⟨v, hv, hvs, hvv⟩ := fin (pmean (meanArr x ax) (group.map fun y => meanArr (map (fun v => v) y) ax)) (pmean (meanArr (map (fun v => v * v) x) ax) (group.map fun y => meanArr (map (fun v => v * v) y) ax))
      rfl rfl fun i hi => by
        rw [hp]
        exact ⟨val (fun v => v) i hi, val (fun v => v * v) i hi⟩
    refine ⟨pmean (meanArr x ax) (group.map fun y => meanArr (map (fun v => v) y) ax), v, ?_, rfl, hvs, fun i hi => ⟨?_, hvv i hi⟩⟩
    · refine (bind_eq (e0 fun v => v)).trans ((bind_eq (e0 fun v => v * v)).trans ?_)
      rw [if_pos rfl]
      rw [show group.mapM (fun y => mean y (m.axes x.shape.length)) = .ok (group.map fun y => meanArr (map (fun v => v) y) ax) from hm1, hm2]
      show (do let v ← Verif.Nd.zip (· - ·) _ _; Except.ok (_, v)) = _
      exact bind_eq hv
    · rw [hp]
      exact val (fun v => v) i hi

/-- The last four lines of `BatchNorm.__call__`. -/
theorem tail_eq [Field K] {rsqrt : K → K} {eps : K} {x mu v g b : Arr K} (hm : BroadcastsTo mu.shape x.shape) (hv : BroadcastsTo v.shape x.shape) (hg : BroadcastsTo g.shape x.shape)
    (hb : BroadcastsTo b.shape x.shape) {β : Type} (F : Arr K → Except Err β) :
    ∃ y : Arr K, (do
      let inv ← Verif.Nd.zip (· * ·) g (map (fun v => rsqrt (v + eps)) v)
      let centered ← Verif.Nd.zip (· - ·) x mu
      let scaled ← Verif.Nd.zip (· * ·) centered inv
      let out ← Verif.Nd.zip (· + ·) scaled b
      F out) = F y ∧ y.shape = x.shape ∧ ∀ i, Valid x.shape i → y.val i = (x.val i - spread mu i) * (spread g i * rsqrt (spread v i + eps)) + spread b i := by
  obtain ⟨inv, hinv, hinvs, hinvv⟩ := zip_common (f := (· * ·)) (x := g) (y := map (fun v => rsqrt (v + eps)) v) hg hv
  obtain ⟨c, hc, hcs, hcv⟩ := zip_at (f := (· - ·)) hm
  obtain ⟨sc, hsc, hscs, hscv⟩ := zip_at (f := (· * ·)) (x := c) (y := inv) (by rw [hcs]; exact hinvs)
  obtain ⟨y, hy, hys, hyv⟩ := zip_at (f := (· + ·)) (x := sc) (y := b) (by rw [hscs, hcs]; exact hb)
  refine ⟨y, (bind_eq hinv).trans <| (bind_eq hc).trans <| (bind_eq hsc).trans (bind_eq hy), by rw [hys, hscs, hcs], fun i hi => ?_⟩
  have i1 : Valid c.shape i := by rw [hcs]; exact hi
  have i2 : Valid sc.shape i := by rw [hscs]; exact i1
  rw [hyv i i2, hscv i i1, hcv i hi]
  have e : spread inv i = spread g i * rsqrt (spread v i + eps) := hinvv i hi
  rw [e]

/-- The shape of an own scale or offset. -/
def ownShape (m : BatchNorm K) (shape : List Nat) : List Nat := shape.mapIdx fun i n => if Int.ofNat i ∈ m.axes shape.length then 1 else n

theorem own_broadcasts (m : BatchNorm K) (shape : List Nat) : BroadcastsTo (ownShape m shape) shape := by
  refine ⟨[], shape, rfl, List.forall₂_iff_get.mpr ⟨List.length_mapIdx, fun i h1 h2 => ?_⟩⟩
  show (ownShape m shape)[i] = 1 ∨ (ownShape m shape)[i] = shape[i]
  have : (ownShape m shape)[i] = if Int.ofNat i ∈ m.axes shape.length then 1 else shape[i] := List.getElem_mapIdx
  rw [this]
  by_cases h : Int.ofNat i ∈ m.axes shape.length
  · exact .inl (if_pos h)
  · exact .inr (if_neg h)

theorem effective_broadcasts {get : ParamFn K} {m : BatchNorm K} {shape : List Nat} {create : Bool} {mn n : String} {arg : Option (Arr K)} {d : K} {p : Arr K}
    (harg : ∀ a, arg = some a → BroadcastsTo a.shape shape) (h : Effective get create mn n (ownShape m shape) arg d p) : BroadcastsTo p.shape shape := by
  rcases h with ⟨_, _, _, h⟩ | ⟨_, h⟩ | ⟨_, _, h⟩
  · rw [h]
    exact own_broadcasts m shape
  · exact harg p h
  · rw [h]
    exact broadcasts_nil shape

/-- What a successful call did. -/
theorem call_ok [Field K] {get : ParamFn K} {rsqrt : K → K} {m : BatchNorm K} {st st' : BnState K} {x y : Arr K} {group : List (Arr K)} {tr tl : Bool} {scale offset : Option (Arr K)}
    (h : m.call get rsqrt st x group tr tl scale offset = .ok (y, st')) :
    ∃ mu v g b, Effective get m.createScale m.name "scale" (ownShape m x.shape) scale 1 g ∧ Effective get m.createOffset m.name "offset" (ownShape m x.shape) offset 0 b ∧
      (tr = true ∨ tl = true → m.stats x group = .ok (mu, v)) ∧ (tr = false ∧ tl = false → st.mean.average = some mu ∧ st.var.average = some v) ∧
      (tr = false → st' = st) ∧ (tr = true → emaCall m.ema st.mean mu = .ok st'.mean ∧ emaCall m.ema st.var v = .ok st'.var) ∧
      (do
        let inv ← Verif.Nd.zip (· * ·) g (map (fun v => rsqrt (v + m.eps)) v)
        let centered ← Verif.Nd.zip (· - ·) x mu
        let scaled ← Verif.Nd.zip (· * ·) centered inv
        let out ← Verif.Nd.zip (· + ·) scaled b
        Except.ok out) = .ok y := by
  unfold BatchNorm.call at h
  by_cases h1 : m.createScale = true ∧ scale.isSome = true
  · rw [if_pos h1] at h
    cases h
  rw [if_neg h1] at h
  by_cases h2 : m.createOffset = true ∧ offset.isSome = true
  · rw [if_pos h2] at h
    cases h
  rw [if_neg h2] at h
  obtain ⟨⟨mu, v⟩, hst, h⟩ := bind_ok h
  dsimp only at h
  obtain ⟨st1, hs1, h⟩ := bind_ok h
  obtain ⟨g, hg, h⟩ := bind_ok h
  obtain ⟨b, hb, h⟩ := bind_ok h
  obtain ⟨inv, hinv, h⟩ := bind_ok h
  obtain ⟨c, hc, h⟩ := bind_ok h
  obtain ⟨sc, hsc, h⟩ := bind_ok h
  obtain ⟨out, hout, h⟩ := bind_ok h
  cases h
  refine ⟨mu, v, g, b, affine_ok h1 hg, affine_ok h2 hb, fun ht => ?_, fun ht => ?_, fun ht => ?_, fun ht => ?_, ?_⟩
  · unfold BatchNorm.chosenStats at hst
    rw [if_pos (by rcases ht with rfl | rfl; rfl; exact Bool.or_true _)] at hst
    exact hst
  · unfold BatchNorm.chosenStats at hst
    rw [ht.1, ht.2, if_neg (by decide)] at hst
    obtain ⟨a, ha, hst⟩ := bind_ok hst
    obtain ⟨b, hb, hst⟩ := bind_ok hst
    cases hst
    constructor
    · cases hx : st.mean.average with
      | none =>
        rw [hx] at ha
        cases ha
      | some q =>
        rw [hx] at ha
        cases ha
        rfl
    · cases hx : st.var.average with
      | none =>
        rw [hx] at hb
        cases hb
      | some q =>
        rw [hx] at hb
        cases hb
        rfl
  · unfold BatchNorm.updated at hs1
    rw [ht, if_neg Bool.false_ne_true] at hs1
    exact (Except.ok.inj hs1).symm
  · unfold BatchNorm.updated at hs1
    rw [ht, if_pos rfl] at hs1
    obtain ⟨a, ha, hs1⟩ := bind_ok hs1
    obtain ⟨b, hb, hs1⟩ := bind_ok hs1
    cases hs1
    exact ⟨ha, hb⟩
  · exact (bind_eq hinv).trans <| (bind_eq hc).trans <| (bind_eq hsc).trans <| (bind_eq hout)

theorem stats_axes [Field K] {m : BatchNorm K} {x : Arr K} {group : List (Arr K)} {p : Arr K × Arr K} (h : m.stats x group = .ok p) :
    ∃ ax, canonAxes x.shape.length (m.axes x.shape.length) = .ok ax := by
  unfold BatchNorm.stats at h
  obtain ⟨mu, hmu, _⟩ := bind_ok h
  obtain ⟨ax, hax, _⟩ := mean_ok hmu
  exact ⟨ax, hax⟩

/-! ### C66 -/

/-- C66 A call of `BatchNorm` in training or with `test_local_stats` returns an array of the input's shape with the element `(x - mean) * scale * rsqrt(var + eps) + offset` at each position `i`, where mean and
variance are those of the elements of the own input (with a cross-replica axis: of the inputs of all devices of the group) at the positions that differ from `i` only on the reduced axes. -/
theorem batch_norm_batch [Field K] [CharZero K] (get : ParamFn K) (rsqrt : K → K) (m : BatchNorm K) (st st' : BnState K) (x y : Arr K) (group : List (Arr K)) (tr tl : Bool) (scale offset : Option (Arr K))
    (ht : tr = true ∨ tl = true) (hne : population m x group ≠ []) (hsh : ∀ d ∈ population m x group, d.shape = x.shape)
    (hs : ∀ a, scale = some a → BroadcastsTo a.shape x.shape) (ho : ∀ a, offset = some a → BroadcastsTo a.shape x.shape)
    (h : m.call get rsqrt st x group tr tl scale offset = .ok (y, st')) :
    ∃ ax g b, Denotes x.shape.length (m.axes x.shape.length) ax ∧ Effective get m.createScale m.name "scale" (ownShape m x.shape) scale 1 g ∧
      Effective get m.createOffset m.name "offset" (ownShape m x.shape) offset 0 b ∧ y.shape = x.shape ∧ ∀ i, Valid x.shape i →
        y.val i = (x.val i - pooled (population m x group) (slice ax x.shape i) fun v => v) *
          (spread g i * rsqrt (pooledVar (population m x group) (slice ax x.shape i) + m.eps)) + spread b i := by
  obtain ⟨mu, v, g, b, hg, hb, h1, _, _, _, h2⟩ := call_ok h
  have h1 := h1 ht
  obtain ⟨ax, hax⟩ := stats_axes h1
  obtain ⟨mu', v', hst, hmus, hvs, hval⟩ := stats_eq hax hne hsh
  rw [h1] at hst
  cases hst
  obtain ⟨z, hz, hzs, hzv⟩ := tail_eq (rsqrt := rsqrt) (eps := m.eps) (x := x) (mu := mu) (v := v) (g := g) (b := b) (by rw [hmus]; exact broadcasts_keep _ _) (by rw [hvs]; exact broadcasts_keep _ _)
    (effective_broadcasts hs hg) (effective_broadcasts ho hb) Except.ok
  rw [h2] at hz
  cases hz
  refine ⟨ax, g, b, denotes_of hax, hg, hb, hzs, fun i hi => ?_⟩
  rw [hzv i hi, (hval i hi).1, (hval i hi).2]

/-- The module of the concrete cases. -/
def bn (axis : Option (List Int)) (cross : Bool) : BatchNorm Rat := ⟨"bn", false, false, 1, axis, cross, -1, ⟨1 / 2, true, 0⟩⟩

/-- No parameters are needed. -/
def noParams : ParamFn Rat := fun _ _ _ => .error .value

/-- An input of shape `[2, 2]`. -/
def input (a b c d : Rat) : Arr Rat := ⟨[2, 2], fun i => if i = [0, 0] then a else if i = [0, 1] then b else if i = [1, 0] then c else d⟩

/-- Training on one device and on two. -/
example : population (bn none false) (input 0 1 2 5) [] = [input 0 1 2 5] ∧ population (bn none true) (input 0 1 2 5) [input 0 1 2 5, input 4 1 6 1] = [input 0 1 2 5, input 4 1 6 1] ∧
    ((bn none false).call noParams (fun v => v) .empty (input 0 1 2 5) [] true false none none).toOption.map (fun r => (r.1.shape, r.1.val [0, 0], r.1.val [0, 1])) = some ([2, 2], -2, -10) ∧
    ((bn none true).call noParams (fun v => v) .empty (input 0 1 2 5) [input 0 1 2 5, input 4 1 6 1] true false none none).toOption.map (fun r => (r.1.shape, r.1.val [0, 0], r.1.val [0, 1])) =
      some ([2, 2], -18, -4) :=
  ⟨rfl, rfl, by decide +kernel, by decide +kernel⟩

/-- C66 By default `BatchNorm` reduces over all axes but the channel axis: the positions over which the statistics of position `i` are taken are those with the same channel. -/
theorem batch_norm_channels (name : String) (cs co : Bool) (d eps : K) (si oi cr ig : Bool) (fmt : List Char) (m : BatchNorm K) (hm : BatchNorm.make name cs co d eps si oi none cr ig fmt = .ok m) (s i : List Nat)
    (c : Int) (hc : Verif.Utils.getChannelIndex fmt = .ok c) (k : Nat) (hk : k < s.length) (hkc : c = (k : Int) ∨ c = (k : Int) - s.length) :
    ∃ ax, Denotes s.length (m.axes s.length) ax ∧ ∀ j, j ∈ slice ax s i ↔ Valid s j ∧ j.getD k 0 = i.getD k 0 := by
  unfold BatchNorm.make at hm
  split at hm
  · cases hm
  split at hm
  · cases hm
  split at hm
  · cases hm
  rw [hc] at hm
  cases hm
  have hax : (BatchNorm.mk name cs co eps none cr c ⟨d, true, 0⟩).axes s.length = ((List.range s.length).filter (· ≠ k)).map Int.ofNat := by
    show ((List.range s.length).map Int.ofNat).filter (fun a => decide (a ≠ if c < 0 then c + s.length else c)) = _
    have hcc : (if c < 0 then c + (s.length : Int) else c) = Int.ofNat k := by
      show _ = (k : Int)
      by_cases h0 : c < 0
      · rw [if_pos h0]
        omega
      · rw [if_neg h0]
        omega
    rw [hcc, List.filter_map]
    congr 1
    refine List.filter_congr fun a _ => ?_
    show decide (Int.ofNat a ≠ Int.ofNat k) = decide (a ≠ k)
    rw [decide_eq_decide]
    exact not_congr ⟨fun h => Int.ofNat.inj h, fun h => h ▸ rfl⟩
  refine ⟨(List.range s.length).filter (· ≠ k), ?_, fun j => ?_⟩
  · rw [hax]
    refine denotes_nat (fun a ha => List.mem_range.mp (List.mem_filter.mp ha).1) (List.nodup_range.filter _)
  · rw [mem_slice]
    refine and_congr_right fun hj => ⟨fun h => h k hk fun h' => ?_, fun h a ha hm => ?_⟩
    · have := (List.mem_filter.mp h').2
      simp at this
    · have : a = k := by
        by_contra hne
        exact hm (List.mem_filter.mpr ⟨List.mem_range.mpr ha, by simpa using hne⟩)
      rw [this]
      exact h

/-- Channels on axis 1 of an array of rank 3. -/
example : Verif.Utils.getChannelIndex "NCH".toList = .ok 1 ∧ (BatchNorm.make "bn" true true (1 / 2 : Rat) 1 false false none false false "NCH".toList).toOption.map (fun m => m.axes 3) = some [0, 2] := by
  decide +kernel

/-! ### C67 -/

/-- C67 A call of `BatchNorm` that is not training leaves the state as it is; without `test_local_stats` it uses the stored averages (and raises when there are none), so each output element is a function of
the input element at the same position only. -/
theorem batch_norm_test [Field K] (get : ParamFn K) (rsqrt : K → K) (m : BatchNorm K) (st : BnState K) (x : Arr K) (group : List (Arr K)) (tl : Bool) (scale offset : Option (Arr K))
    (hs : ∀ a, scale = some a → BroadcastsTo a.shape x.shape) (ho : ∀ a, offset = some a → BroadcastsTo a.shape x.shape) :
    (∀ y st', m.call get rsqrt st x group false tl scale offset = .ok (y, st') → st' = st) ∧
    (st.mean.average = none ∨ st.var.average = none → ∃ e, m.call get rsqrt st x group false false scale offset = .error e) ∧
    ∀ mu v y st', st.mean.average = some mu → st.var.average = some v → BroadcastsTo mu.shape x.shape → BroadcastsTo v.shape x.shape →
      m.call get rsqrt st x group false false scale offset = .ok (y, st') →
      ∃ g b, Effective get m.createScale m.name "scale" (ownShape m x.shape) scale 1 g ∧ Effective get m.createOffset m.name "offset" (ownShape m x.shape) offset 0 b ∧ y.shape = x.shape ∧
        ∀ i, Valid x.shape i → y.val i = (x.val i - spread mu i) * (spread g i * rsqrt (spread v i + m.eps)) + spread b i := by
  refine ⟨fun y st' h => ?_, fun hn => ?_, fun mu v y st' hmu hv hmus hvs h => ?_⟩
  · obtain ⟨_, _, _, _, _, _, _, _, h, _⟩ := call_ok h
    exact h rfl
  · rcases hr : m.call get rsqrt st x group false false scale offset with e | ⟨y, st'⟩
    · exact ⟨e, rfl⟩
    · obtain ⟨_, _, _, _, _, _, _, h, _⟩ := call_ok hr
      obtain ⟨h1, h2⟩ := h ⟨rfl, rfl⟩
      rcases hn with hn | hn
      · rw [hn] at h1
        cases h1
      · rw [hn] at h2
        cases h2
  · obtain ⟨mu', v', g, b, hg, hb, _, h1, _, _, h2⟩ := call_ok h
    obtain ⟨h3, h4⟩ := h1 ⟨rfl, rfl⟩
    rw [hmu] at h3
    rw [hv] at h4
    cases h3
    cases h4
    obtain ⟨z, hz, hzs, hzv⟩ := tail_eq (rsqrt := rsqrt) (eps := m.eps) hmus hvs (effective_broadcasts hs hg) (effective_broadcasts ho hb) Except.ok
    rw [h2] at hz
    cases hz
    exact ⟨g, b, hg, hb, hzs, hzv⟩

/-- A training call and then a test call; without the training call it raises. -/
example : (((bn none false).call noParams (fun v => v) .empty (input 0 1 2 5) [] true false none none).toOption.bind fun r =>
      ((bn none false).call noParams (fun v => v) r.2 (input 3 3 3 3) [] false false none none).toOption.map fun q => (q.1.val [0, 0], q.1.val [0, 1])) = some (4, 0) ∧
    ((bn none false).call noParams (fun v => v) .empty (input 3 3 3 3) [] false false none none).toOption.isSome = false := by
  decide +kernel

/-! ### C68 -/

/-- A call: the input, the inputs of the group, `is_training` and `test_local_stats`. -/
structure Call (K : Type) where
  x : Arr K
  group : List (Arr K)
  training : Bool
  localStats : Bool

/-- The state after a history of calls that all succeeded. -/
inductive History [Field K] (get : ParamFn K) (rsqrt : K → K) (m : BatchNorm K) : List (Call K) → BnState K → Prop
  | nil : History get rsqrt m [] .empty
  | snoc {l : List (Call K)} {st st' : BnState K} {c : Call K} {scale offset : Option (Arr K)} {y : Arr K} :
      History get rsqrt m l st → m.call get rsqrt st c.x c.group c.training c.localStats scale offset = .ok (y, st') → History get rsqrt m (l ++ [c]) st'

/-- The state of one element. -/
def view (st : EmaState K) (i : List Nat) : Verif.Ema.State K := ⟨st.counter, st.hidden.map (spread · i), st.average.map (spread · i)⟩

/-- The average of the module at a position after updates with the values `xs`: their debiased exponential average. -/
def ema [Field K] (d : K) (xs : List K) : Option K := if xs = [] then none else some (Verif.Props.Ema.weighted d xs / (1 - d ^ xs.length))

theorem spread_map (f : K → K) (x : Arr K) (i : List Nat) : spread (map f x) i = f (spread x i) := rfl

theorem ema_view [Field K] {m : Verif.Ema.EMA K} {st st' : EmaState K} {v : Arr K} {s : List Nat} (hv : BroadcastsTo v.shape s) (hst : ∀ h, st.hidden = some h → h.shape = v.shape)
    (h : emaCall m st v = .ok st') : (∀ h, st'.hidden = some h → h.shape = v.shape) ∧ (∀ a, st'.average = some a → a.shape = v.shape) ∧
      ∀ i, Valid s i → view st' i = (m.call (view st i) (spread v i) true).2 := by
  unfold emaCall at h
  dsimp only at h
  obtain ⟨hid, hz, h⟩ := bind_ok h
  have hh0 : (st.hidden.getD ⟨v.shape, fun _ => 0⟩).shape = v.shape := by
    cases hx : st.hidden with
    | none => rfl
    | some q => exact hst q hx
  have hsh : (map (fun x => x * if 0 < m.warmupLength ∧ st.counter.getD (-m.warmupLength) + 1 ≤ 0 then 0 else m.decay) (st.hidden.getD ⟨v.shape, fun _ => 0⟩)).shape = v.shape := hh0
  have hb : BroadcastsTo (map (fun x => x * if 0 < m.warmupLength ∧ st.counter.getD (-m.warmupLength) + 1 ≤ 0 then 0 else m.decay) (st.hidden.getD ⟨v.shape, fun _ => 0⟩)).shape s := by
    rw [hsh]
    exact hv
  have hz1 := zip_right (f := (· + ·)) (x := map (fun x => x * if 0 < m.warmupLength ∧ st.counter.getD (-m.warmupLength) + 1 ≤ 0 then 0 else m.decay) (st.hidden.getD ⟨v.shape, fun _ => 0⟩))
    (y := map (fun x => x * (1 - if 0 < m.warmupLength ∧ st.counter.getD (-m.warmupLength) + 1 ≤ 0 then 0 else m.decay)) v) (by rw [hsh]; exact broadcasts_refl _)
  obtain ⟨z, hz2, _, hzv⟩ := zip_common (f := (· + ·)) (x := map (fun x => x * if 0 < m.warmupLength ∧ st.counter.getD (-m.warmupLength) + 1 ≤ 0 then 0 else m.decay) (st.hidden.getD ⟨v.shape, fun _ => 0⟩))
    (y := map (fun x => x * (1 - if 0 < m.warmupLength ∧ st.counter.getD (-m.warmupLength) + 1 ≤ 0 then 0 else m.decay)) v) (s := s) hb hv
  have hz3 : z = hid := Except.ok.inj (hz2.symm.trans hz)
  have hz4 : hid.shape = v.shape := by
    rw [← Except.ok.inj (hz1.symm.trans hz)]
    exact hsh
  subst hz3
  have h := Except.ok.inj h
  subst h
  refine ⟨fun q hq => ?_, fun q hq => ?_, fun i hi => ?_⟩
  · cases hq
    exact hz4
  · have hq := Option.some.inj hq
    rw [← hq]
    split
    · exact hz4
    · exact hz4
  · have e0 : spread (st.hidden.getD ⟨v.shape, fun _ => 0⟩) i = (st.hidden.map (spread · i)).getD 0 := by
      cases hx : st.hidden with
      | none => rfl
      | some q => rfl
    have e1 : spread z i = (st.hidden.map (spread · i)).getD 0 * (if 0 < m.warmupLength ∧ st.counter.getD (-m.warmupLength) + 1 ≤ 0 then 0 else m.decay) +
        spread v i * (1 - if 0 < m.warmupLength ∧ st.counter.getD (-m.warmupLength) + 1 ≤ 0 then 0 else m.decay) := by
      refine (hzv i hi).trans ?_
      show spread (st.hidden.getD ⟨v.shape, fun _ => 0⟩) i * _ + _ = _
      rw [e0]
      rfl
    unfold view Verif.Ema.EMA.call
    dsimp only
    rw [if_pos rfl, Option.map_some, Option.map_some, e1]
    congr 2
    cases m.zeroDebias with
    | true =>
      rw [if_pos rfl, if_pos rfl, spread_map, e1]
    | false =>
      rw [if_neg Bool.false_ne_true, if_neg Bool.false_ne_true, e1]

/-- C68 Let a `BatchNorm` be constructed with the decay rate `d`.  After any history of calls on inputs of one shape, of which the training calls saw the inputs `x_1, ..., x_n`, the stored averages are, at each position, the debiased exponential averages of the `n` means
and of the `n` variances of those inputs (none when `n = 0`); other calls have no influence. -/
theorem batch_norm_averages [Field K] [CharZero K] (get : ParamFn K) (rsqrt : K → K) (m : BatchNorm K) (d : K) {name : String} {cs co si oi cr ig : Bool} {eps : K} {axis : Option (List Int)} {df : List Char}
    (hmake : BatchNorm.make name cs co d eps si oi axis cr ig df = .ok m) (s : List Nat) (ax : List Nat)
    (hax : Denotes s.length (m.axes s.length) ax) (calls : List (Call K)) (hx : ∀ c ∈ calls, c.x.shape = s) (hp : ∀ c ∈ calls, population m c.x c.group ≠ [] ∧ ∀ e ∈ population m c.x c.group, e.shape = s)
    (st : BnState K) (h : History get rsqrt m calls st) (i : List Nat) (hi : Valid s i) :
    st.mean.average.map (spread · i) = ema d ((calls.filter (·.training)).map fun c => pooled (population m c.x c.group) (slice ax s i) fun v => v) ∧
    st.var.average.map (spread · i) = ema d ((calls.filter (·.training)).map fun c => pooledVar (population m c.x c.group) (slice ax s i)) := by
  have hm : m.ema = ⟨d, true, 0⟩ := by
    unfold BatchNorm.make at hmake
    split at hmake
    · cases hmake
    split at hmake
    · cases hmake
    split at hmake
    · cases hmake
    obtain ⟨c, _, h2⟩ := bind_ok hmake
    cases h2
    rfl
  have inv : (∀ h, st.mean.hidden = some h → h.shape = keepShape ax s) ∧ (∀ h, st.var.hidden = some h → h.shape = keepShape ax s) ∧
      view st.mean i = m.ema.after .empty ((calls.filter (·.training)).map fun c => (pooled (population m c.x c.group) (slice ax s i) fun v => v, true)) ∧
      view st.var i = m.ema.after .empty ((calls.filter (·.training)).map fun c => (pooledVar (population m c.x c.group) (slice ax s i), true)) := by
    induction h with
    | nil => exact ⟨(fun _ h => by cases h), (fun _ h => by cases h), rfl, rfl⟩
    | @snoc l st st' c scale offset y hl hc ih =>
      obtain ⟨i1, i2, i3, i4⟩ := ih (fun c hc => hx c (List.mem_append_left _ hc)) (fun c hc => hp c (List.mem_append_left _ hc))
      have hmem : c ∈ l ++ [c] := List.mem_append_right _ List.mem_cons_self
      obtain ⟨mu, v, g, b, _, _, h1, _, h2, h3, _⟩ := call_ok hc
      rw [List.filter_append]
      cases htr : c.training with
      | false =>
        have : List.filter (fun c : Call K => c.training) [c] = [] := by rw [List.filter_cons_of_neg (by rw [htr]; exact Bool.false_ne_true)]; rfl
        rw [this, List.append_nil, h2 htr]
        exact ⟨i1, i2, i3, i4⟩
      | true =>
        have : List.filter (fun c : Call K => c.training) [c] = [c] := by rw [List.filter_cons_of_pos htr]; rfl
        rw [this, List.map_append, List.map_append]
        obtain ⟨h4, h5⟩ := h3 htr
        have hcx := hx c hmem
        obtain ⟨mu', v', hst, hmus, hvs, hval⟩ := stats_eq (m := m) (x := c.x) (group := c.group) (ax := ax) (by rw [hcx]; exact canon_of hax) (hp c hmem).1 (by rw [hcx]; exact (hp c hmem).2)
        rw [h1 (.inl htr)] at hst
        cases hst
        rw [hcx] at hmus hvs hval
        obtain ⟨j1, j2, j3⟩ := ema_view (s := s) (by rw [hmus]; exact broadcasts_keep _ _) (by rw [hmus]; exact i1) h4
        obtain ⟨k1, k2, k3⟩ := ema_view (s := s) (by rw [hvs]; exact broadcasts_keep _ _) (by rw [hvs]; exact i2) h5
        rw [hmus] at j1
        rw [hvs] at k1
        refine ⟨j1, k1, ?_, ?_⟩
        · rw [j3 i hi, i3, (hval i hi).1, Verif.Props.Ema.after_append]
          rfl
        · rw [k3 i hi, i4, (hval i hi).2, Verif.Props.Ema.after_append]
          rfl
  have fin : ∀ (e : EmaState K) (xs : List K), view e i = m.ema.after .empty (xs.map fun x => (x, true)) → e.average.map (spread · i) = ema d xs := by
    intro e xs he
    have h1 : e.average.map (spread · i) = (m.ema.after .empty (xs.map fun x => (x, true))).average := by rw [← he]; rfl
    rw [h1]
    have hup : ∀ l : List K, Verif.Props.Ema.updates (l.map fun x => (x, true)) = l := by
      intro l
      induction l with
      | nil => rfl
      | cons a l ih => exact congrArg (a :: ·) ih
    unfold ema
    by_cases hx : xs = []
    · rw [hx, if_pos rfl]
      rfl
    · rw [if_neg hx]
      have e2 : xs = xs.dropLast ++ [xs.getLast hx] := (List.dropLast_append_getLast hx).symm
      generalize xs.dropLast = l at e2
      generalize xs.getLast hx = a at e2
      subst e2
      rw [List.map_append, Verif.Props.Ema.after_append]
      have h2 := Verif.Props.Ema.ema_stores_average m.ema (m.ema.after .empty (l.map fun x => (x, true))) a []
      have h3 := Verif.Props.Ema.ema_value d true m.ema (by rw [hm]; rfl) (l.map fun x => (x, true)) a true
      rw [if_pos rfl, hup] at h3
      refine h2.trans ?_
      rw [h3, List.length_append]
      rfl
  obtain ⟨_, _, h1, h2⟩ := inv
  refine ⟨fin _ _ ?_, fin _ _ ?_⟩
  · rw [h1, List.map_map]
    rfl
  · rw [h2, List.map_map]
    rfl

/-- Two training calls with a test call in between. -/
def calls : List (Call Rat) := [⟨input 0 1 2 5, [], true, false⟩, ⟨input 8 8 8 8, [], false, false⟩, ⟨input 4 0 8 6, [], true, false⟩]

/-- The state after the calls, and the averages of the two means (1 and 6 for channel 0) with decay 1/2. -/
example : ((calls.foldlM (m := Except Verif.Shapes.Err) (fun st c => ((bn none false).call noParams (fun v => v) st c.x c.group c.training c.localStats none none).map (·.2)) BnState.empty).toOption.bind
      fun st => st.mean.average.map (spread · [1, 0])) = some (13 / 3) ∧ ema (1 / 2 : Rat) [1, 6] = some (13 / 3) ∧ Denotes 2 ((bn none false).axes 2) [0] ∧ BatchNorm.make "bn" false false (1 / 2) 1 false false none false false "channels_last".toList = .ok (bn none false) := by
  refine ⟨by decide +kernel, by decide +kernel, ⟨.cons ⟨by decide, .inl rfl⟩ .nil, by decide⟩, rfl⟩

/-! ### C69 -/

theorem ownShape_at (m : BatchNorm K) (s : List Nat) (ax : List Nat) (hax : Denotes s.length (m.axes s.length) ax) (hn : ∀ l, m.axis = some l → ∀ a ∈ l, 0 ≤ a) (k : Nat) (hk : k < s.length) :
    (ownShape m s)[k]? = some (if k ∈ ax then 1 else s[k]) := by
  have hk' : k < (ownShape m s).length := by unfold ownShape; rw [List.length_mapIdx]; exact hk
  rw [List.getElem?_eq_getElem hk']
  have : (ownShape m s)[k] = if Int.ofNat k ∈ m.axes s.length then 1 else s[k] := List.getElem_mapIdx
  rw [this]
  have hnn : ∀ a ∈ m.axes s.length, 0 ≤ a := by
    intro a ha
    unfold BatchNorm.axes at ha
    dsimp only at ha
    cases hx : m.axis with
    | none =>
      rw [hx] at ha
      obtain ⟨b, _, rfl⟩ := List.mem_map.mp (List.mem_filter.mp ha).1
      exact Int.natCast_nonneg b
    | some l =>
      rw [hx] at ha
      exact hn l hx a ha
  have hiff : Int.ofNat k ∈ m.axes s.length ↔ k ∈ ax := by
    have hf := hax.1
    clear hn this hax
    generalize m.axes s.length = l at hf hnn
    induction hf with
    | nil => simp
    | @cons a b l ax h _ ih =>
      rw [List.mem_cons, List.mem_cons]
      have h0 := hnn a List.mem_cons_self
      refine or_congr ?_ (ih fun a ha => hnn a (List.mem_cons_of_mem _ ha))
      show ((k : Int) = a) ↔ _
      omega
  by_cases h : k ∈ ax
  · rw [if_pos h, if_pos (hiff.mpr h)]
  · rw [if_neg h, if_neg (mt hiff.mp h)]

/-- C69 When no negative axis was given, a call of `BatchNorm` asks for its own scale and offset with a shape that has size 1 on the axes that are reduced and the size of the input on all others.
Missing: a negative axis is reduced but not recognised here (`negative_axis_shape`). -/
theorem own_shape_partial [Field K] (get : ParamFn K) (rsqrt : K → K) (m : BatchNorm K) (st st' : BnState K) (x y : Arr K) (group : List (Arr K)) (tr tl : Bool) (scale offset : Option (Arr K))
    (h : m.call get rsqrt st x group tr tl scale offset = .ok (y, st')) (ax : List Nat) (hax : Denotes x.shape.length (m.axes x.shape.length) ax) (hn : ∀ l, m.axis = some l → ∀ a ∈ l, 0 ≤ a) :
    ∃ w : List Nat, w.length = x.shape.length ∧ (∀ k, (hk : k < x.shape.length) → w[k]? = some (if k ∈ ax then 1 else x.shape[k])) ∧
      (m.createScale = true → ∃ p, get m.name "scale" w = .ok p ∧ p.shape = w) ∧ (m.createOffset = true → ∃ p, get m.name "offset" w = .ok p ∧ p.shape = w) := by
  obtain ⟨mu, v, g, b, hg, hb, _⟩ := call_ok h
  refine ⟨ownShape m x.shape, List.length_mapIdx, fun k hk => ownShape_at m x.shape ax hax hn k hk, fun hc => ?_, fun hc => ?_⟩
  · rcases hg with ⟨_, _, h1, h2⟩ | ⟨h1, _⟩ | ⟨h1, _⟩
    · exact ⟨g, h1, h2⟩
    · rw [h1] at hc
      cases hc
    · rw [h1] at hc
      cases hc
  · rcases hb with ⟨_, _, h1, h2⟩ | ⟨h1, _⟩ | ⟨h1, _⟩
    · exact ⟨b, h1, h2⟩
    · rw [h1] at hc
      cases hc
    · rw [h1] at hc
      cases hc

/-- The module of the concrete cases with an own scale. -/
def scaled (axis : Option (List Int)) : BatchNorm Rat := { bn axis false with createScale := true }

/-- Only a parameter of the shape `w` exists. -/
def only (w : List Nat) : ParamFn Rat := fun _ _ s => if s = w then .ok ⟨w, fun _ => 1⟩ else .error .value

/-- Does a training call on an input of shape `[2, 2]` work? -/
def works (axis : Option (List Int)) (w : List Nat) : Bool := ((scaled axis).call (only w) (fun v => v) .empty (input 0 1 2 5) [] true false none none).toOption.isSome

/-- Reducing over axes 0 and 2 of three, and over axis 0 of two. -/
example : Denotes 3 ((bn (some [0, 2]) false).axes 3) [0, 2] ∧ works (some [0]) [1, 2] = true ∧ works (some [0]) [2, 2] = false :=
  ⟨⟨.cons ⟨by decide, .inl rfl⟩ (.cons ⟨by decide, .inl rfl⟩ .nil), by decide⟩, by decide +kernel, by decide +kernel⟩

/-- C69 is violated for negative axes: reducing over axis `-2` of an array of rank 2 is reducing over axis 0, but the own scale has to have the shape of the whole input. -/
theorem negative_axis_shape : Denotes 2 ((bn (some [-2]) false).axes 2) [0] ∧ works (some [-2]) [1, 2] = false ∧ works (some [-2]) [2, 2] = true :=
  ⟨⟨.cons ⟨by decide, .inr rfl⟩ .nil, by decide⟩, by decide +kernel, by decide +kernel⟩

end Verif.Props.BatchNorm
