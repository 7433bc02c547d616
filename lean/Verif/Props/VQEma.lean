import Verif.Props.VQ

/-!
# Embeddings learnt by moving averages (C76, C77)
-/

set_option linter.unusedVariables false
set_option linter.unusedSectionVars false

namespace Verif.Props.VQ
open Verif.Shapes (Err size)
open Verif.Pool (Arr)
open Verif.Conv (indices)
open Verif.Nd
open Verif.VQ
open Verif.Props.Reset (Valid mem_indices)
open Verif.Props.Norm (bind_eq bind_err zip_at spread)
open Verif.Props.Ema (weighted Seen seen_call weighted_append weighted_nil decayAt)

variable {K : Type} [Field K] [LinearOrder K] [IsStrictOrderedRing K]

/-! ### Specification -/

instance (n k : Nat) (e : Nat → Nat → K) (v : Nat → K) (j : Nat) : Decidable (FirstNearest n k e v j) := by
  unfold FirstNearest
  infer_instance

/-- The positions of an array whose vector has `j` as its first nearest embedding. -/
def assigned (ed ne : Nat) (e : Nat → Nat → K) (x : Arr K) (j : Nat) : Finset (List Nat) := (indices x.shape.dropLast).toFinset.filter fun p => FirstNearest ed ne e (vec x p) j

/-- How many vectors of a batch, spread over devices, are assigned to `j`. -/
def count (ed ne : Nat) (e : Nat → Nat → K) (batch : List (Arr K)) (j : Nat) : K := (batch.map fun x => ((assigned ed ne e x j).card : K)).sum

/-- The sum of the vectors of a batch that are assigned to `j`. -/
def total (ed ne : Nat) (e : Nat → Nat → K) (batch : List (Arr K)) (j d : Nat) : K := (batch.map fun x => ∑ p ∈ assigned ed ne e x j, vec x p d).sum

/-- The counts and sums of the batches so far, oldest first. -/
abbrev Past (K : Type) := List ((Nat → K) × (Nat → Nat → K))

/-- The debiased exponential average, `Σ d^(n-1-i) x_i (1-d) / (1-d^n)`. -/
def average (d : K) (xs : List K) : K := weighted d xs / (1 - d ^ xs.length)

/-- The embeddings computed from all batches so far: the average sum over the average count, the counts being smoothed. -/
def learned (m : VectorQuantizerEMA K) (past : Past K) (j d : Nat) : K :=
  let n := ∑ k ∈ Finset.range m.numEmbeddings, average m.decay (past.map fun b => b.1 k)
  average m.decay (past.map fun b => b.2 j d) / ((average m.decay (past.map fun b => b.1 j) + m.epsilon) / (n + m.numEmbeddings * m.epsilon) * n)

/-- Learning from a list of batches: each is counted with the embeddings learnt from those before it. -/
def learn (m : VectorQuantizerEMA K) : Past K → (Nat → Nat → K) → List (List (Arr K)) → Past K × (Nat → Nat → K)
  | past, e, [] => (past, e)
  | past, e, b :: bs =>
    let past := past ++ [(count m.embeddingDim m.numEmbeddings e b, total m.embeddingDim m.numEmbeddings e b)]
    learn m past (learned m past) bs

/-- The batches of the training calls. -/
def batches (m : VectorQuantizerEMA K) : List (Arr K × List (Arr K) × Bool) → List (List (Arr K))
  | [] => []
  | (x, group, true) :: rest => (if m.crossReplica then group else [x]) :: batches m rest
  | (_, _, false) :: rest => batches m rest

/-- The last axis has the size of the embeddings. -/
def Fits (m : VectorQuantizerEMA K) (x : Arr K) : Prop := ∃ lead, x.shape = lead ++ [m.embeddingDim]

/-! ### Lemmas -/

theorem sqDist_congr {n : Nat} {v w w' : Nat → K} (h : ∀ d < n, w d = w' d) : sqDist n v w = sqDist n v w' := by
  unfold sqDist
  exact Finset.sum_congr rfl fun d hd => by rw [h d (Finset.mem_range.mp hd)]

theorem firstNearest_congr {n k : Nat} {e e' : Nat → Nat → K} {v : Nat → K} {j : Nat} (h : ∀ l d, d < n → e l d = e' l d) : FirstNearest n k e v j ↔ FirstNearest n k e' v j := by
  unfold FirstNearest
  have : ∀ l, sqDist n v (e l) = sqDist n v (e' l) := fun l => sqDist_congr (h l)
  simp only [this]

theorem assigned_congr {n k : Nat} {e e' : Nat → Nat → K} (h : ∀ l d, d < n → e l d = e' l d) (x : Arr K) (j : Nat) : assigned n k e x j = assigned n k e' x j := by
  unfold assigned
  exact Finset.filter_congr fun p _ => firstNearest_congr h

theorem encode_counts {ed ne : Nat} {emb x : Arr K} (hx : ∃ lead, x.shape = lead ++ [ed]) (he : 0 < ed) (hn : 0 < ne) :
    ∃ e, encode ed ne emb x = .ok e ∧ (∀ j, ∑ r ∈ Finset.range (e.flat.shape.headD 0), e.encodings.val [r, j] = ((assigned ed ne (cols emb) x j).card : K)) ∧
      ∀ j, ∀ d < ed, ∑ r ∈ Finset.range (e.flat.shape.headD 0), e.flat.val [r, d] * e.encodings.val [r, j] = ∑ p ∈ assigned ed ne (cols emb) x j, vec x p d := by
  obtain ⟨lead, hx⟩ := hx
  obtain ⟨e, h1, h2, h3, h4, h5, h6⟩ := encode_eq (emb := emb) hx he hn
  have hl : x.shape.dropLast = lead := by rw [hx, List.dropLast_concat]
  have key : ∀ p, Valid lead p → ∀ j, e.encodings.val [ravel lead p, j] = if FirstNearest ed ne (cols emb) (vec x p) j then 1 else 0 := fun p hp j => by
    obtain ⟨_, _, k3, k4⟩ := h6 p hp
    rw [k4]
    refine if_congr ⟨fun h => h ▸ k3, fun h => firstNearest_unique k3 h⟩ rfl rfl
  refine ⟨e, h1, fun j => ?_, fun j d hd => ?_⟩
  · rw [h2]
    show ∑ r ∈ Finset.range (size lead), _ = _
    rw [sum_rows, Finset.sum_congr rfl fun p hp => key p (mem_indices.mp (List.mem_toFinset.mp hp)) j, Finset.sum_boole]
    unfold assigned
    rw [hl]
  · rw [h2]
    show ∑ r ∈ Finset.range (size lead), _ = _
    unfold assigned
    rw [sum_rows, Finset.sum_filter, hl]
    refine Finset.sum_congr rfl fun p hp => ?_
    have hp := mem_indices.mp (List.mem_toFinset.mp hp)
    rw [key p hp j, (h6 p hp).1 d hd, mul_ite, mul_one, mul_zero]

theorem encode_batch {ed ne : Nat} {emb : Arr K} (he : 0 < ed) (hn : 0 < ne) : ∀ (b : List (Arr K)), (∀ x ∈ b, ∃ lead, x.shape = lead ++ [ed]) →
    ∃ es, b.mapM (encode ed ne emb) = .ok es ∧ (∀ j, clusterSize es j = count ed ne (cols emb) b j) ∧ ∀ j, ∀ d < ed, Verif.VQ.dw es d j = total ed ne (cols emb) b j d
  | [], _ => ⟨[], rfl, fun _ => rfl, fun _ _ _ => rfl⟩
  | x :: b, h => by
    obtain ⟨e, h1, h2, h3⟩ := encode_counts (emb := emb) (h x List.mem_cons_self) he hn
    obtain ⟨es, i1, i2, i3⟩ := encode_batch he hn b fun y hy => h y (List.mem_cons_of_mem _ hy)
    refine ⟨e :: es, ?_, fun j => ?_, fun j d hd => ?_⟩
    · rw [List.mapM_cons, bind_eq h1, bind_eq i1]
      rfl
    · show _ + clusterSize es j = _ + count ed ne (cols emb) b j
      rw [i2]
      exact congrArg (· + _) (h2 j)
    · show _ + Verif.VQ.dw es d j = _ + total ed ne (cols emb) b j d
      rw [i3 j d hd]
      exact congrArg (· + _) (h3 j d hd)

/-- The state after some batches. -/
structure Inv (m : VectorQuantizerEMA K) (st : State K) (past : Past K) (e : Nat → Nat → K) : Prop where
  cluster : ∀ j, Seen m.ema (st.clusterSize j) past.length (weighted m.decay (past.map fun b => b.1 j))
  dw : ∀ j, ∀ d < m.embeddingDim, Seen m.ema (st.dw d j) past.length (weighted m.decay (past.map fun b => b.2 j d))
  emb : ∀ j, ∀ d < m.embeddingDim, cols st.embeddings j d = e j d

theorem ema_step {m : VectorQuantizerEMA K} {s : Ema.State K} {xs : List K} (hs : Seen m.ema s xs.length (weighted m.decay xs)) (v : K) :
    (m.ema.call s v true).1 = average m.decay (xs ++ [v]) ∧ Seen m.ema (m.ema.call s v true).2 (xs ++ [v]).length (weighted m.decay (xs ++ [v])) := by
  have hd : ∀ n, decayAt m.ema n = m.decay := fun n => if_neg fun h => absurd h.1 (Int.lt_irrefl 0)
  obtain ⟨h1, h2⟩ := seen_call hs v true
  rw [hd, ← weighted_append] at h1 h2
  refine ⟨h1.trans ?_, ?_⟩
  · rw [if_pos (show m.ema.zeroDebias = true from rfl)]
    unfold average
    rw [List.length_append, List.length_singleton]
    congr 2
    show m.decay ^ ((xs.length : Int) - 0 + 1) = _
    have e : (xs.length : Int) - 0 + 1 = ((xs.length + 1 : Nat) : Int) := by omega
    rw [e, zpow_natCast]
  · rw [List.length_append]
    exact h2

theorem inv_update {m : VectorQuantizerEMA K} {st : State K} {past : Past K} {e : Nat → Nat → K} (hi : Inv m st past e) {es : List (Encoded K)} {b : (Nat → K) × (Nat → Nat → K)}
    (h1 : ∀ j, clusterSize es j = b.1 j) (h2 : ∀ j, ∀ d < m.embeddingDim, Verif.VQ.dw es d j = b.2 j d) : Inv m (m.update st es) (past ++ [b]) (learned m (past ++ [b])) := by
  have c : ∀ j, (m.ema.call (st.clusterSize j) (clusterSize es j) true).1 = average m.decay ((past ++ [b]).map fun b => b.1 j) ∧
      Seen m.ema (m.ema.call (st.clusterSize j) (clusterSize es j) true).2 (past ++ [b]).length (weighted m.decay ((past ++ [b]).map fun b => b.1 j)) := by
    intro j
    have hs := hi.cluster j
    rw [← List.length_map (fun b : (Nat → K) × (Nat → Nat → K) => b.1 j)] at hs
    have := ema_step hs (clusterSize es j)
    have e : (past.map fun b => b.1 j) ++ [clusterSize es j] = (past ++ [b]).map fun b => b.1 j := by rw [h1, List.map_append]; rfl
    rw [e, List.length_map] at this
    exact this
  have w : ∀ j, ∀ d < m.embeddingDim, (m.ema.call (st.dw d j) (Verif.VQ.dw es d j) true).1 = average m.decay ((past ++ [b]).map fun b => b.2 j d) ∧
      Seen m.ema (m.ema.call (st.dw d j) (Verif.VQ.dw es d j) true).2 (past ++ [b]).length (weighted m.decay ((past ++ [b]).map fun b => b.2 j d)) := by
    intro j d hd
    have hs := hi.dw j d hd
    rw [← List.length_map (fun b : (Nat → K) × (Nat → Nat → K) => b.2 j d)] at hs
    have := ema_step hs (Verif.VQ.dw es d j)
    have e : (past.map fun b => b.2 j d) ++ [Verif.VQ.dw es d j] = (past ++ [b]).map fun b => b.2 j d := by rw [h2 j d hd, List.map_append]; rfl
    rw [e, List.length_map] at this
    exact this
  refine ⟨fun j => (c j).2, fun j d hd => (w j d hd).2, fun j d hd => ?_⟩
  show (m.ema.call (st.dw d j) (Verif.VQ.dw es d j) true).1 / (((m.ema.call (st.clusterSize j) (clusterSize es j) true).1 + m.epsilon) /
    ((∑ k ∈ Finset.range m.numEmbeddings, (m.ema.call (st.clusterSize k) (clusterSize es k) true).1) + m.numEmbeddings * m.epsilon) *
    ∑ k ∈ Finset.range m.numEmbeddings, (m.ema.call (st.clusterSize k) (clusterSize es k) true).1) = _
  rw [(w j d hd).1, (c j).1, Finset.sum_congr rfl fun k _ => (c k).1]
  rfl

theorem call_eq {m : VectorQuantizerEMA K} {st : State K} (he : 0 < m.embeddingDim) (hn : 0 < m.numEmbeddings) {x : Arr K} {group : List (Arr K)} {t : Bool} (hx : Fits m x) (hg : ∀ y ∈ group, Fits m y) :
    ∃ out es, (if m.crossReplica then group else [x]).mapM (encode m.embeddingDim m.numEmbeddings st.embeddings) = .ok es ∧ m.call st x group t = .ok (out, if t then m.update st es else st) := by
  obtain ⟨lead, hx⟩ := hx
  obtain ⟨e, idx, q, l, h1, h2, h3, h4, h5, h6, h7, h8, h9⟩ := forward_eq (emb := st.embeddings) hx he hn
  have hb : ∀ y ∈ (if m.crossReplica then group else [x]), ∃ lead, y.shape = lead ++ [m.embeddingDim] := by
    intro y hy
    cases hc : m.crossReplica with
    | true =>
      rw [hc, if_pos rfl] at hy
      exact hg y hy
    | false =>
      rw [hc, if_neg Bool.false_ne_true] at hy
      rw [List.mem_singleton.mp hy]
      exact ⟨lead, hx⟩
  obtain ⟨es, k1, k2, k3⟩ := encode_batch (emb := st.embeddings) he hn _ hb
  refine ⟨⟨q, m.commitmentCost * l, fun j => (es.map fun e => avgProbs e.encodings j).sum / (es.length : K), e.encodings, idx, e.distances⟩, es, k1, ?_⟩
  unfold VectorQuantizerEMA.call
  rw [bind_eq h1, bind_eq h2, bind_eq h3]
  dsimp only
  rw [bind_eq k1]

theorem inv_after {m : VectorQuantizerEMA K} (he : 0 < m.embeddingDim) (hn : 0 < m.numEmbeddings) : ∀ (calls : List (Arr K × List (Arr K) × Bool)) (st : State K) (past : Past K) (e : Nat → Nat → K),
    Inv m st past e → (∀ c ∈ calls, Fits m c.1 ∧ ∀ y ∈ c.2.1, Fits m y) → ∃ st', m.after st calls = .ok st' ∧ Inv m st' (learn m past e (batches m calls)).1 (learn m past e (batches m calls)).2
  | [], st, past, e, hi, _ => ⟨st, rfl, hi⟩
  | (x, group, t) :: rest, st, past, e, hi, hc => by
    obtain ⟨hx, hg⟩ := hc _ List.mem_cons_self
    obtain ⟨out, es, k1, k2⟩ := call_eq (st := st) (t := t) he hn hx hg
    have hr : ∀ c ∈ rest, Fits m c.1 ∧ ∀ y ∈ c.2.1, Fits m y := fun c h => hc c (List.mem_cons_of_mem _ h)
    cases t with
    | false =>
      obtain ⟨st', r1, r2⟩ := inv_after he hn rest st past e hi hr
      refine ⟨st', ?_, r2⟩
      unfold VectorQuantizerEMA.after
      rw [bind_eq k2]
      exact r1
    | true =>
      have hb : ∀ y ∈ (if m.crossReplica then group else [x]), ∃ lead, y.shape = lead ++ [m.embeddingDim] := by
        intro y hy
        cases hc : m.crossReplica with
        | true =>
          rw [hc, if_pos rfl] at hy
          exact hg y hy
        | false =>
          rw [hc, if_neg Bool.false_ne_true] at hy
          rw [List.mem_singleton.mp hy]
          exact hx
      obtain ⟨es', j1, j2, j3⟩ := encode_batch (emb := st.embeddings) he hn _ hb
      rw [k1] at j1
      cases j1
      have ec : ∀ j, clusterSize es j = count m.embeddingDim m.numEmbeddings e (if m.crossReplica then group else [x]) j := fun j => by
        rw [j2]
        unfold count
        refine congrArg List.sum (List.map_congr_left fun y _ => ?_)
        rw [assigned_congr hi.emb]
      have ed : ∀ j, ∀ d < m.embeddingDim, Verif.VQ.dw es d j = total m.embeddingDim m.numEmbeddings e (if m.crossReplica then group else [x]) j d := fun j d hd => by
        rw [j3 j d hd]
        unfold total
        refine congrArg List.sum (List.map_congr_left fun y _ => ?_)
        rw [assigned_congr hi.emb]
      obtain ⟨st', r1, r2⟩ := inv_after he hn rest _ _ _ (inv_update hi (b := (count m.embeddingDim m.numEmbeddings e (if m.crossReplica then group else [x]), total m.embeddingDim m.numEmbeddings e (if m.crossReplica then group else [x]))) ec ed) hr
      refine ⟨st', ?_, r2⟩
      unfold VectorQuantizerEMA.after
      rw [bind_eq k2]
      exact r1

theorem inv_initial (m : VectorQuantizerEMA K) (emb : Arr K) : Inv m (State.initial emb) [] (cols emb) :=
  ⟨fun j => ⟨rfl, (weighted_nil _).symm⟩, fun j d _ => ⟨rfl, (weighted_nil _).symm⟩, fun _ _ _ => rfl⟩

/-! ### C76 -/

/-- C76 A call that is not in training returns the state as it was. -/
theorem vq_ema_eval (m : VectorQuantizerEMA K) (st st' : State K) (x : Arr K) (group : List (Arr K)) (out : Out K) (h : m.call st x group false = .ok (out, st')) : st' = st := by
  unfold VectorQuantizerEMA.call at h
  rcases h1 : encode m.embeddingDim m.numEmbeddings st.embeddings x with er | e
  · rw [bind_err h1] at h
    cases h
  rw [bind_eq h1] at h
  rcases h2 : reshapeTo e.indices x.shape.dropLast with er | idx
  · rw [bind_err h2] at h
    cases h
  rw [bind_eq h2] at h
  rcases h3 : straightThrough x (quantize m.embeddingDim st.embeddings idx) with er | ⟨q, l⟩
  · rw [bind_err h3] at h
    cases h
  rw [bind_eq h3] at h
  dsimp only at h
  rcases h4 : (if m.crossReplica then group else [x]).mapM (encode m.embeddingDim m.numEmbeddings st.embeddings) with er | es
  · rw [bind_err h4] at h
    cases h
  rw [bind_eq h4] at h
  cases h
  rfl

/-- C76 Every call of `VectorQuantizerEMA`, in training or not, quantises with the embeddings as they were before the call, exactly as `VectorQuantizer` does; the loss is `commitment_cost` times the mean squared distance. -/
theorem vq_ema_forward (m : VectorQuantizerEMA K) (he : 0 < m.embeddingDim) (hn : 0 < m.numEmbeddings) (st : State K) (lead : List Nat) (x : Arr K) (group : List (Arr K)) (t : Bool)
    (hx : x.shape = lead ++ [m.embeddingDim]) (hg : ∀ y ∈ group, Fits m y) :
    ∃ out st', m.call st x group t = .ok (out, st') ∧ out.quantize.shape = x.shape ∧ out.encodingIndices.shape = lead ∧
      out.loss = m.commitmentCost * ((∑ p ∈ (indices lead).toFinset, sqDist m.embeddingDim (vec x p) (cols st.embeddings (out.encodingIndices.val p))) / (size lead * m.embeddingDim : Nat)) ∧
      ∀ p, Valid lead p → FirstNearest m.embeddingDim m.numEmbeddings (cols st.embeddings) (vec x p) (out.encodingIndices.val p) ∧
        (∀ d < m.embeddingDim, vec out.quantize p d = cols st.embeddings (out.encodingIndices.val p) d) ∧
        (∀ j, out.encodings.val [ravel lead p, j] = if out.encodingIndices.val p = j then 1 else 0) := by
  obtain ⟨e, idx, q, l, h1, h2, h3, h4, h5, h6, h7, h8, h9⟩ := forward_eq (emb := st.embeddings) hx he hn
  obtain ⟨out, es, k1, k2⟩ := call_eq (st := st) (t := t) he hn ⟨lead, hx⟩ hg
  refine ⟨out, _, k2, ?_⟩
  unfold VectorQuantizerEMA.call at k2
  rw [bind_eq h1, bind_eq h2, bind_eq h3] at k2
  dsimp only at k2
  rw [bind_eq k1] at k2
  have := congrArg Prod.fst (Except.ok.inj k2)
  dsimp only at this
  subst this
  exact ⟨h4, h5, by rw [h8], fun p hp => ⟨(h9 p hp).1, (h9 p hp).2.1, (h9 p hp).2.2.1⟩⟩

/-- C76 A `VectorQuantizerEMA` is made for the decay rates from 0 to 1 (both included) and no others. -/
theorem vq_ema_range (ed ne : Nat) (β decay ε : K) (cross : Bool) :
    (0 ≤ decay ∧ decay ≤ 1 → VectorQuantizerEMA.make ed ne β decay ε cross = .ok ⟨ed, ne, β, decay, ε, cross⟩) ∧ (decay < 0 ∨ 1 < decay → VectorQuantizerEMA.make ed ne β decay ε cross = .error .value) := by
  refine ⟨fun h => if_pos h, fun h => if_neg fun hn => ?_⟩
  rcases h with h | h
  · exact absurd hn.1 (not_le.mpr h)
  · exact absurd hn.2 (not_le.mpr h)

example : (0 : ℚ) ≤ 1 ∧ (1 : ℚ) ≤ 1 ∧ (1 : ℚ) < 3 / 2 := by norm_num

/-- C76 After any history of training and other calls on inputs that fit, the embeddings are those learnt from the batches of the training calls: each batch (over all replicas, with a cross-replica axis) is counted with the
embeddings learnt from those before it, and an embedding is the debiased exponential average of the sums of the vectors assigned to it over the Laplace-smoothed debiased exponential average of their number. -/
theorem vq_ema_learns (ed ne : Nat) (β decay ε : K) (cross : Bool) (m : VectorQuantizerEMA K) (hm : VectorQuantizerEMA.make ed ne β decay ε cross = .ok m) (h1 : decay < 1) (he : 0 < ed) (hn : 0 < ne) (emb : Arr K)
    (calls : List (Arr K × List (Arr K) × Bool)) (hc : ∀ c ∈ calls, Fits m c.1 ∧ ∀ y ∈ c.2.1, Fits m y) :
    ∃ st, m.after (State.initial emb) calls = .ok st ∧ ∀ j, ∀ d < ed, cols st.embeddings j d = (learn m [] (cols emb) (batches m calls)).2 j d := by
  have : m = ⟨ed, ne, β, decay, ε, cross⟩ := by
    unfold VectorQuantizerEMA.make at hm
    split at hm
    · exact (Except.ok.inj hm).symm
    · cases hm
  subst this
  obtain ⟨st, r1, r2⟩ := inv_after (m := ⟨ed, ne, β, decay, ε, cross⟩) he hn calls _ _ _ (inv_initial _ emb) hc
  exact ⟨st, r1, r2.emb⟩

/-- One batch of the vectors `0`, `2` and `10` with embeddings `0` and `8`, not counting a call outside training, gives the embeddings `1` and `10`. -/
example : ∃ m, VectorQuantizerEMA.make 1 2 (1 : ℚ) (1 / 2) 0 false = .ok m ∧
    (m.after (State.initial ⟨[1, 2], fun i => 8 * (i.getD 1 0 : ℚ)⟩) [(⟨[1, 1], fun _ => 5⟩, [], false), (⟨[3, 1], fun i => [0, 2, 10].getD (i.headD 0) 0⟩, [], true)]).toOption.map
      (fun st => [cols st.embeddings 0 0, cols st.embeddings 1 0]) = some [1, 10] :=
  ⟨⟨1, 2, 1, 1 / 2, 0, false⟩, if_pos (by decide +kernel), by decide +kernel⟩

/-! ### C77 -/

theorem learn_append (m : VectorQuantizerEMA K) : ∀ (bs : List (List (Arr K))) (past : Past K) (e : Nat → Nat → K) (b : List (Arr K)),
    learn m past e (bs ++ [b]) = ((learn m past e bs).1 ++ [(count m.embeddingDim m.numEmbeddings (learn m past e bs).2 b, total m.embeddingDim m.numEmbeddings (learn m past e bs).2 b)],
      learned m ((learn m past e bs).1 ++ [(count m.embeddingDim m.numEmbeddings (learn m past e bs).2 b, total m.embeddingDim m.numEmbeddings (learn m past e bs).2 b)]))
  | [], past, e, b => rfl
  | a :: bs, past, e, b => learn_append m bs _ _ b

theorem learn_last {m : VectorQuantizerEMA K} {e : Nat → Nat → K} {bs : List (List (Arr K))} (h : bs ≠ []) : (learn m [] e bs).2 = learned m (learn m [] e bs).1 := by
  induction bs using List.reverseRecOn with
  | nil => exact (h rfl).elim
  | append_singleton l a _ => rw [learn_append]

/-- Everything recorded is a count and a sum over the positions assigned in some batch. -/
theorem learn_recorded {m : VectorQuantizerEMA K} {P : (Nat → K) × (Nat → Nat → K) → Prop} : ∀ (bs : List (List (Arr K))) (past : Past K) (e : Nat → Nat → K), (∀ b ∈ past, P b) →
    (∀ b ∈ bs, ∀ e, P (count m.embeddingDim m.numEmbeddings e b, total m.embeddingDim m.numEmbeddings e b)) → ∀ b ∈ (learn m past e bs).1, P b
  | [], past, e, h, _ => h
  | a :: bs, past, e, h, hb => by
    refine learn_recorded bs _ _ (fun b hm => ?_) fun b hm => hb b (List.mem_cons_of_mem _ hm)
    rcases List.mem_append.mp hm with hm | hm
    · exact h b hm
    · rw [List.mem_singleton.mp hm]
      exact hb a List.mem_cons_self e

theorem average_le {β : Type} {d : K} (h0 : 0 ≤ d) (h1 : d < 1) {l : List β} {f g : β → K} (h : ∀ b ∈ l, f b ≤ g b) : average d (l.map f) ≤ average d (l.map g) := by
  unfold average weighted
  rw [List.length_map, List.length_map]
  refine div_le_div_of_nonneg_right (mul_le_mul_of_nonneg_left (Finset.sum_le_sum fun i hi => ?_) (sub_nonneg.mpr h1.le)) (sub_nonneg.mpr (pow_le_one₀ h0 h1.le))
  refine mul_le_mul_of_nonneg_left ?_ (pow_nonneg h0 _)
  have hi : i < l.length := Finset.mem_range.mp hi
  rw [List.getD_eq_getElem _ _ (by rw [List.length_map]; exact hi), List.getD_eq_getElem _ _ (by rw [List.length_map]; exact hi), List.getElem_map, List.getElem_map]
  exact h _ (List.getElem_mem hi)

theorem average_mul {β : Type} (d c : K) (l : List β) (f : β → K) : average d (l.map fun b => c * f b) = c * average d (l.map f) := by
  unfold average weighted
  rw [List.length_map, List.length_map]
  have : ∑ i ∈ Finset.range l.length, d ^ (l.length - 1 - i) * (l.map fun b => c * f b).getD i 0 = c * ∑ i ∈ Finset.range l.length, d ^ (l.length - 1 - i) * (l.map f).getD i 0 := by
    rw [Finset.mul_sum]
    refine Finset.sum_congr rfl fun i hi => ?_
    have hi : i < l.length := Finset.mem_range.mp hi
    rw [List.getD_eq_getElem _ _ (by rw [List.length_map]; exact hi), List.getD_eq_getElem _ _ (by rw [List.length_map]; exact hi), List.getElem_map, List.getElem_map]
    ring
  rw [this]
  ring

theorem average_zero {β : Type} (d : K) (l : List β) (f : β → K) (h : ∀ b ∈ l, f b = 0) : average d (l.map f) = 0 := by
  have : l.map f = l.map fun b => 0 * f b := List.map_congr_left fun b hb => by rw [h b hb, mul_zero]
  rw [this, average_mul, zero_mul]

theorem average_pos {β : Type} {d : K} (h0 : 0 < d) (h1 : d < 1) {l : List β} {f : β → K} (h : ∀ b ∈ l, 0 ≤ f b) (hp : ∃ b ∈ l, f b ≠ 0) : 0 < average d (l.map f) := by
  obtain ⟨b, hb, hn⟩ := hp
  obtain ⟨i, hi, rfl⟩ := List.getElem_of_mem hb
  unfold average weighted
  rw [List.length_map]
  have hg : ∀ k (hk : k < l.length), (l.map f).getD k 0 = f l[k] := fun k hk => by
    rw [List.getD_eq_getElem _ _ (by rw [List.length_map]; exact hk), List.getElem_map]
  refine div_pos (mul_pos (sub_pos.mpr h1) ?_) (sub_pos.mpr (pow_lt_one₀ h0.le h1 (by omega)))
  refine Finset.sum_pos' (fun k hk => ?_) ⟨i, Finset.mem_range.mpr hi, ?_⟩
  · rw [hg k (Finset.mem_range.mp hk)]
    exact mul_nonneg (pow_nonneg h0.le _) (h _ (List.getElem_mem _))
  · rw [hg i hi]
    exact mul_pos (pow_pos h0 _) (lt_of_le_of_ne (h _ (List.getElem_mem _)) hn.symm)

theorem learned_between {m : VectorQuantizerEMA K} {ne : Nat} {decay : K} (h0 : 0 < decay) (h1 : decay < 1) {j d : Nat} (hj : j < ne) (en : m.numEmbeddings = ne) (ed : m.decay = decay) (ee : m.epsilon = 0) {past : Past K} {lo hi : K}
    (hrec : ∀ b ∈ past, (∀ k, 0 ≤ b.1 k) ∧ lo * b.1 j ≤ b.2 j d ∧ b.2 j d ≤ hi * b.1 j) (hu : ∃ b ∈ past, b.1 j ≠ 0) : lo ≤ learned m past j d ∧ learned m past j d ≤ hi := by
  have hN : 0 < average decay (past.map fun b => b.1 j) := average_pos h0 h1 (fun b hb => (hrec b hb).1 j) hu
  have hk : ∀ k, 0 ≤ average decay (past.map fun b => b.1 k) := fun k => by
    have := average_le h0.le h1 (l := past) (f := fun _ => 0) (g := fun b => b.1 k) fun b hb => (hrec b hb).1 k
    rwa [average_zero decay past (fun _ => 0) fun _ _ => rfl] at this
  have hle : average decay (past.map fun b => b.1 j) ≤ ∑ k ∈ Finset.range ne, average decay (past.map fun b => b.1 k) := by
    have : ∀ G : Nat → K, (∀ k, 0 ≤ G k) → G j ≤ ∑ k ∈ Finset.range ne, G k := fun G hG => Finset.single_le_sum (fun k _ => hG k) (Finset.mem_range.mpr hj)
    have := this (fun k => average decay (past.map fun b => b.1 k))
    exact this hk
  have el : learned m past j d = average decay (past.map fun b => b.2 j d) / average decay (past.map fun b => b.1 j) := by
    unfold learned
    dsimp only
    rw [en, ed, ee, add_zero, mul_zero, add_zero, div_mul_cancel₀ _ (ne_of_gt (hN.trans_le hle))]
  rw [el]
  constructor
  · rw [le_div_iff₀ hN, ← average_mul]
    exact average_le h0.le h1 fun b hb => (hrec b hb).2.1
  · rw [div_le_iff₀ hN, ← average_mul]
    exact average_le h0.le h1 fun b hb => (hrec b hb).2.2

/-- C77 Without smoothing (`epsilon = 0`) and with a decay strictly between 0 and 1, every component of an embedding that some vector was assigned to lies between the least and the greatest value of that component in the training inputs:
whatever interval contains those contains it. -/
theorem vq_ema_between (ed ne : Nat) (β decay : K) (cross : Bool) (m : VectorQuantizerEMA K) (hm : VectorQuantizerEMA.make ed ne β decay 0 cross = .ok m) (h0 : 0 < decay) (h1 : decay < 1) (he : 0 < ed) (hn : 0 < ne) (emb : Arr K)
    (calls : List (Arr K × List (Arr K) × Bool)) (hc : ∀ c ∈ calls, Fits m c.1 ∧ ∀ y ∈ c.2.1, Fits m y) (st : State K) (hst : m.after (State.initial emb) calls = .ok st) (j d : Nat) (hj : j < ne) (hd : d < ed) (lo hi : K)
    (hb : ∀ b ∈ batches m calls, ∀ x ∈ b, ∀ p, Valid x.shape.dropLast p → lo ≤ vec x p d ∧ vec x p d ≤ hi) (hu : ∃ b ∈ (learn m [] (cols emb) (batches m calls)).1, b.1 j ≠ 0) :
    lo ≤ cols st.embeddings j d ∧ cols st.embeddings j d ≤ hi := by
  obtain ⟨st', r1, r2⟩ := vq_ema_learns ed ne β decay 0 cross m hm h1 he hn emb calls hc
  rw [hst] at r1
  cases r1
  have : m = ⟨ed, ne, β, decay, 0, cross⟩ := by
    unfold VectorQuantizerEMA.make at hm
    split at hm
    · exact (Except.ok.inj hm).symm
    · cases hm
  rw [r2 j d hd, learn_last (by rintro h; rw [h] at hu; obtain ⟨b, hb, _⟩ := hu; cases hb)]
  have hrec : ∀ b ∈ (learn m [] (cols emb) (batches m calls)).1, (∀ k, 0 ≤ b.1 k) ∧ lo * b.1 j ≤ b.2 j d ∧ b.2 j d ≤ hi * b.1 j := by
    refine learn_recorded (P := fun b => (∀ k, 0 ≤ b.1 k) ∧ lo * b.1 j ≤ b.2 j d ∧ b.2 j d ≤ hi * b.1 j) _ _ _ (fun b h => by cases h) fun b hm e => ⟨fun k => ?_, ?_, ?_⟩
    · refine List.sum_nonneg fun v hv => ?_
      obtain ⟨x, _, rfl⟩ := List.mem_map.mp hv
      exact Nat.cast_nonneg _
    · show lo * count _ _ e b j ≤ total _ _ e b j d
      unfold count total
      rw [← List.sum_map_mul_left]
      refine List.sum_le_sum fun x hx => ?_
      rw [mul_comm, ← nsmul_eq_mul]
      refine Finset.card_nsmul_le_sum _ _ _ fun p hp => (hb b hm x hx p ?_).1
      exact mem_indices.mp (List.mem_toFinset.mp (Finset.mem_filter.mp hp).1)
    · show total _ _ e b j d ≤ hi * count _ _ e b j
      unfold count total
      rw [← List.sum_map_mul_left]
      refine List.sum_le_sum fun x hx => ?_
      rw [mul_comm, ← nsmul_eq_mul]
      refine Finset.sum_le_card_nsmul _ _ _ fun p hp => (hb b hm x hx p ?_).2
      exact mem_indices.mp (List.mem_toFinset.mp (Finset.mem_filter.mp hp).1)
  subst this
  exact learned_between h0 h1 hj rfl rfl rfl hrec hu

/-- C77 An embedding that no vector of any training batch was assigned to is the zero vector after the first training call, whatever it was initialised to. -/
theorem vq_ema_unused (ed ne : Nat) (β decay ε : K) (cross : Bool) (m : VectorQuantizerEMA K) (hm : VectorQuantizerEMA.make ed ne β decay ε cross = .ok m) (h1 : decay < 1) (he : 0 < ed) (hn : 0 < ne) (emb : Arr K)
    (calls : List (Arr K × List (Arr K) × Bool)) (hc : ∀ c ∈ calls, Fits m c.1 ∧ ∀ y ∈ c.2.1, Fits m y) (st : State K) (hst : m.after (State.initial emb) calls = .ok st) (ht : batches m calls ≠ []) (j d : Nat) (hd : d < ed)
    (hu : ∀ b ∈ (learn m [] (cols emb) (batches m calls)).1, b.1 j = 0) : cols st.embeddings j d = 0 := by
  obtain ⟨st', r1, r2⟩ := vq_ema_learns ed ne β decay ε cross m hm h1 he hn emb calls hc
  rw [hst] at r1
  cases r1
  rw [r2 j d hd, learn_last ht]
  have hrec : ∀ b ∈ (learn m [] (cols emb) (batches m calls)).1, b.1 j = 0 → b.2 j d = 0 := by
    refine learn_recorded (P := fun b => b.1 j = 0 → b.2 j d = 0) _ _ _ (fun b h => by cases h) fun b hm e h => ?_
    have h : count m.embeddingDim m.numEmbeddings e b j = 0 := h
    show total _ _ e b j d = 0
    unfold count at h
    unfold total
    refine List.sum_eq_zero fun v hv => ?_
    obtain ⟨x, hx, rfl⟩ := List.mem_map.mp hv
    have hz : ∀ v ∈ b.map fun x => ((assigned m.embeddingDim m.numEmbeddings e x j).card : K), v = 0 := by
      refine fun v hv => List.all_zero_of_le_zero_le_of_sum_eq_zero ?_ h hv
      intro v hv
      obtain ⟨x, _, rfl⟩ := List.mem_map.mp hv
      exact Nat.cast_nonneg _
    have := hz _ (List.mem_map.mpr ⟨x, hx, rfl⟩)
    rw [Finset.card_eq_zero.mp (Nat.cast_eq_zero.mp this), Finset.sum_empty]
  unfold learned
  dsimp only
  rw [average_zero m.decay _ (fun b => b.2 j d) fun b hb => hrec b hb (hu b hb), zero_div]

/-- Two training batches with embeddings `0`, `8` and `100` and decay `1/2`: the third is never used. -/
example : ∃ m, VectorQuantizerEMA.make 1 3 (1 : ℚ) (1 / 2) 0 false = .ok m ∧
    (m.after (State.initial ⟨[1, 3], fun i => [0, 8, 100].getD (i.getD 1 0) 0⟩) [(⟨[3, 1], fun i => [0, 2, 10].getD (i.headD 0) 0⟩, [], true), (⟨[2, 1], fun i => [4, 8].getD (i.headD 0) 0⟩, [], true)]).toOption.map
      (fun st => [cols st.embeddings 0 0, cols st.embeddings 1 0, cols st.embeddings 2 0]) = some [5 / 2, 26 / 3, 0] :=
  ⟨⟨1, 3, 1, 1 / 2, 0, false⟩, if_pos (by decide +kernel), by decide +kernel⟩

end Verif.Props.VQ
