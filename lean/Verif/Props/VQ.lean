import Mathlib.Algebra.BigOperators.Group.Finset.Sigma
import Mathlib.Algebra.BigOperators.Ring.Finset
import Mathlib.Algebra.Order.BigOperators.Group.Finset
import Mathlib.Algebra.Order.Field.Basic
import Mathlib.Algebra.Field.Rat
import Mathlib.Algebra.Order.Field.Rat
import Mathlib.Tactic.Ring
import Mathlib.Tactic.FieldSimp
import Verif.Base.Dict
import Verif.Model.VQ
import Verif.Lemmas.Reshape
import Verif.Props.Norm
import Verif.Props.Ema

/-!
# Vector quantisation (C73, C74, C76, C77)
-/

set_option linter.unusedVariables false
set_option linter.unusedSectionVars false

namespace Verif.Props.VQ
open Verif.Shapes (Err size)
open Verif.Pool (Arr)
open Verif.Conv (indices)
open Verif.Nd
open Verif.VQ
open Verif.Props.Reset (Valid mem_indices)
open Verif.Props.Norm (bind_eq bind_err zip_at spread)

variable {K : Type}

/-! ### Specification -/

/-- The squared Euclidean distance of two vectors of `n` components. -/
def sqDist [Field K] (n : Nat) (v w : Nat → K) : K := ∑ d ∈ Finset.range n, (v d - w d) ^ 2

/-- Of the `k` vectors `e 0 .. e (k-1)`, number `j` is the first of those nearest to `v`. -/
def FirstNearest [Field K] [LinearOrder K] (n k : Nat) (e : Nat → Nat → K) (v : Nat → K) (j : Nat) : Prop :=
  j < k ∧ (∀ l < k, sqDist n v (e j) ≤ sqDist n v (e l)) ∧ ∀ l < j, sqDist n v (e j) < sqDist n v (e l)

/-- The vector of an array at a position of its leading axes. -/
def vec (x : Arr K) (p : List Nat) : Nat → K := fun d => x.val (p ++ [d])

/-- The columns of a matrix. -/
def cols (x : Arr K) : Nat → Nat → K := fun j d => x.val [d, j]

/-! ### Lemmas -/

theorem firstNearest_unique [Field K] [LinearOrder K] {n k : Nat} {e : Nat → Nat → K} {v : Nat → K} {i j : Nat} (hi : FirstNearest n k e v i) (hj : FirstNearest n k e v j) : i = j := by
  rcases Nat.lt_trichotomy i j with h | h | h
  · exact absurd (hi.2.1 j hj.1) (not_le.mpr (hj.2.2 i h))
  · exact h
  · exact absurd (hj.2.1 i hi.1) (not_le.mpr (hi.2.2 j h))

theorem argmax_spec [LinearOrder K] (f : Nat → K) : ∀ n, argmax f n ≤ n ∧ (∀ l ≤ n, f l ≤ f (argmax f n)) ∧ ∀ l < argmax f n, f l < f (argmax f n)
  | 0 => ⟨Nat.le_refl _, fun l h => by rw [Nat.le_zero.mp h]; exact le_refl _, fun l h => absurd h (Nat.not_lt_zero _)⟩
  | n + 1 => by
    obtain ⟨h1, h2, h3⟩ := argmax_spec f n
    unfold argmax
    by_cases h : f (argmax f n) < f (n + 1)
    · rw [if_pos h]
      refine ⟨Nat.le_refl _, fun l hl => ?_, fun l hl => (h2 l (by omega)).trans_lt h⟩
      rcases Nat.lt_or_ge n l with hn | hn
      · rw [show l = n + 1 by omega]
      · exact ((h2 l hn).trans_lt h).le
    · rw [if_neg h]
      refine ⟨by omega, fun l hl => ?_, h3⟩
      rcases Nat.lt_or_ge n l with hn | hn
      · rw [show l = n + 1 by omega]
        exact not_lt.mp h
      · exact h2 l hn

theorem ravel_snoc : ∀ {s p : List Nat} (n d : Nat), s.length = p.length → ravel (s ++ [n]) (p ++ [d]) = ravel s p * n + d
  | [], [], n, d, _ => by
    show d * 1 + 0 = 0 * n + d
    omega
  | m :: s, i :: p, n, d, h => by
    show i * size (s ++ [n]) + ravel (s ++ [n]) (p ++ [d]) = (i * size s + ravel s p) * n + d
    rw [ravel_snoc n d (Nat.succ.inj h), size_append, show size [n] = n from Nat.mul_one n]
    ring

theorem valid_unravel : ∀ {s : List Nat} {r : Nat}, r < size s → Valid s (unravel s r) ∧ ravel s (unravel s r) = r
  | [], r, h => ⟨.nil, by
      have h : r < 1 := h
      show 0 = r
      omega⟩
  | n :: s, r, h => by
    have h : r < n * size s := h
    have hs : 0 < size s := Nat.pos_of_ne_zero fun e => by rw [e] at h; omega
    obtain ⟨i1, i2⟩ := valid_unravel (s := s) (Nat.mod_lt r hs)
    refine ⟨.cons (Nat.div_lt_of_lt_mul (by rw [Nat.mul_comm]; exact h)) i1, ?_⟩
    show r / size s * size s + ravel s (unravel s (r % size s)) = r
    rw [i2]
    exact Nat.div_add_mod' r (size s)

/-- A sum over the rows of the flat array is a sum over the positions. -/
theorem sum_rows [AddCommMonoid K] (s : List Nat) (f : Nat → K) : ∑ r ∈ Finset.range (size s), f r = ∑ p ∈ (indices s).toFinset, f (ravel s p) := by
  refine Finset.sum_nbij' (unravel s) (ravel s) (fun r hr => ?_) (fun p hp => ?_) (fun r hr => ?_) (fun p hp => ?_) (fun r hr => ?_)
  · rw [List.mem_toFinset, mem_indices]
    exact (valid_unravel (Finset.mem_range.mp hr)).1
  · rw [List.mem_toFinset, mem_indices] at hp
    exact Finset.mem_range.mpr (ravel_lt hp)
  · exact (valid_unravel (Finset.mem_range.mp hr)).2
  · rw [List.mem_toFinset, mem_indices] at hp
    exact unravel_ravel hp
  · rw [(valid_unravel (Finset.mem_range.mp hr)).2]

theorem flat_eq {lead : List Nat} {ed : Nat} {x : Arr K} (hx : x.shape = lead ++ [ed]) (he : 0 < ed) :
    ∃ flat, reshapeLead x [ed] = .ok flat ∧ flat.shape = [size lead, ed] ∧ ∀ p, Valid lead p → ∀ d < ed, flat.val [ravel lead p, d] = vec x p d := by
  have h1 : size [ed] = ed := Nat.mul_one ed
  have h2 : size x.shape = size lead * ed := by rw [hx, size_append, h1]
  have h3 : size x.shape / ed = size lead := by rw [h2, Nat.mul_div_cancel _ he]
  refine ⟨⟨[size lead, ed], fun i => x.val (unravel x.shape (ravel [size lead, ed] i))⟩, ?_, rfl, fun p hp d hd => ?_⟩
  · unfold reshapeLead
    dsimp only
    rw [if_neg (by rw [h1, h2, Nat.mul_mod_left]; omega), h1, h3]
  · show x.val (unravel x.shape (ravel lead p * (ed * 1) + (d * 1 + 0))) = x.val (p ++ [d])
    rw [show ravel lead p * (ed * 1) + (d * 1 + 0) = ravel (lead ++ [ed]) (p ++ [d]) by rw [ravel_snoc ed d hp.length.symm, Nat.mul_one]; omega, hx,
      unravel_ravel (valid_append hp (.cons hd .nil))]

theorem distances_eq [Field K] {ed ne : Nat} {flat emb : Arr K} {r j : Nat} {v : Nat → K} (h : ∀ d < ed, flat.val [r, d] = v d) : (distances ed ne flat emb).val [r, j] = sqDist ed v (cols emb j) := by
  show ∑ d ∈ Finset.range ed, flat.val [r, d] ^ 2 - 2 * ∑ d ∈ Finset.range ed, flat.val [r, d] * emb.val [d, j] + ∑ d ∈ Finset.range ed, emb.val [d, j] ^ 2 = _
  unfold sqDist
  rw [Finset.mul_sum, ← Finset.sum_sub_distrib, ← Finset.sum_add_distrib]
  refine Finset.sum_congr rfl fun d hd => ?_
  rw [h d (Finset.mem_range.mp hd)]
  show v d ^ 2 - 2 * (v d * emb.val [d, j]) + emb.val [d, j] ^ 2 = (v d - emb.val [d, j]) ^ 2
  ring

/-- What `encode` computes, in terms of positions. -/
theorem encode_eq [Field K] [LinearOrder K] [IsStrictOrderedRing K] {lead : List Nat} {ed ne : Nat} {emb x : Arr K} (hx : x.shape = lead ++ [ed]) (he : 0 < ed) (hn : 0 < ne) :
    ∃ e, encode ed ne emb x = .ok e ∧ e.flat.shape = [size lead, ed] ∧ e.indices.shape = [size lead] ∧ e.encodings.shape = [size lead, ne] ∧ e.distances.shape = [size lead, ne] ∧
      ∀ p, Valid lead p → (∀ d < ed, e.flat.val [ravel lead p, d] = vec x p d) ∧ (∀ j, e.distances.val [ravel lead p, j] = sqDist ed (vec x p) (cols emb j)) ∧
        FirstNearest ed ne (cols emb) (vec x p) (e.indices.val [ravel lead p]) ∧ ∀ j, e.encodings.val [ravel lead p, j] = if e.indices.val [ravel lead p] = j then 1 else 0 := by
  obtain ⟨flat, hf, hs, hv⟩ := flat_eq hx he
  refine ⟨⟨flat, distances ed ne flat emb, ⟨[flat.shape.headD 0], fun i => argmax (fun j => -(distances ed ne flat emb).val [i.headD 0, j]) (ne - 1)⟩,
    ⟨[flat.shape.headD 0, ne], fun i => if argmax (fun j => -(distances ed ne flat emb).val [i.headD 0, j]) (ne - 1) = i.getD 1 0 then 1 else 0⟩⟩, ?_, hs, ?_, ?_, ?_, fun p hp => ⟨hv p hp, ?_, ?_, ?_⟩⟩
  · unfold encode
    rw [bind_eq hf, if_neg (by omega)]
  · show [flat.shape.headD 0] = _
    rw [hs]
    rfl
  · show [flat.shape.headD 0, ne] = _
    rw [hs]
    rfl
  · show [flat.shape.headD 0, ne] = _
    rw [hs]
    rfl
  · exact fun j => distances_eq (hv p hp)
  · obtain ⟨h1, h2, h3⟩ := argmax_spec (fun j => -(distances ed ne flat emb).val [ravel lead p, j]) (ne - 1)
    refine ⟨?_, fun l hl => ?_, fun l hl => ?_⟩
    · show argmax _ _ < ne
      exact Nat.lt_of_le_of_lt h1 (by omega)
    · have := h2 l (by omega)
      rw [neg_le_neg_iff, distances_eq (hv p hp), distances_eq (hv p hp)] at this
      exact this
    · have := h3 l hl
      rw [neg_lt_neg_iff, distances_eq (hv p hp), distances_eq (hv p hp)] at this
      exact this
  · exact fun j => rfl

theorem reshapeTo_eq {α : Type} {x : Arr α} {s : List Nat} (h : x.shape = [size s]) : ∃ y, reshapeTo x s = .ok y ∧ y.shape = s ∧ ∀ p, Valid s p → y.val p = x.val [ravel s p] := by
  refine ⟨⟨s, fun i => x.val (unravel x.shape (ravel s i))⟩, ?_, rfl, fun p hp => ?_⟩
  · unfold reshapeTo
    rw [if_pos (by rw [h]; exact Nat.mul_one _)]
  · show x.val (unravel x.shape (ravel s p)) = _
    rw [h]
    show x.val [ravel s p / 1] = _
    rw [Nat.div_one]

theorem straight_eq [Field K] {x q : Arr K} (h : q.shape = x.shape) :
    ∃ s l, straightThrough x q = .ok (s, l) ∧ s.shape = x.shape ∧ (∀ i, Valid x.shape i → s.val i = q.val i) ∧ l = (∑ i ∈ (indices x.shape).toFinset, (q.val i - x.val i) ^ 2) / (size x.shape : K) := by
  obtain ⟨d, hd, ds, dv⟩ := zip_at (f := (· - ·)) (x := q) (y := x) (by rw [h]; exact broadcasts_refl _)
  obtain ⟨s, hs, ss, sv⟩ := zip_at (f := (· + ·)) (x := x) (y := d) (by rw [ds, h]; exact broadcasts_refl _)
  have hsp : ∀ (a : Arr K) i, Valid a.shape i → spread a i = a.val i := fun a i hi => by
    show a.val (Verif.Recurrent.project a.shape i) = _
    rw [project_self hi]
  refine ⟨s, meanAll (map (· ^ 2) d), ?_, ss, fun i hi => ?_, ?_⟩
  · unfold straightThrough
    rw [bind_eq hd, bind_eq hs]
  · rw [sv i hi, hsp d i (by rw [ds, h]; exact hi), dv i (by rw [h]; exact hi), hsp x i hi]
    ring
  · show ((indices d.shape).map fun i => d.val i ^ 2).sum / (size d.shape : K) = _
    rw [ds, h, ← List.sum_toFinset _ (nodup_indices _)]
    congr 1
    refine Finset.sum_congr rfl fun i hi => ?_
    rw [List.mem_toFinset, mem_indices] at hi
    rw [dv i (by rw [h]; exact hi), hsp x i hi]

theorem sum_snoc [AddCommMonoid K] (s : List Nat) (n : Nat) (f : List Nat → K) : ∑ i ∈ (indices (s ++ [n])).toFinset, f i = ∑ p ∈ (indices s).toFinset, ∑ d ∈ Finset.range n, f (p ++ [d]) := by
  rw [← Finset.sum_product']
  refine Finset.sum_nbij' (fun i => (i.dropLast, i.getLastD 0)) (fun q => q.1 ++ [q.2]) (fun i hi => ?_) (fun q hq => ?_) (fun i hi => ?_) (fun q hq => ?_) (fun i hi => ?_)
  · rw [List.mem_toFinset, mem_indices] at hi
    obtain ⟨a, b, rfl, ha, hb⟩ := valid_append_inv hi
    cases hb with
    | @cons _ d _ l hd hl =>
      cases hl
      rw [List.dropLast_concat, List.getLastD_concat, Finset.mem_product]
      exact ⟨List.mem_toFinset.mpr (mem_indices.mpr ha), Finset.mem_range.mpr hd⟩
  · obtain ⟨h1, h2⟩ := Finset.mem_product.mp hq
    rw [List.mem_toFinset, mem_indices] at *
    exact valid_append h1 (.cons (Finset.mem_range.mp h2) .nil)
  · rw [List.mem_toFinset, mem_indices] at hi
    obtain ⟨a, b, rfl, ha, hb⟩ := valid_append_inv hi
    cases hb with
    | @cons _ d _ l hd hl =>
      cases hl
      rw [List.dropLast_concat, List.getLastD_concat]
  · rw [List.dropLast_concat, List.getLastD_concat]
  · rw [List.mem_toFinset, mem_indices] at hi
    obtain ⟨a, b, rfl, ha, hb⟩ := valid_append_inv hi
    cases hb with
    | @cons _ d _ l hd hl =>
      cases hl
      rw [List.dropLast_concat, List.getLastD_concat]

/-- The parts that both modules share. -/
theorem forward_eq [Field K] [LinearOrder K] [IsStrictOrderedRing K] {lead : List Nat} {ed ne : Nat} {emb x : Arr K} (hx : x.shape = lead ++ [ed]) (he : 0 < ed) (hn : 0 < ne) :
    ∃ e idx q l, encode ed ne emb x = .ok e ∧ reshapeTo e.indices x.shape.dropLast = .ok idx ∧ straightThrough x (quantize ed emb idx) = .ok (q, l) ∧
      q.shape = x.shape ∧ idx.shape = lead ∧ e.encodings.shape = [size lead, ne] ∧ e.distances.shape = [size lead, ne] ∧
      l = (∑ p ∈ (indices lead).toFinset, sqDist ed (vec x p) (cols emb (idx.val p))) / (size lead * ed : Nat) ∧
      ∀ p, Valid lead p → FirstNearest ed ne (cols emb) (vec x p) (idx.val p) ∧ (∀ d < ed, vec q p d = cols emb (idx.val p) d) ∧
        (∀ j, e.encodings.val [ravel lead p, j] = if idx.val p = j then 1 else 0) ∧ (∀ j, e.distances.val [ravel lead p, j] = sqDist ed (vec x p) (cols emb j)) := by
  obtain ⟨e, h1, h2, h3, h4, h5, h6⟩ := encode_eq (emb := emb) hx he hn
  obtain ⟨idx, i1, i2, i3⟩ := reshapeTo_eq h3
  have hq : (quantize ed emb idx).shape = x.shape := by
    show idx.shape ++ [ed] = _
    rw [i2, hx]
  obtain ⟨q, l, q1, q2, q3, q4⟩ := straight_eq hq
  have hqv : ∀ p d, (quantize ed emb idx).val (p ++ [d]) = cols emb (idx.val p) d := fun p d => by
    show emb.val [(p ++ [d]).getLastD 0, idx.val (p ++ [d]).dropLast] = _
    rw [List.dropLast_concat, List.getLastD_concat]
    rfl
  refine ⟨e, idx, q, l, h1, by rw [hx, List.dropLast_concat]; exact i1, q1, q2, i2, h4, h5, ?_, fun p hp => ?_⟩
  · rw [q4, hx, sum_snoc, size_append, show size [ed] = ed from Nat.mul_one ed]
    congr 1
    refine Finset.sum_congr rfl fun p _ => Finset.sum_congr rfl fun d _ => ?_
    rw [hqv]
    show (cols emb (idx.val p) d - vec x p d) ^ 2 = _
    ring
  · obtain ⟨k1, k2, k3, k4⟩ := h6 p hp
    rw [i3 p hp]
    refine ⟨k3, fun d hd => ?_, k4, k2⟩
    show q.val (p ++ [d]) = _
    rw [q3 _ (by rw [hx]; exact valid_append hp (.cons hd .nil)), hqv, i3 p hp]

/-! ### C73 -/

/-- C73 `VectorQuantizer` on inputs whose last axis has size `embedding_dim` returns, at every position of the other axes, the index of the first of the embeddings nearest to the vector at that position, that embedding
itself as the quantised vector, and its one-hot encoding; the quantised array has the shape of the inputs; and the loss is `1 + commitment_cost` times the mean squared distance of the inputs from their quantised values. -/
theorem vq_nearest [Field K] [LinearOrder K] [IsStrictOrderedRing K] (lead : List Nat) (ed ne : Nat) (β : K) (emb x : Arr K) (hx : x.shape = lead ++ [ed]) (he : 0 < ed) (hn : 0 < ne) :
    ∃ out, VectorQuantizer.call ed ne β emb x = .ok out ∧ out.quantize.shape = x.shape ∧ out.encodingIndices.shape = lead ∧ out.encodings.shape = [size lead, ne] ∧
      out.loss = (1 + β) * ((∑ p ∈ (indices lead).toFinset, sqDist ed (vec x p) (cols emb (out.encodingIndices.val p))) / (size lead * ed : Nat)) ∧
      ∀ p, Valid lead p → FirstNearest ed ne (cols emb) (vec x p) (out.encodingIndices.val p) ∧ (∀ d < ed, vec out.quantize p d = cols emb (out.encodingIndices.val p) d) ∧
        (∀ j, out.encodings.val [ravel lead p, j] = if out.encodingIndices.val p = j then 1 else 0) ∧ (∀ j, out.distances.val [ravel lead p, j] = sqDist ed (vec x p) (cols emb j)) := by
  obtain ⟨e, idx, q, l, h1, h2, h3, h4, h5, h6, h7, h8, h9⟩ := forward_eq (emb := emb) hx he hn
  refine ⟨⟨q, l + β * l, avgProbs e.encodings, e.encodings, idx, e.distances⟩, ?_, h4, h5, h6, ?_, h9⟩
  · unfold VectorQuantizer.call
    rw [bind_eq h1, bind_eq h2, bind_eq h3]
  · show l + β * l = _
    rw [← h8]
    ring

/-- Two embeddings `(0,0)` and `(2,2)`; the vectors `(1,1)` (a tie), `(3,1)` and `(0,1)`. -/
example : (VectorQuantizer.call 2 2 (1 / 2 : ℚ) ⟨[2, 2], fun i => 2 * (i.getD 1 0 : ℚ)⟩ ⟨[3, 1, 2], fun i => [[1, 1], [3, 1], [0, 1]].getD (i.getD 0 0) [] |>.getD (i.getD 2 0) 0⟩).toOption.map
    (fun o => (o.quantize.shape, (indices [3, 1]).map o.encodingIndices.val, (indices [3, 1, 2]).map o.quantize.val, o.loss)) = some ([3, 1, 2], [0, 1, 0], [0, 0, 2, 2, 0, 0], 5 / 4) := by decide +kernel

/-! ### C74 -/

/-- C74 Inputs with at least one element whose last axis does not have size `embedding_dim` are rejected.
Missing: inputs without elements can be accepted and then get another shape (`vq_empty_shape`). -/
theorem vq_rejects_partial [Field K] [LinearOrder K] (lead : List Nat) (n ed ne : Nat) (β : K) (emb x : Arr K) (hx : x.shape = lead ++ [n]) (hne : n ≠ ed) (hs : 0 < size x.shape) :
    ∃ e, VectorQuantizer.call ed ne β emb x = .error e := by
  have h1 : size [ed] = ed := Nat.mul_one ed
  have h2 : size x.shape = size lead * n := by rw [hx, size_append]; exact congrArg _ (Nat.mul_one n)
  rcases hr : reshapeLead x [ed] with er | flat
  · refine ⟨er, ?_⟩
    have : encode ed ne emb x = .error er := by
      unfold encode
      rw [bind_err hr]
    unfold VectorQuantizer.call
    rw [bind_err this]
  · by_cases hn : ne = 0
    · refine ⟨.value, ?_⟩
      have : encode ed ne emb x = .error .value := by
        unfold encode
        rw [bind_eq hr, if_pos hn]
      unfold VectorQuantizer.call
      rw [bind_err this]
    · unfold reshapeLead at hr
      dsimp only at hr
      by_cases hm : size [ed] = 0 ∨ size x.shape % size [ed] ≠ 0
      · rw [if_pos hm] at hr
        cases hr
      · rw [if_neg hm] at hr
        cases hr
        rw [h1] at hm
        refine ⟨.type, ?_⟩
        have he : ∃ e, encode ed ne emb x = .ok e ∧ e.indices.shape = [size x.shape / ed] := by
          unfold encode reshapeLead
          dsimp only
          rw [h1, if_neg hm]
          refine ⟨_, bind_eq rfl |>.trans (if_neg hn), rfl⟩
        obtain ⟨e, he, hi⟩ := he
        unfold VectorQuantizer.call
        rw [bind_eq he]
        refine bind_err ?_
        unfold reshapeTo
        rw [hi, hx, List.dropLast_concat, if_neg]
        rw [← hx, h2]
        intro h
        have h : size lead * n / ed * 1 = size lead := h
        have hd : size lead * n % ed = 0 := by
          rw [← h2]
          exact not_not.mp fun k => hm (.inr k)
        have hm1 : ed ≠ 0 := fun k => hm (.inl k)
        have hl : 0 < size lead := Nat.pos_of_ne_zero fun k => by rw [h2, k] at hs; omega
        have h3 : size lead * n = size lead * ed := by
          have := Nat.div_add_mod (size lead * n) ed
          rw [hd, Nat.add_zero] at this
          rw [← this, Nat.mul_comm]
          congr 1
          omega
        exact hne (Nat.eq_of_mul_eq_mul_left hl h3)

/-- 2 × 3 inputs for embeddings of size 2: the elements could be regrouped, but the call fails. -/
example : (∃ n, size [2, 3] = n * 2) ∧ (VectorQuantizer.call 2 2 (0 : ℚ) ⟨[2, 2], fun _ => 0⟩ ⟨[2, 3], fun _ => 1⟩).toOption.isNone = true := ⟨⟨3, rfl⟩, by decide +kernel⟩

/-- C74 is violated by an input without elements: for embeddings of size 3 an array of shape `(0, 1)` is accepted, and the result has shape `(0, 3)`. -/
theorem vq_empty_shape : (VectorQuantizer.call 3 2 (0 : ℚ) ⟨[3, 2], fun _ => 0⟩ ⟨[0, 1], fun _ => 1⟩).toOption.map (fun o => o.quantize.shape) = some [0, 3] := by decide +kernel

end Verif.Props.VQ
