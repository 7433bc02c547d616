import Mathlib.Algebra.BigOperators.Ring.Finset
import Mathlib.Algebra.BigOperators.Group.Finset.Piecewise
import Mathlib.Algebra.Field.Rat
import Verif.Base.Dict
import Verif.Props.Conv
import Verif.Props.Mlp
import Verif.Model.Embed

/-!
# Embeddings (C58)
-/

set_option linter.unusedVariables false
set_option linter.unusedSectionVars false

namespace Verif.Props.Embed
open Verif.Shapes (Err)
open Verif.Pool (Arr)
open Verif.Mlp (ParamFn getParameter)
open Verif.Emb
open Verif.Props.Conv (bind_ok)

variable {K : Type} [Field K]

/-- `idx` is a position in an array of that shape. -/
def Valid (shape idx : List Nat) : Prop := List.Forall₂ (· < ·) idx shape

theorem call_ok {get : ParamFn K} {e : Embed K} {md : String} {ids : Arr Int} {b : Bool} {st : Option StyleArg} {y : Arr K} (h : e.call get md ids b st = .ok y) :
    ∃ s m, (orDefault st e.lookupStyle).resolve = .ok s ∧ get md "embeddings" [e.vocabSize, e.embedDim] = .ok m ∧ y = match s with
      | .arrayIndex => ⟨ids.shape ++ [e.embedDim], fun i => m.val [row e.vocabSize (ids.val i.dropLast), i.getLastD 0]⟩
      | .oneHot => ⟨ids.shape ++ [e.embedDim], fun i => ∑ k ∈ Finset.range e.vocabSize, m.val [k, i.getLastD 0] * oneHot (ids.val i.dropLast) k⟩ := by
  unfold Embed.call at h
  split at h
  · cases h
  · obtain ⟨s, h1, h2⟩ := bind_ok h
    obtain ⟨m, h3, h4⟩ := bind_ok h2
    obtain ⟨q, h5, h6⟩ := bind_ok h3
    split at h6
    · cases h6
      refine ⟨s, m, h1, h5, ?_⟩
      cases s <;> exact (Except.ok.inj h4).symm
    · cases h6

/-- C58 For ids inside the vocabulary, whichever lookup style is in force, the embedding of the id at a position is its row of the matrix, and the result has the shape of the ids with the embedding size
appended.  So the two styles agree. -/
theorem embed_row (get : ParamFn K) (e : Embed K) (md : String) (ids : Arr Int) (st : Option StyleArg) (y : Arr K) (h : e.call get md ids true st = .ok y)
    (hin : ∀ idx, Valid ids.shape idx → 0 ≤ ids.val idx ∧ ids.val idx < e.vocabSize) :
    ∃ m, get md "embeddings" [e.vocabSize, e.embedDim] = .ok m ∧ y.shape = ids.shape ++ [e.embedDim] ∧
      ∀ idx j, Valid ids.shape idx → y.val (idx ++ [j]) = m.val [(ids.val idx).toNat, j] := by
  obtain ⟨s, m, _, hm, hy⟩ := call_ok h
  refine ⟨m, hm, ?_, fun idx j hidx => ?_⟩
  · rw [hy]
    cases s <;> rfl
  · obtain ⟨h0, h1⟩ := hin idx hidx
    rw [hy]
    cases s with
    | arrayIndex =>
      show m.val [row e.vocabSize (ids.val (idx ++ [j]).dropLast), (idx ++ [j]).getLastD 0] = _
      rw [List.dropLast_concat, List.getLastD_concat]
      unfold row
      dsimp only
      rw [if_neg (by omega), min_eq_left (by omega), max_eq_right h0]
    | oneHot =>
      show (∑ k ∈ Finset.range e.vocabSize, m.val [k, (idx ++ [j]).getLastD 0] * oneHot (ids.val (idx ++ [j]).dropLast) k) = _
      rw [List.dropLast_concat, List.getLastD_concat, Finset.sum_eq_single (ids.val idx).toNat]
      · unfold oneHot
        rw [if_pos (by omega), mul_one]
      · intro k _ hk
        unfold oneHot
        rw [if_neg fun e => hk (by omega), mul_zero]
      · intro hk
        exact absurd (Finset.mem_range.mpr (by omega)) hk

/-- C58 The two lookup styles give the same vectors for ids inside the vocabulary. -/
theorem embed_styles_agree (get : ParamFn K) (e : Embed K) (md : String) (ids : Arr Int) (st st' : Option StyleArg) (y y' : Arr K)
    (h : e.call get md ids true st = .ok y) (h' : e.call get md ids true st' = .ok y')
    (hin : ∀ idx, Valid ids.shape idx → 0 ≤ ids.val idx ∧ ids.val idx < e.vocabSize) :
    y.shape = y'.shape ∧ ∀ i, Valid y.shape i → y.val i = y'.val i := by
  obtain ⟨m, hm, hs, hv⟩ := embed_row get e md ids st y h hin
  obtain ⟨m', hm', hs', hv'⟩ := embed_row get e md ids st' y' h' hin
  rw [hm] at hm'
  cases hm'
  refine ⟨hs.trans hs'.symm, fun i hi => ?_⟩
  unfold Valid at hi
  rw [hs] at hi
  obtain ⟨idx, js, h1, h2, rfl⟩ : ∃ idx js, List.Forall₂ (· < ·) idx ids.shape ∧ List.Forall₂ (· < ·) js [e.embedDim] ∧ i = idx ++ js := by
    have h1 := List.forall₂_take_append i ids.shape [e.embedDim] hi
    have h2 := List.forall₂_drop_append i ids.shape [e.embedDim] hi
    exact ⟨_, _, h1, h2, (List.take_append_drop _ _).symm⟩
  cases h2 with
  | cons hj ht =>
    cases ht
    rw [hv idx _ h1, hv' idx _ h1]

/-- The matrix with rows `[0, 1], [10, 11], [20, 21]`. -/
def exGet : ParamFn ℚ := fun _ _ sh => .ok ⟨sh, fun i => (10 * i.getD 0 0 + i.getD 1 0 : Nat)⟩

def exEmbed : Embed ℚ := ⟨3, 2, .str "Array_Index".toList, none⟩

/-- The ids `[[2, 0], [2, 1]]`. -/
def exIds : Arr Int := ⟨[2, 2], fun i => if i.getD 1 0 = 0 then 2 else i.getD 0 0⟩

example : (exEmbed.call exGet "embed" exIds true none).map (fun y => (y.shape, [[0, 0, 0], [1, 1, 1]].map y.val)) = .ok ([2, 2, 2], [20, 11]) ∧
    (exEmbed.call exGet "embed" exIds true (some (.style .oneHot))).map (fun y => (y.shape, [[0, 0, 0], [1, 1, 1]].map y.val)) = .ok ([2, 2, 2], [20, 11]) := by decide +kernel

example : ∀ idx, Valid exIds.shape idx → 0 ≤ exIds.val idx ∧ exIds.val idx < exEmbed.vocabSize := by
  intro idx h
  cases h with
  | cons h1 h2 =>
    rename_i a l
    cases h2 with
    | cons h3 h4 =>
      rename_i b l'
      show (0 : Int) ≤ (if b = 0 then 2 else (a : Int)) ∧ (if b = 0 then 2 else (a : Int)) < (3 : Nat)
      split <;> omega

/-- C58 The condition on the ids matters: outside the vocabulary the index is clamped but the one-hot vector is zero. -/
theorem embed_outside : (exEmbed.call exGet "embed" ⟨[], fun _ => 3⟩ true none).map (fun y => y.val [0]) = .ok 20 ∧
    (exEmbed.call exGet "embed" ⟨[], fun _ => 3⟩ true (some (.style .oneHot))).map (fun y => y.val [0]) = .ok 0 := by decide +kernel

/-- C58 Exactly the ids of integer dtype with one of the two styles (any case of letters) are accepted, if the matrix is there in the right shape. -/
theorem embed_accepts (get : ParamFn K) (e : Embed K) (md : String) (ids : Arr Int) (b : Bool) (st : Option StyleArg) (m : Arr K)
    (hm : get md "embeddings" [e.vocabSize, e.embedDim] = .ok m) (hs : m.shape = [e.vocabSize, e.embedDim]) :
    (∃ y, e.call get md ids b st = .ok y) ↔ b = true ∧ ((∃ s, orDefault st e.lookupStyle = .style s) ∨ ∃ s, orDefault st e.lookupStyle = .str s ∧
      (s.map Char.toUpper = ['A', 'R', 'R', 'A', 'Y', '_', 'I', 'N', 'D', 'E', 'X'] ∨ s.map Char.toUpper = ['O', 'N', 'E', '_', 'H', 'O', 'T'])) := by
  have hemb : e.embeddings get md = .ok m := by
    unfold Embed.embeddings getParameter
    rw [hm]
    exact if_pos hs
  constructor
  · rintro ⟨y, h⟩
    unfold Embed.call at h
    cases b with
    | false => cases h
    | true =>
      rw [if_neg (by decide)] at h
      obtain ⟨s, h1, _⟩ := bind_ok h
      refine ⟨rfl, ?_⟩
      cases ho : orDefault st e.lookupStyle with
      | style s => exact Or.inl ⟨s, rfl⟩
      | str s =>
        rw [ho] at h1
        unfold StyleArg.resolve at h1
        dsimp only at h1
        split at h1
        · rename_i hc
          exact Or.inr ⟨s, rfl, Or.inl hc⟩
        · split at h1
          · rename_i hc
            exact Or.inr ⟨s, rfl, Or.inr hc⟩
          · cases h1
  · rintro ⟨rfl, h⟩
    have hr : ∃ s, (orDefault st e.lookupStyle).resolve = .ok s := by
      rcases h with ⟨s, h⟩ | ⟨s, h, hc | hc⟩
      · rw [h]
        exact ⟨s, rfl⟩
      · rw [h]
        exact ⟨.arrayIndex, if_pos hc⟩
      · rw [h]
        refine ⟨.oneHot, ?_⟩
        unfold StyleArg.resolve
        dsimp only
        rw [if_neg (by rw [hc]; decide)]
        exact if_pos hc
    obtain ⟨s, hr⟩ := hr
    unfold Embed.call
    rw [if_neg (by decide), hr]
    show ∃ y, (e.embeddings get md >>= fun m => _) = .ok y
    rw [hemb]
    cases s <;> exact ⟨_, rfl⟩

example : exGet "embed" "embeddings" [3, 2] = .ok ⟨[3, 2], fun i => (10 * i.getD 0 0 + i.getD 1 0 : Nat)⟩ ∧ "one_Hot".toList.map Char.toUpper = ['O', 'N', 'E', '_', 'H', 'O', 'T'] :=
  ⟨rfl, by decide⟩

/-- C58 A module is built either from two sizes that are not 0, or from a matrix of rank at least 2 with which every size given (and not 0) agrees; and then its sizes are those. -/
theorem embed_make (v d : Option Nat) (matrix : Option (Arr K)) (st : StyleArg) (e : Embed K) (h : Embed.make v d matrix st = .ok e) :
    (matrix = none → v = some e.vocabSize ∧ d = some e.embedDim ∧ e.vocabSize ≠ 0 ∧ e.embedDim ≠ 0) ∧
    (∀ m, matrix = some m → ∃ rest, m.shape = e.vocabSize :: e.embedDim :: rest ∧ (∀ n, v = some n → n = 0 ∨ n = e.vocabSize) ∧ (∀ n, d = some n → n = 0 ∨ n = e.embedDim)) := by
  have hg : ∀ (o : Option Nat) n, given o = some n → o = some n ∧ n ≠ 0 := by
    intro o n h
    unfold given at h
    split at h
    · cases h
    · rename_i hne
      exact ⟨h, fun h0 => hne (by rw [h, h0])⟩
  have hany : ∀ (o : Option Nat) n, ¬ ((given o).any (· != n)) = true → ∀ k, o = some k → k = 0 ∨ k = n := by
    rintro o n h k rfl
    cases k with
    | zero => exact Or.inl rfl
    | succ k =>
      refine Or.inr ?_
      have : ¬ ((k + 1 != n) = true) := h
      simpa using this
  unfold Embed.make at h
  cases matrix with
  | none =>
    refine ⟨fun _ => ?_, (fun m hm => by cases hm)⟩
    dsimp only at h
    split at h
    · rename_i v' d' h1 h2
      cases h
      exact ⟨(hg _ _ h1).1, (hg _ _ h2).1, (hg _ _ h1).2, (hg _ _ h2).2⟩
    · cases h
  | some m =>
    refine ⟨(fun hm => by cases hm), fun m' hm' => ?_⟩
    cases hm'
    dsimp only at h
    split at h
    · rename_i v' d' rest hsh
      split at h
      · cases h
      · split at h
        · cases h
        · rename_i h1 h2
          cases h
          exact ⟨rest, hsh, hany _ _ h1, hany _ _ h2⟩
    · split at h <;> cases h
    · cases h

example : (Embed.make (some 3) none (some ⟨[3, 2], fun _ => (0 : ℚ)⟩) (.style .oneHot)).map (fun e => (e.vocabSize, e.embedDim)) = .ok (3, 2) ∧
    (Embed.make (some 4) none (some ⟨[3, 2], fun _ => (0 : ℚ)⟩) (.style .oneHot)).map (fun e => (e.vocabSize, e.embedDim)) = .error .value ∧
    (Embed.make (K := ℚ) (some 3) (some 0) none (.style .oneHot)).map (fun e => (e.vocabSize, e.embedDim)) = .error .value := by decide +kernel

end Verif.Props.Embed
