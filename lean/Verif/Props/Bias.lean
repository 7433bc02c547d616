import Verif.Base.Dict
import Verif.Model.Bias

/-!
# Shapes of biases (C52)
-/

set_option linter.unusedVariables false

namespace Verif.Props.Bias
open Verif.Shapes (Err)
open Verif.Bias

/-! ### Specification -/

/-- `bias_dims` selects dimension `d` of an input of the given rank, counted from the front or from the end; no `bias_dims` select all but the batch dimension. -/
def Selects (dims : Option (List Int)) (rank d : Nat) : Prop :=
  match dims with
  | none => d ≠ 0
  | some l => (d : Int) ∈ l ∨ (d : Int) - rank ∈ l

/-- Python's range of valid dimensions, without the batch dimension. -/
def InRange (rank : Nat) (e : Int) : Prop := -(rank : Int) < e ∧ e < rank ∧ e ≠ 0

/-! ### Lemmas -/

theorem norm_in {rank : Nat} {e : Int} (h : InRange rank e) : ∃ d : Nat, (if e < 0 then Int.fmod e rank else e) = d ∧ d ≠ 0 ∧ d < rank ∧ ((d : Int) = e ∨ (d : Int) - rank = e) := by
  obtain ⟨h1, h2, h3⟩ := h
  by_cases hn : e < 0
  · refine ⟨(e + rank).toNat, ?_, by omega, by omega, Or.inr (by omega)⟩
    rw [if_pos hn, Int.fmod_eq_emod_of_nonneg _ (by omega)]
    have : e % (rank : Int) = (e + rank) % rank := by rw [Int.add_emod_right]
    rw [this, Int.emod_eq_of_lt (by omega) (by omega)]
    omega
  · exact ⟨e.toNat, by rw [if_neg hn]; omega, by omega, by omega, Or.inl (by omega)⟩

theorem populate_ok {s : List Nat} : ∀ (dims : List Int) (acc : List Nat), (∀ e ∈ dims, InRange s.length e) → acc.length = s.length →
    ∃ out, populate s dims acc = .ok out ∧ out.length = s.length ∧ out[0]? = acc[0]? ∧
      ∀ d, d < s.length → ((Selects (some dims) s.length d ∧ d ≠ 0) → out[d]? = s[d]?) ∧ (¬ Selects (some dims) s.length d → out[d]? = acc[d]?)
  | [], acc, _, hl => ⟨acc, rfl, hl, rfl, fun d _ => ⟨(fun h => by rcases h.1 with h | h <;> cases h), fun _ => rfl⟩⟩
  | e :: dims, acc, h, hl => by
    obtain ⟨d, h1, h2, h3, h4⟩ := norm_in (h e List.mem_cons_self)
    obtain ⟨out, k1, k2, k3, k4⟩ := populate_ok dims (acc.set d (s.getD d 0)) (fun e he => h e (List.mem_cons_of_mem _ he)) (by rw [List.length_set, hl])
    refine ⟨out, ?_, k2, ?_, ?_⟩
    · unfold populate
      dsimp only
      rw [if_neg (by omega), h1, if_neg (by omega), if_neg (by omega)]
      exact k1
    · rw [k3, List.getElem?_set_ne h2]
    · intro d' hd'
      have hd'' : s[d]? = some (s.getD d 0) := by
        rw [List.getD_eq_getElem?_getD, List.getElem?_eq_getElem h3]
        rfl
      constructor
      · rintro ⟨hsel, hne⟩
        by_cases hs : Selects (some dims) s.length d'
        · exact (k4 d' hd').1 ⟨hs, hne⟩
        · rw [(k4 d' hd').2 hs]
          have : d' = d := by
            rcases hsel with hsel | hsel
            · rcases List.mem_cons.mp hsel with he | he
              · omega
              · exact (hs (Or.inl he)).elim
            · rcases List.mem_cons.mp hsel with he | he
              · omega
              · exact (hs (Or.inr he)).elim
          subst this
          rw [List.getElem?_set_self (by omega), ← hd'']
      · intro hsel
        have hs : ¬ Selects (some dims) s.length d' := fun k => hsel (k.imp (List.mem_cons_of_mem _) (List.mem_cons_of_mem _))
        rw [(k4 d' hd').2 hs, List.getElem?_set_ne]
        rintro rfl
        apply hsel
        rcases h4 with h4 | h4
        · exact Or.inl (h4 ▸ List.mem_cons_self)
        · exact Or.inr (h4 ▸ List.mem_cons_self)

theorem strip_ones {l : List Nat} (hl : l ≠ []) (h0 : l[0]? = some 1) : 1 ≤ stripStart l l.length ∧ stripStart l l.length ≤ l.length ∧ ∀ d, d < stripStart l l.length → l[d]? = some 1 := by
  have hpos : 0 < l.length := List.length_pos_iff.mpr hl
  unfold stripStart
  cases hf : (List.range' 1 (l.length - 1)).find? fun d => decide (l.getD d 0 ≠ 1) with
  | none =>
    refine ⟨hpos, Nat.le_refl _, fun d hd => ?_⟩
    rw [Option.getD_none] at hd
    by_cases hd0 : d = 0
    · rw [hd0, h0]
    · have := List.find?_eq_none.mp hf d (List.mem_range'_1.mpr ⟨by omega, by omega⟩)
      have h1 : l.getD d 0 = 1 := by simpa using this
      rw [List.getD_eq_getElem?_getD, List.getElem?_eq_getElem hd] at h1
      rw [List.getElem?_eq_getElem hd]
      exact congrArg some h1
  | some i =>
    have hm := List.mem_range'_1.mp (List.mem_of_find?_eq_some hf)
    refine ⟨hm.1, by show i ≤ _; omega, fun d hd => ?_⟩
    have hd : d < i := hd
    by_cases hd0 : d = 0
    · rw [hd0, h0]
    · obtain ⟨_, as, bs, hab, hall⟩ := List.find?_eq_some_iff_append.mp hf
      have hmem : d ∈ as := by
        have hlen : as.length + 1 = i := by
          have := congrArg (fun l : List Nat => l[as.length]?) hab
          simp only [List.getElem?_append_right (Nat.le_refl _), Nat.sub_self, List.getElem?_cons_zero] at this
          rw [List.getElem?_range' ] at this
          · have := Option.some.inj this
            omega
          · have := congrArg List.length hab
            rw [List.length_range', List.length_append, List.length_cons] at this
            omega
        have hget : (List.range' 1 (l.length - 1))[d - 1]? = some d := by
          rw [List.getElem?_range' (by omega)]
          congr 1
          omega
        rw [hab, List.getElem?_append_left (by omega)] at hget
        exact List.mem_of_getElem? hget
      have := hall d hmem
      have h1 : l.getD d 0 = 1 := by simpa using this
      have hdl : d < l.length := by omega
      rw [List.getD_eq_getElem?_getD, List.getElem?_eq_getElem hdl] at h1
      rw [List.getElem?_eq_getElem hdl]
      exact congrArg some h1

/-! ### C52 -/

/-- C52 For valid dimensions the shape of a bias is computed; padded on the left with ones to the rank of the input, it has exactly the selected dimensions of the input and 1 elsewhere, in
particular on the batch axis, which it never covers; so it broadcasts against the input. -/
theorem bias_shape (s : List Nat) (hs : s ≠ []) (dims : Option (List Int)) (hd : ∀ l, dims = some l → ∀ e ∈ l, InRange s.length e) :
    ∃ r, calculateBiasShape s dims = .ok r ∧ r.length < s.length ∧
      ∀ d, d < s.length → (Selects dims s.length d ∧ d ≠ 0 → (List.replicate (s.length - r.length) 1 ++ r)[d]? = s[d]?) ∧
        (¬ (Selects dims s.length d ∧ d ≠ 0) → (List.replicate (s.length - r.length) 1 ++ r)[d]? = some 1) := by
  have hpos : 0 < s.length := List.length_pos_iff.mpr hs
  match dims with
  | none =>
    refine ⟨s.drop 1, rfl, by rw [List.length_drop]; omega, fun d hd => ?_⟩
    obtain ⟨a, s', rfl⟩ := List.exists_cons_of_ne_nil hs
    have : (a :: s').length - ((a :: s').drop 1).length = 1 := by
      rw [List.length_drop]; omega
    rw [this]
    cases d with
    | zero => exact ⟨fun h => (h.2 rfl).elim, fun _ => rfl⟩
    | succ d => exact ⟨fun _ => rfl, fun h => (h ⟨Nat.succ_ne_zero d, Nat.succ_ne_zero d⟩).elim⟩
  | some [] =>
    refine ⟨[], rfl, hpos, fun d hd => ⟨fun h => ?_, fun _ => ?_⟩⟩
    · rcases h.1 with h | h <;> cases h
    · rw [List.append_nil, List.getElem?_replicate, if_pos (by show d < s.length - 0; omega)]
  | some (e :: dims) =>
    obtain ⟨out, h1, h2, h3, h4⟩ := populate_ok (e :: dims) (List.replicate s.length 1) (hd _ rfl) (List.length_replicate ..)
    have hne : out ≠ [] := by
      rintro rfl
      exact absurd h2 (by show 0 ≠ _; omega)
    have h0 : out[0]? = some 1 := by rw [h3, List.getElem?_replicate, if_pos hpos]
    obtain ⟨k1, k2, k3⟩ := strip_ones hne h0
    rw [h2] at k1 k2 k3
    have hr : calculateBiasShape s (some (e :: dims)) = .ok (out.drop (stripStart out s.length)) := by
      show (populate s (e :: dims) (List.replicate s.length 1) >>= _) = _
      rw [h1]
      rfl
    refine ⟨_, hr, by rw [List.length_drop]; omega, fun d hd' => ?_⟩
    have hpad : (List.replicate (s.length - (out.drop (stripStart out s.length)).length) 1 ++ out.drop (stripStart out s.length))[d]? = out[d]? := by
      have hlen : s.length - (out.drop (stripStart out s.length)).length = stripStart out s.length := by rw [List.length_drop]; omega
      rw [hlen]
      by_cases hlt : d < stripStart out s.length
      · rw [List.getElem?_append_left (by rw [List.length_replicate]; exact hlt), List.getElem?_replicate, if_pos hlt, k3 d hlt]
      · rw [List.getElem?_append_right (by rw [List.length_replicate]; omega), List.getElem?_drop, List.length_replicate]
        congr 1
        omega
    rw [hpad]
    refine ⟨(h4 d hd').1, fun h => ?_⟩
    by_cases hz : d = 0
    · rw [hz, h0]
    · rw [(h4 d hd').2 fun k => h ⟨k, hz⟩, List.getElem?_replicate, if_pos hd']

/-- Height and channels of an image batch. -/
example : (∀ e ∈ ([1, -1] : List Int), InRange 4 e) ∧ calculateBiasShape [8, 3, 5, 2] (some [1, -1]) = .ok [3, 1, 2] ∧ calculateBiasShape [8, 3, 5, 2] (some [2]) = .ok [5, 1] ∧
    calculateBiasShape [8, 3, 5, 2] none = .ok [3, 5, 2] := by
  refine ⟨fun e he => ?_, by decide, by decide, by decide⟩
  simp only [List.mem_cons, List.not_mem_nil, or_false] at he
  rcases he with rfl | rfl <;> exact ⟨by decide, by decide, by decide⟩

/-- C52 The batch dimension, named 0 or `-rank`, and dimensions from the rank on are rejected with a `ValueError`.
Missing: dimensions below `-rank` (`bias_wraps`). -/
theorem bias_rejects_partial (s : List Nat) (hs : s ≠ []) (dims : List Int) (e : Int) (he : e ∈ dims) (hb : e = 0 ∨ e = -(s.length : Int) ∨ (s.length : Int) ≤ e) :
    calculateBiasShape s (some dims) = .error .value := by
  have hpos : 0 < s.length := List.length_pos_iff.mpr hs
  have key : ∀ (dims : List Int) (acc : List Nat), e ∈ dims → populate s dims acc = .error .value := by
    intro dims
    induction dims with
    | nil => intro acc h; cases h
    | cons x xs ih =>
      intro acc h
      unfold populate
      dsimp only
      rw [if_neg (by omega)]
      generalize hz : (if x < 0 then x.fmod s.length else x) = z
      split
      · rfl
      split
      · rfl
      rename_i n1 n2
      subst hz
      rcases List.mem_cons.mp h with rfl | h
      · exfalso
        rcases hb with rfl | rfl | hb
        · exact n1 rfl
        · rw [if_pos (by omega)] at n1
          apply n1
          rw [Int.fmod_eq_emod_of_nonneg _ (by omega), Int.neg_emod_self]
        · rw [if_neg (by omega)] at n2
          exact n2 hb
      · exact ih _ h
  cases dims with
  | nil => cases he
  | cons x xs =>
    show (populate s (x :: xs) _ >>= _) = _
    rw [key _ _ he]
    rfl

example : (3 : Int) ∈ ([1, 3] : List Int) ∧ ((([8, 3, 5] : List Nat).length : Int) ≤ 3) ∧ calculateBiasShape [8, 3, 5] (some [1, 3]) = .error .value := by decide

/-- C52 is violated below `-rank`: dimension -5 of an input of rank 3 is out of range but is taken as dimension 1. -/
theorem bias_wraps : calculateBiasShape [8, 3, 5] (some [-5]) = .ok [3, 1] := by decide

end Verif.Props.Bias
