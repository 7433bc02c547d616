import Verif.Base.Dict
import Verif.Model.Utils

/-!
# Argument helpers (C59)
-/

set_option linter.unusedVariables false

namespace Verif.Props.Utils
open Verif.Shapes (Err)
open Verif.Utils

variable {α β : Type}

/-- The value that an argument gives for dimension `i`: the same for all if there is only one. -/
def entry : Arg α → Nat → Option α
  | .scalar a, _ => some a
  | .seq [a], _ => some a
  | .seq l, i => l[i]?

/-- The lengths that `replicate` must accept. -/
def Fitting (a : Arg α) (n : Nat) : Prop :=
  match a with
  | .scalar _ => True
  | .seq l => l.length = 1 ∨ l.length = n

theorem flatten_single (a : α) : ∀ n, (List.replicate n [a]).flatten = List.replicate n a
  | 0 => rfl
  | n + 1 => by rw [List.replicate_succ, List.flatten_cons, flatten_single a n]; rfl

/-- C59 `replicate` succeeds exactly for a value, a sequence of length 1 and a sequence of length `num_times`; it then returns exactly `num_times` values, of which the `i`-th is the
`i`-th given one, or the only one; otherwise it raises a `TypeError`. -/
theorem replicate_entries (a : Arg α) (n : Nat) :
    (Fitting a n → ∃ l, replicate a n = .ok l ∧ l.length = n ∧ ∀ i < n, l[i]? = entry a i) ∧
    (¬ Fitting a n → replicate a n = .error .type) := by
  cases a with
  | scalar a =>
    refine ⟨fun _ => ⟨List.replicate n a, rfl, List.length_replicate .., fun i hi => ?_⟩, fun h => (h trivial).elim⟩
    rw [List.getElem?_replicate, if_pos hi]
    rfl
  | seq l =>
    constructor
    · intro h
      by_cases h1 : l.length = 1
      · obtain ⟨a, rfl⟩ := List.length_eq_one_iff.mp h1
        refine ⟨List.replicate n a, ?_, List.length_replicate .., fun i hi => ?_⟩
        · unfold replicate
          dsimp only
          rw [if_pos h1, Int.toNat_natCast, flatten_single]
        · rw [List.getElem?_replicate, if_pos hi]
          rfl
      · have h2 : l.length = n := h.resolve_left h1
        refine ⟨l, ?_, h2, fun i hi => ?_⟩
        · unfold replicate
          dsimp only
          rw [if_neg h1, if_pos (by rw [h2])]
        · match l with
          | [] => rfl
          | [a] => exact (h1 rfl).elim
          | a :: b :: l => rfl
    · intro h
      unfold replicate
      dsimp only
      rw [if_neg fun k => h (Or.inl k), if_neg fun k => h (Or.inr (by exact_mod_cast k))]

example : Fitting (.seq [1, 2, 3]) 3 ∧ Fitting (.seq [7]) 3 ∧ ¬ Fitting (.seq [1, 2]) 3 ∧ replicate (.seq [7]) 3 = .ok [7, 7, 7] := by
  refine ⟨Or.inr rfl, Or.inl rfl, fun h => ?_, by decide⟩
  rcases h with h | h <;> cases h

/-- The documented formats: `NC...`, `N...C`, `BT...D` and `TB...D`, with the channel letter nowhere else after the batch (and time) letters. -/
inductive Format : List Char → Int → Prop where
  | first (cs : List Char) : 'C' ∉ cs → Format ('N' :: 'C' :: cs) 1
  | last (cs : List Char) : 'C' ∉ cs → cs ≠ [] → Format ('N' :: (cs ++ ['C'])) (-1)
  | seqBT (cs : List Char) : 'D' ∉ cs → Format ('B' :: 'T' :: (cs ++ ['D'])) (-1)
  | seqTB (cs : List Char) : 'D' ∉ cs → Format ('T' :: 'B' :: (cs ++ ['D'])) (-1)
  | nameFirst : Format "channels_first".toList 1
  | nameLast : Format "channels_last".toList (-1)

theorem upToLast_iff (c : Char) : ∀ l : List Char, upToLast c l = true ↔ ∃ cs, c ∉ cs ∧ (l = cs ++ [c] ∨ l = cs ++ [c, '\n'])
  | [] => by
    refine ⟨(fun h => by cases h), fun ⟨cs, _, h⟩ => ?_⟩
    rcases h with h | h <;> cases cs <;> cases h
  | x :: xs => by
    unfold upToLast
    by_cases hx : x = c
    · subst hx
      rw [if_pos rfl]
      constructor
      · intro h
        rw [Bool.or_eq_true] at h
        rcases h with h | h
        · exact ⟨[], by simp, Or.inl (by rw [of_decide_eq_true h]; rfl)⟩
        · exact ⟨[], by simp, Or.inr (by rw [of_decide_eq_true h]; rfl)⟩
      · rintro ⟨cs, hc, h⟩
        cases cs with
        | nil =>
          rcases h with h | h
          · cases h; rfl
          · cases h; rfl
        | cons y ys =>
          rcases h with h | h <;> (cases h; exact (hc List.mem_cons_self).elim)
    · rw [if_neg hx, upToLast_iff c xs]
      constructor
      · rintro ⟨cs, hc, h⟩
        refine ⟨x :: cs, ?_, ?_⟩
        · rw [List.mem_cons]
          rintro (h | h)
          · exact hx h.symm
          · exact hc h
        · rcases h with h | h
          · exact Or.inl (by rw [h]; rfl)
          · exact Or.inr (by rw [h]; rfl)
      · rintro ⟨cs, hc, h⟩
        cases cs with
        | nil => rcases h with h | h <;> (cases h; exact (hx rfl).elim)
        | cons y ys =>
          refine ⟨ys, fun k => hc (List.mem_cons_of_mem _ k), ?_⟩
          rcases h with h | h
          · cases h; exact Or.inl rfl
          · cases h; exact Or.inr rfl

theorem first_iff (l : List Char) : spatialChannelsFirst l = true ↔ ∃ cs, 'C' ∉ cs ∧ l = 'N' :: 'C' :: cs := by
  unfold spatialChannelsFirst
  split
  · rename_i cs
    rw [List.all_eq_true]
    constructor
    · intro h
      exact ⟨cs, fun k => by simpa using h _ k, rfl⟩
    · rintro ⟨cs', h, e⟩
      cases e
      intro c hc
      exact decide_eq_true fun e => h (e ▸ hc)
  · rename_i h
    refine ⟨(fun k => by cases k), ?_⟩
    rintro ⟨cs, _, rfl⟩
    exact (h cs rfl).elim

theorem last_iff (l : List Char) : spatialChannelsLast l = true ↔ ∃ cs, 'C' ∉ cs ∧ (l = 'N' :: (cs ++ ['C']) ∨ l = 'N' :: (cs ++ ['C', '\n'])) := by
  unfold spatialChannelsLast
  split
  · rename_i cs
    rw [upToLast_iff]
    constructor
    · rintro ⟨cs', h, e⟩
      exact ⟨cs', h, e.imp (congrArg _) (congrArg _)⟩
    · rintro ⟨cs', h, e⟩
      exact ⟨cs', h, e.imp (fun k => (List.cons.inj k).2) (fun k => (List.cons.inj k).2)⟩
  · rename_i h
    refine ⟨(fun k => by cases k), ?_⟩
    rintro ⟨cs, _, rfl | rfl⟩ <;> exact (h _ rfl).elim

theorem seq_iff (l : List Char) : sequential l = true ↔ ∃ a b cs, ((a = 'B' ∧ b = 'T') ∨ (a = 'T' ∧ b = 'B')) ∧ 'D' ∉ cs ∧
    (l = a :: b :: (cs ++ ['D']) ∨ l = a :: b :: (cs ++ ['D', '\n'])) := by
  unfold sequential
  split
  · rename_i cs
    rw [upToLast_iff]
    constructor
    · rintro ⟨cs', h, e⟩
      exact ⟨'B', 'T', cs', Or.inl ⟨rfl, rfl⟩, h, e.imp (fun k => by rw [k]) (fun k => by rw [k])⟩
    · rintro ⟨a, b, cs', hab, h, e⟩
      refine ⟨cs', h, e.imp (fun k => ?_) (fun k => ?_)⟩ <;> exact (List.cons.inj (List.cons.inj k).2).2
  · rename_i cs
    rw [upToLast_iff]
    constructor
    · rintro ⟨cs', h, e⟩
      exact ⟨'T', 'B', cs', Or.inr ⟨rfl, rfl⟩, h, e.imp (fun k => by rw [k]) (fun k => by rw [k])⟩
    · rintro ⟨a, b, cs', hab, h, e⟩
      refine ⟨cs', h, e.imp (fun k => ?_) (fun k => ?_)⟩ <;> exact (List.cons.inj (List.cons.inj k).2).2
  · rename_i h1 h2
    refine ⟨(fun k => by cases k), ?_⟩
    rintro ⟨a, b, cs, hab, _, e⟩
    rcases hab with ⟨rfl, rfl⟩ | ⟨rfl, rfl⟩ <;> rcases e with rfl | rfl
    · exact (h1 _ rfl).elim
    · exact (h1 _ rfl).elim
    · exact (h2 _ rfl).elim
    · exact (h2 _ rfl).elim

/-- C59 For strings that do not end in a newline, `get_channel_index` returns the channel axis of every documented data format and raises a `ValueError` for every other string.
Missing: a documented format that ends with the channel letter is also accepted with a newline behind it (`channel_index_newline`). -/
theorem channel_index_partial (l : List Char) (hl : l.getLast? ≠ some '\n') :
    (∀ i, getChannelIndex l = .ok i ↔ Format l i) ∧ ((∀ i, ¬ Format l i) → getChannelIndex l = .error .value) := by
  have nl : ∀ (p : List Char) (c : Char), l ≠ p ++ [c, '\n'] := by
    rintro p c rfl
    apply hl
    have : p ++ [c, '\n'] = (p ++ [c]) ++ ['\n'] := by rw [List.append_assoc]; rfl
    rw [this, List.getLast?_concat]
  have key : ∀ i, getChannelIndex l = .ok i ↔ Format l i := by
    intro i
    unfold getChannelIndex
    split
    · rename_i h
      subst h
      refine ⟨fun k => by cases k; exact .nameFirst, fun k => ?_⟩
      generalize hg : "channels_first".toList = g at k
      cases k with
      | first cs h => exact absurd (congrArg List.head? hg) (by simp)
      | last cs h => exact absurd (congrArg List.head? hg) (by simp)
      | seqBT cs h => exact absurd (congrArg List.head? hg) (by simp)
      | seqTB cs h => exact absurd (congrArg List.head? hg) (by simp)
      | nameFirst => rfl
      | nameLast => exact absurd hg (by decide)
    split
    · rename_i h
      subst h
      refine ⟨fun k => by cases k; exact .nameLast, fun k => ?_⟩
      generalize hg : "channels_last".toList = g at k
      cases k with
      | first cs h => exact absurd (congrArg List.head? hg) (by simp)
      | last cs h => exact absurd (congrArg List.head? hg) (by simp)
      | seqBT cs h => exact absurd (congrArg List.head? hg) (by simp)
      | seqTB cs h => exact absurd (congrArg List.head? hg) (by simp)
      | nameFirst => exact absurd hg (by decide)
      | nameLast => rfl
    rename_i n1 n2
    split
    · rename_i h
      obtain ⟨cs, hc, rfl⟩ := (first_iff l).mp h
      refine ⟨fun k => by cases k; exact .first cs hc, fun k => ?_⟩
      generalize hg : 'N' :: 'C' :: cs = g at k
      cases k with
      | first cs h => rfl
      | last ds h hne =>
        cases ds with
        | nil => exact (hne rfl).elim
        | cons d ds =>
          rw [List.cons_append] at hg
          have := (List.cons.inj (List.cons.inj hg).2).1
          exact (h (this ▸ List.mem_cons_self)).elim
      | seqBT cs h => exact absurd (congrArg List.head? hg) (by simp)
      | seqTB cs h => exact absurd (congrArg List.head? hg) (by simp)
      | nameFirst => exact absurd (congrArg List.head? hg) (by simp)
      | nameLast => exact absurd (congrArg List.head? hg) (by simp)
    rename_i n3
    split
    · rename_i h
      obtain ⟨cs, hc, e⟩ := (last_iff l).mp h
      have e : l = 'N' :: (cs ++ ['C']) := e.resolve_right fun e => nl ('N' :: cs) 'C' e
      subst e
      have hne : cs ≠ [] := by
        rintro rfl
        exact n3 ((first_iff _).mpr ⟨[], by simp, rfl⟩)
      refine ⟨fun k => by cases k; exact .last cs hc hne, fun k => ?_⟩
      generalize hg : 'N' :: (cs ++ ['C']) = g at k n3
      cases k with
      | first cs h => exact (n3 ((first_iff _).mpr ⟨_, h, rfl⟩)).elim
      | last ds h hne => rfl
      | seqBT cs h => rfl
      | seqTB cs h => rfl
      | nameFirst => exact absurd (congrArg List.head? hg) (by simp)
      | nameLast => rfl
    rename_i n4
    split
    · rename_i h
      obtain ⟨a, b, cs, hab, hc, e⟩ := (seq_iff l).mp h
      have e : l = a :: b :: (cs ++ ['D']) := e.resolve_right fun e => nl (a :: b :: cs) 'D' e
      subst e
      refine ⟨fun k => ?_, fun k => ?_⟩
      · cases k
        rcases hab with ⟨rfl, rfl⟩ | ⟨rfl, rfl⟩
        · exact .seqBT cs hc
        · exact .seqTB cs hc
      · generalize hg : a :: b :: (cs ++ ['D']) = g at k n3 n1
        cases k with
        | first cs h => exact (n3 ((first_iff _).mpr ⟨_, h, rfl⟩)).elim
        | last ds h hne => rfl
        | seqBT cs h => rfl
        | seqTB cs h => rfl
        | nameFirst => exact (n1 rfl).elim
        | nameLast => rfl
    · rename_i n5
      refine ⟨(fun k => by cases k), fun k => ?_⟩
      cases k with
      | first cs h => exact (n3 ((first_iff _).mpr ⟨_, h, rfl⟩)).elim
      | last cs h _ => exact (n4 ((last_iff _).mpr ⟨cs, h, Or.inl rfl⟩)).elim
      | seqBT cs h => exact (n5 ((seq_iff _).mpr ⟨_, _, cs, Or.inl ⟨rfl, rfl⟩, h, Or.inl rfl⟩)).elim
      | seqTB cs h => exact (n5 ((seq_iff _).mpr ⟨_, _, cs, Or.inr ⟨rfl, rfl⟩, h, Or.inl rfl⟩)).elim
      | nameFirst => exact (n1 rfl).elim
      | nameLast => exact (n2 rfl).elim
  refine ⟨key, fun h => ?_⟩
  cases hg : getChannelIndex l with
  | ok i => exact (h i ((key i).mp hg)).elim
  | error e =>
    unfold getChannelIndex at hg
    split at hg
    · cases hg
    split at hg
    · cases hg
    split at hg
    · cases hg
    split at hg
    · cases hg
    split at hg
    · cases hg
    · cases hg; rfl

example : ("NHWC".toList).getLast? ≠ some '\n' ∧ Format "NHWC".toList (-1) ∧ getChannelIndex "NCHW".toList = .ok 1 ∧ getChannelIndex "NCHC".toList = .error .value := by
  refine ⟨by decide, .last ['H', 'W'] (by decide) (by decide), by decide, by decide⟩

/-- For a spatial format of either kind, the index that is returned points at the letter `C` (Python index: -1 is the last position). -/
theorem channel_letter (l : List Char) (i : Int) (h : Format l i) (hN : l.head? = some 'N') : (i = 1 ∧ l[1]? = some 'C') ∨ (i = -1 ∧ l.getLast? = some 'C') := by
  cases h with
  | first cs h => exact Or.inl ⟨rfl, rfl⟩
  | last cs h hne =>
    refine Or.inr ⟨rfl, ?_⟩
    rw [← List.cons_append, List.getLast?_concat]
  | seqBT cs h => exact absurd hN (by simp)
  | seqTB cs h => exact absurd hN (by simp)
  | nameFirst => exact absurd hN (by simp)
  | nameLast => exact absurd hN (by simp)

example : Format "NHWC".toList (-1) ∧ "NHWC".toList.head? = some 'N' := ⟨.last ['H', 'W'] (by decide) (by decide), by decide⟩

/-- C59 is violated by a trailing newline: `"NHWC\n"` is no documented format but is accepted, because `$` also matches before a final newline. -/
theorem channel_index_newline : getChannelIndex "NHWC\n".toList = .ok (-1) ∧ ∀ i, ¬ Format "NHWC\n".toList i := by
  refine ⟨by decide, fun i h => ?_⟩
  generalize hg : "NHWC\n".toList = g at h
  cases h with
  | first cs h => exact absurd (congrArg (fun l => l[1]?) hg) (by simp)
  | last cs h _ =>
    have := congrArg List.getLast? hg
    rw [← List.cons_append, List.getLast?_concat] at this
    exact absurd this (by decide)
  | seqBT cs h => exact absurd (congrArg List.head? hg) (by simp)
  | seqTB cs h => exact absurd (congrArg List.head? hg) (by simp)
  | nameFirst => exact absurd hg (by decide)
  | nameLast => exact absurd hg (by decide)

end Verif.Props.Utils
