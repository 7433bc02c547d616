import Verif.Model.Names

/-! Helper lemmas about module names. -/

namespace Verif.Names

theorem isDigit_ne_nl {c : Char} (h : c.isDigit = true) : c ≠ '\n' := by
  rintro rfl; simp [Char.isDigit] at h

theorem isDigit_underscore : Char.isDigit '_' = false := by decide

theorem stripNL_of_last {s : Str} (h : s.getLast? ≠ some '\n') : stripNL s = s := by simp [stripNL, h]

theorem stripNL_append_nl (s : Str) : stripNL (s ++ ['\n']) = s := by simp [stripNL]

theorem getLast?_fmt (b : Str) (n : Nat) : (fmt b n).getLast? ≠ some '\n' := by
  intro h
  have hne : Nat.toDigits 10 n ≠ [] := Nat.toDigits_ne_nil
  rw [fmt, List.getLast?_append, List.getLast?_cons] at h
  obtain ⟨c, hc⟩ : ∃ c, (Nat.toDigits 10 n).getLast? = some c := by
    cases hl : (Nat.toDigits 10 n).getLast? with
    | none => exact absurd (List.getLast?_eq_none_iff.1 hl) hne
    | some c => exact ⟨c, rfl⟩
  rw [hc] at h
  simp at h
  subst h
  have := Nat.isDigit_of_mem_toDigits (b := 10) (n := n) (by omega) (by omega) (List.mem_of_getLast? hc)
  exact isDigit_ne_nl this rfl

theorem takeWhile_all_append {p : Char → Bool} {a : List Char} {c : Char} {b : List Char}
    (ha : ∀ x ∈ a, p x = true) (hc : p c = false) : (a ++ c :: b).takeWhile p = a := by
  induction a with
  | nil => simp [hc]
  | cons x a ih =>
    simp only [List.cons_append, List.takeWhile_cons, ha x (by simp), if_true]
    rw [ih (fun y hy => ha y (by simp [hy]))]

theorem dropWhile_all_append {p : Char → Bool} {a : List Char} {c : Char} {b : List Char}
    (ha : ∀ x ∈ a, p x = true) (hc : p c = false) : (a ++ c :: b).dropWhile p = c :: b := by
  induction a with
  | nil => simp [hc]
  | cons x a ih =>
    simp only [List.cons_append, List.dropWhile_cons, ha x (by simp), if_true]
    exact ih (fun y hy => ha y (by simp [hy]))

/-- `re.split` recovers base and number from `f"{base}_{n}"`. -/
theorem splitNum_fmt (b : Str) (n : Nat) : splitNum (fmt b n) = some (b, n) := by
  have hd : ∀ x ∈ (Nat.toDigits 10 n).reverse, Char.isDigit x = true := fun x hx =>
    Nat.isDigit_of_mem_toDigits (b := 10) (n := n) (by omega) (by omega) (List.mem_reverse.1 hx)
  have hrev : (fmt b n).reverse = (Nat.toDigits 10 n).reverse ++ '_' :: b.reverse := by
    simp [fmt]
  unfold splitNum
  rw [stripNL_of_last (getLast?_fmt b n), hrev]
  simp only [takeWhile_all_append hd isDigit_underscore, dropWhile_all_append hd isDigit_underscore]
  cases hr : (Nat.toDigits 10 n).reverse with
  | nil => exact absurd (List.reverse_eq_nil_iff.1 hr) Nat.toDigits_ne_nil
  | cons x xs =>
    simp only
    rw [← hr]
    simp [Nat.ofDigitChars_ten_toDigits]

theorem fmt_injective {b b' : Str} {n n' : Nat} (h : fmt b n = fmt b' n') : b = b' ∧ n = n' := by
  have := splitNum_fmt b n
  rw [h, splitNum_fmt] at this
  simp at this
  exact ⟨this.1.symm, this.2.symm⟩

/-- The text form of a numbered request: what `splitNum` accepts is `base ++ "_" ++ digits` (up to a final newline). -/
theorem splitNum_some {s b : Str} {n : Nat} (h : splitNum s = some (b, n)) :
    ∃ ds, ds ≠ [] ∧ (∀ c ∈ ds, Char.isDigit c = true) ∧ stripNL s = b ++ '_' :: ds ∧
      n = Nat.ofDigitChars 10 ds 0 := by
  unfold splitNum at h
  simp only at h
  split at h
  · simp at h
  · rename_i x xs rest hdig hdrop
    simp only [Option.some.injEq, Prod.mk.injEq] at h
    refine ⟨((stripNL s).reverse.takeWhile Char.isDigit).reverse, ?_, ?_, ?_, ?_⟩
    · rw [hdig]; simp
    · intro c hc
      have hc' := List.mem_reverse.1 hc
      have : ∀ (l : List Char), c ∈ l.takeWhile Char.isDigit → Char.isDigit c = true := by
        intro l
        induction l with
        | nil => simp
        | cons y l ih =>
          rw [List.takeWhile_cons]
          split
          · rename_i hy
            intro hm
            rcases List.mem_cons.1 hm with e | hm
            · rw [e]; exact hy
            · exact ih hm
          · simp
      exact this _ hc'
    · have h1 := List.takeWhile_append_dropWhile (p := Char.isDigit) (l := (stripNL s).reverse)
      rw [hdrop] at h1
      have h2 := congrArg List.reverse h1
      rw [List.reverse_reverse] at h2
      rw [← h.1]
      refine h2.symm.trans ?_
      simp
    · rw [← h.2]
  · simp at h

/-! ### `uniqueName` -/

/-- The reachable scopes: every used name has its number below the counter of its base. -/
def Scope.Inv (sc : Scope) : Prop :=
  ∀ q ∈ sc.used, ∃ b n, n < counterGet sc.counters b ∧
    (q = fmt b n ∨ (q = b ∧ splitNum b = none))

theorem Scope.Inv.empty : Scope.Inv Scope.empty := by intro q hq; simp [Scope.empty] at hq

theorem counterGet_set (c : Dict Str Nat) (b b' : Str) (n : Nat) :
    counterGet (c.set b n) b' = if b = b' then n else counterGet c b' := by
  unfold counterGet
  rw [Dict.get?_set]
  split <;> simp

/-- Counters never decrease. -/
theorem counterGet_uniqueName_le (sc : Scope) (name b : Str) :
    counterGet sc.counters b ≤ counterGet (uniqueName sc name).2.counters b := by
  have hn : counterGet sc.counters b ≤ counterGet (numbering sc.counters name).2 b := by
    unfold numbering
    cases h : splitNum name with
    | some p =>
      obtain ⟨b', n⟩ := p
      simp only [counterGet_set]
      split
      · rename_i e; subst e; omega
      · omega
    | none =>
      simp only [counterGet_set]
      split
      · rename_i e; subst e; omega
      · omega
  unfold uniqueName
  simp only
  split <;> exact hn

theorem uniqueName_auto {sc : Scope} {name : Str} (h : splitNum name = none) (hI : sc.Inv) :
    uniqueName sc name =
      (.ok (if counterGet sc.counters name ≠ 0 then fmt name (counterGet sc.counters name) else name),
       ⟨sc.counters.set name (counterGet sc.counters name + 1),
        (if counterGet sc.counters name ≠ 0 then fmt name (counterGet sc.counters name) else name) :: sc.used⟩) := by
  have hnot : (if counterGet sc.counters name ≠ 0 then fmt name (counterGet sc.counters name) else name) ∉ sc.used := by
    intro hq
    obtain ⟨b, n, hn, hb⟩ := hI _ hq
    by_cases h0 : counterGet sc.counters name = 0
    · simp only [h0, ne_eq, not_true_eq_false, if_false] at hb
      rcases hb with hb | ⟨hb, _⟩
      · rw [hb, splitNum_fmt] at h; simp at h
      · subst hb; omega
    · simp only [h0, ne_eq, not_false_eq_true, if_true] at hb
      rcases hb with hb | ⟨hb, hs⟩
      · obtain ⟨rfl, rfl⟩ := fmt_injective hb; omega
      · rw [← hb, splitNum_fmt] at hs; simp at hs
  simp only [uniqueName, numbering, h]
  rw [if_neg hnot]

theorem uniqueName_numbered {sc : Scope} {name b : Str} {n : Nat} (h : splitNum name = some (b, n)) :
    uniqueName sc name =
      if fmt b n ∈ sc.used then
        (.error .nameNotUnique, ⟨sc.counters.set b (max (counterGet sc.counters b) (n + 1)), sc.used⟩)
      else (.ok (fmt b n), ⟨sc.counters.set b (max (counterGet sc.counters b) (n + 1)), fmt b n :: sc.used⟩) := by
  simp only [uniqueName, numbering, h]

theorem Scope.Inv.uniqueName {sc : Scope} (hI : sc.Inv) (name : Str) : (uniqueName sc name).2.Inv := by
  have hmono := counterGet_uniqueName_le sc name
  have hold : ∀ q ∈ sc.used, ∃ b n, n < counterGet (Names.uniqueName sc name).2.counters b ∧
      (q = fmt b n ∨ (q = b ∧ splitNum b = none)) := by
    intro q hq
    obtain ⟨b, n, hn, hb⟩ := hI q hq
    exact ⟨b, n, Nat.lt_of_lt_of_le hn (hmono b), hb⟩
  cases h : splitNum name with
  | some p =>
    obtain ⟨b, n⟩ := p
    rw [uniqueName_numbered h] at hold ⊢
    split
    · rename_i hm
      rw [if_pos hm] at hold
      exact hold
    · rename_i hm
      rw [if_neg hm] at hold
      intro q hq
      rcases List.mem_cons.1 hq with rfl | hq
      · refine ⟨b, n, ?_, Or.inl rfl⟩
        simp only [counterGet_set, if_true]; omega
      · exact hold q hq
  | none =>
    rw [uniqueName_auto h hI] at hold ⊢
    intro q hq
    rcases List.mem_cons.1 hq with rfl | hq
    · refine ⟨name, counterGet sc.counters name, ?_, ?_⟩
      · simp only [counterGet_set, if_true]; omega
      · split
        · exact Or.inl rfl
        · exact Or.inr ⟨rfl, h⟩
    · exact hold q hq

/-- `used` after a request: the new name on success, unchanged on failure; the new name was not used. -/
theorem uniqueName_used (sc : Scope) (name : Str) :
    (∃ q, (uniqueName sc name).1 = .ok q ∧ q ∉ sc.used ∧ (uniqueName sc name).2.used = q :: sc.used) ∨
    ((uniqueName sc name).1 = .error .nameNotUnique ∧ (uniqueName sc name).2.used = sc.used) := by
  unfold uniqueName
  simp only
  split
  · exact Or.inr ⟨rfl, rfl⟩
  · rename_i h
    exact Or.inl ⟨_, rfl, h, rfl⟩

theorem request_used (caller : Caller) (sc : Scope) (name : Str) :
    (∃ q, (request caller sc name).1 = .ok q ∧ q ∉ sc.used ∧ (request caller sc name).2.used = q :: sc.used) ∨
    (∃ e, (request caller sc name).1 = .error e ∧ (request caller sc name).2.used = sc.used) := by
  unfold request
  split
  · rcases uniqueName_used sc (withPrefix caller name) with h | h
    · exact Or.inl h
    · exact Or.inr ⟨_, h⟩
  · exact Or.inr ⟨_, rfl, rfl⟩

theorem Scope.Inv.request {sc : Scope} (hI : sc.Inv) (caller : Caller) (name : Str) :
    (request caller sc name).2.Inv := by
  unfold Names.request
  split
  · exact hI.uniqueName _
  · exact hI

theorem Scope.Inv.requests {sc : Scope} (hI : sc.Inv) (caller : Caller) (names : List Str) :
    (requests caller sc names).2.Inv := by
  induction names generalizing sc with
  | nil => exact hI
  | cons n ns ih => exact ih (hI.request caller n)

/-! ### the numeric suffix is in the local part of the name -/

theorem splitNum_append (p s : Str) (hs : s ≠ []) :
    splitNum (p ++ '/' :: s) = (splitNum s).map (fun r => (p ++ '/' :: r.1, r.2)) := by
  have hstrip : stripNL (p ++ '/' :: s) = p ++ '/' :: stripNL s := by
    unfold stripNL
    have : (p ++ '/' :: s).getLast? = s.getLast? := by
      rw [List.getLast?_append, List.getLast?_cons]
      cases h : s.getLast? with
      | none => exact absurd (List.getLast?_eq_none_iff.1 h) hs
      | some c => simp
    rw [this]
    split
    · rw [List.dropLast_append_of_ne_nil (by simp), List.dropLast_cons_of_ne_nil hs]
    · rfl
  unfold splitNum
  rw [hstrip]
  have hrev : (p ++ '/' :: stripNL s).reverse = (stripNL s).reverse ++ '/' :: p.reverse := by simp
  rw [hrev]
  generalize (stripNL s).reverse = r
  have htw : (r ++ '/' :: p.reverse).takeWhile Char.isDigit = r.takeWhile Char.isDigit := by
    induction r with
    | nil => simp [show Char.isDigit '/' = false by decide]
    | cons c r ih => simp only [List.cons_append, List.takeWhile_cons, ih]
  have hdw : (r ++ '/' :: p.reverse).dropWhile Char.isDigit = r.dropWhile Char.isDigit ++ '/' :: p.reverse := by
    clear htw hrev hstrip hs
    induction r with
    | nil => simp [show Char.isDigit '/' = false by decide]
    | cons c r ih =>
      simp only [List.cons_append, List.dropWhile_cons]
      split
      · exact ih
      · rfl
  simp only [htw, hdw]
  cases hd : r.takeWhile Char.isDigit with
  | nil => simp
  | cons x xs =>
    cases hw : r.dropWhile Char.isDigit with
    | nil => simp
    | cons y ys =>
      by_cases hy : y = '_'
      · subst hy; simp
      · simp only [List.cons_append]
        split <;> (try split) <;> simp_all

end Verif.Names
