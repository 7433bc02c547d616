import Verif.Lemmas.Names
import Mathlib.Tactic.Tauto

/-!
# Properties of module names (C13, C14, C15, C16, C17, part of C59)
-/

namespace Verif.Props.Names
open Verif Verif.Names

/-! ### Specification vocabulary -/

/-- ASCII letter, digit or underscore. -/
def IdChar (c : Char) : Prop := c.isAlphanum = true ∨ c = '_'

/-- A Python identifier (ASCII): non-empty, letters, digits and underscores, not starting with a digit. -/
def IsIdent (s : Str) : Prop := s ≠ [] ∧ (∀ c ∈ s, IdChar c) ∧ ∀ c, s.head? = some c → c.isDigit = false

/-- The string ends in an underscore followed by at least one digit. -/
def EndsInNumber (s : Str) : Prop := ∃ b ds, ds ≠ [] ∧ (∀ c ∈ ds, Char.isDigit c = true) ∧ s = b ++ '_' :: ds

/-- The successful results of a list of constructions. -/
def successes (rs : List (Except Exc Str)) : List Str := rs.filterMap fun | .ok q => some q | .error _ => none

/-- Results of a list of constructions in a fresh scope. -/
abbrev history (caller : Caller) (names : List Str) : List (Except Exc Str) := (requests caller .empty names).1

/-- The outcome of requesting `name` after the constructions `names` in the same scope. -/
abbrev outcome (caller : Caller) (names : List Str) (name : Str) : Except Exc Str :=
  (request caller (requests caller .empty names).2 name).1

/-! ### C17 -/

private theorem isIdStart_iff (c : Char) : isIdStart c = true ↔ (IdChar c ∧ c.isDigit = false) := by
  simp only [isIdStart, IdChar, Char.isAlphanum, Char.isAlpha, Char.isUpper, Char.isLower, Char.isDigit, Char.le_def,
    decide_eq_true_eq, Bool.or_eq_true, Bool.and_eq_true, Bool.and_eq_false_iff, decide_eq_false_iff_not,
    UInt32.le_iff_toNat_le, ge_iff_le]
  have e1 : ('a' : Char).val.toNat = 97 := rfl
  have e2 : ('z' : Char).val.toNat = 122 := rfl
  have e3 : ('A' : Char).val.toNat = 65 := rfl
  have e4 : ('Z' : Char).val.toNat = 90 := rfl
  have e5 : ('_' : Char).val.toNat = 95 := rfl
  have e6 : c = '_' ↔ c.val.toNat = 95 := by
    rw [← e5]; constructor
    · rintro rfl; rfl
    · intro h; exact Char.ext (UInt32.toNat_inj.1 h)
  rw [e6, e1, e2, e3, e4, show ('0' : Char).val.toNat = 48 from rfl, show ('9' : Char).val.toNat = 57 from rfl]
  omega

private theorem isIdChar_iff (c : Char) : isIdChar c = true ↔ IdChar c := by
  unfold isIdChar
  rw [decide_eq_true_eq, isIdStart_iff]
  simp only [IdChar, Char.isAlphanum, Char.isAlpha, Char.isUpper, Char.isLower, Char.isDigit, Char.le_def,
    decide_eq_true_eq, Bool.or_eq_true, Bool.and_eq_true, Bool.and_eq_false_iff, decide_eq_false_iff_not,
    UInt32.le_iff_toNat_le, ge_iff_le]
  have e1 : ('0' : Char).val.toNat = 48 := rfl
  have e2 : ('9' : Char).val.toNat = 57 := rfl
  have e5 : ('_' : Char).val.toNat = 95 := rfl
  have e6 : c = '_' ↔ c.val.toNat = 95 := by
    rw [← e5]; constructor
    · rintro rfl; rfl
    · intro h; exact Char.ext (UInt32.toNat_inj.1 h)
  rw [e6, e1, e2]
  omega

private theorem idChar_ne_nl {c : Char} (h : IdChar c) : c ≠ '\n' := by
  rintro rfl; revert h; simp [IdChar, Char.isAlphanum, Char.isAlpha, Char.isUpper, Char.isLower, Char.isDigit]

private theorem isIdent_strip (s : Str) :
    (match s with | [] => false | c :: cs => isIdStart c && cs.all isIdChar) = true ↔ IsIdent s := by
  cases s with
  | nil => simp [IsIdent]
  | cons c cs =>
    simp only [Bool.and_eq_true, List.all_eq_true, isIdStart_iff, isIdChar_iff, IsIdent]
    constructor
    · rintro ⟨⟨h1, h2⟩, h3⟩
      refine ⟨by simp, ?_, ?_⟩
      · intro x hx
        rcases List.mem_cons.1 hx with rfl | hx
        · exact h1
        · exact h3 x hx
      · intro x hx; simp at hx; subst hx; exact h2
    · rintro ⟨_, h2, h3⟩
      exact ⟨⟨h2 c (by simp), h3 c rfl⟩, fun x hx => h2 x (by simp [hx])⟩

/-- C17: exactly which strings `valid_identifier` accepts: identifiers, and identifiers followed by one newline. -/
theorem validIdentifier_iff (s : Str) :
    validIdentifier s = true ↔ IsIdent s ∨ ∃ t, s = t ++ ['\n'] ∧ IsIdent t := by
  unfold validIdentifier
  by_cases h : s.getLast? = some '\n'
  · obtain ⟨t, rfl⟩ := List.getLast?_eq_some_iff.1 h
    rw [stripNL_append_nl]
    constructor
    · intro ht; exact Or.inr ⟨t, rfl, (isIdent_strip t).1 ht⟩
    · rintro (ht | ⟨t', he, ht⟩)
      · exact absurd rfl (idChar_ne_nl (ht.2.1 '\n' (by simp)))
      · have := List.append_cancel_right he
        subst this; exact (isIdent_strip t).2 ht
  · rw [stripNL_of_last h]
    constructor
    · intro hs; exact Or.inl ((isIdent_strip s).1 hs)
    · rintro (hs | ⟨t, rfl, _⟩)
      · exact (isIdent_strip s).2 hs
      · simp at h

/-- C17 fails as stated: `"foo\n"` is accepted although it is not an identifier. -/
theorem validIdentifier_accepts_newline :
    ∃ s, validIdentifier s = true ∧ ¬ IsIdent s := by
  refine ⟨"foo\n".toList, by decide, fun h => ?_⟩
  exact idChar_ne_nl (h.2.1 '\n' (by decide)) rfl

/-- C17 for every string that does not end in a newline (missing: strings ending in a newline, see
`validIdentifier_accepts_newline`). -/
theorem validIdentifier_iff_partial (s : Str) (h : s.getLast? ≠ some '\n') :
    validIdentifier s = true ↔ IsIdent s := by
  rw [validIdentifier_iff]
  constructor
  · rintro (h' | ⟨t, rfl, _⟩)
    · exact h'
    · simp at h
  · exact Or.inl

example : ("linear_1".toList).getLast? ≠ some '\n' ∧ validIdentifier "linear_1".toList = true ∧
    validIdentifier "1x".toList = false ∧ validIdentifier "a/b".toList = false ∧ validIdentifier [] = false := by decide

/-! ### C13 -/

private theorem successes_not_used (caller : Caller) (names : List Str) (sc : Scope) :
    (∀ q ∈ successes (requests caller sc names).1, q ∉ sc.used) ∧ (successes (requests caller sc names).1).Nodup ∧
    ∀ q, q ∈ (requests caller sc names).2.used ↔ q ∈ sc.used ∨ q ∈ successes (requests caller sc names).1 := by
  induction names generalizing sc with
  | nil => simp [requests, successes]
  | cons n ns ih =>
    obtain ⟨h1, h2, h3⟩ := ih (request caller sc n).2
    rcases request_used caller sc n with ⟨q, hq, hn, hu⟩ | ⟨e, he, hu⟩
    · have hs : successes (requests caller sc (n :: ns)).1 =
          q :: successes (requests caller (request caller sc n).2 ns).1 := by
        simp [requests, successes, hq]
      rw [hs]
      refine ⟨?_, ?_, ?_⟩
      · intro x hx
        rcases List.mem_cons.1 hx with rfl | hx
        · exact hn
        · intro hx'; exact h1 x hx (by rw [hu]; exact List.mem_cons_of_mem _ hx')
      · rw [List.nodup_cons]
        exact ⟨fun hx => h1 q hx (by rw [hu]; simp), h2⟩
      · intro x
        show x ∈ (requests caller (request caller sc n).2 ns).2.used ↔ _
        rw [h3, hu]; simp only [List.mem_cons]
        constructor
        · rintro ((h | h) | h)
          · exact Or.inr (Or.inl h)
          · exact Or.inl h
          · exact Or.inr (Or.inr h)
        · rintro (h | h | h)
          · exact Or.inl (Or.inr h)
          · exact Or.inl (Or.inl h)
          · exact Or.inr h
    · have hs : successes (requests caller sc (n :: ns)).1 =
          successes (requests caller (request caller sc n).2 ns).1 := by
        simp [requests, successes, he]
      rw [hs]
      refine ⟨fun x hx hx' => h1 x hx (by rw [hu]; exact hx'), h2, ?_⟩
      intro x
      show x ∈ (requests caller (request caller sc n).2 ns).2.used ↔ _
      rw [h3, hu]

/-- C13: the modules constructed in one scope get pairwise different names, whatever names are requested and
whichever requests fail. -/
theorem names_unique (caller : Caller) (names : List Str) : (successes (history caller names)).Nodup :=
  (successes_not_used caller names .empty).2.1

example : history (some ("net".toList, sCall)) (["foo", "foo_3", "foo", "foo_3", "x y", "foo_1"].map String.toList) =
    [.ok "net/foo".toList, .ok "net/foo_3".toList, .ok "net/foo_4".toList, .error .nameNotUnique,
     .error .invalidName, .ok "net/foo_1".toList] := by decide

/-! ### C14, C15 -/

/-- The text in front of the last slash in names created for `caller`. -/
def pre (parent method : Str) : Str :=
  if method = sInit then parent ++ ['/', '~']
  else if method ≠ sCall then parent ++ '/' :: '~' :: method
  else parent

theorem withPrefix_some (parent method name : Str) :
    withPrefix (some (parent, method)) name = pre parent method ++ '/' :: name := by
  unfold withPrefix pre
  simp only
  split
  · simp
  · split <;> simp

private theorem withPrefix_injective {caller : Caller} {a b : Str} (h : withPrefix caller a = withPrefix caller b) :
    a = b := by
  cases caller with
  | none => exact h
  | some c =>
    obtain ⟨p, m⟩ := c
    rw [withPrefix_some, withPrefix_some] at h
    have := List.append_cancel_left h
    simpa using this

theorem splitNum_withPrefix (caller : Caller) {name : Str} (hne : name ≠ []) :
    splitNum (withPrefix caller name) = (splitNum name).map fun r => (withPrefix caller r.1, r.2) := by
  cases caller with
  | none =>
    show splitNum name = _
    cases splitNum name <;> rfl
  | some c =>
    obtain ⟨p, m⟩ := c
    rw [withPrefix_some, splitNum_append _ _ hne]
    cases splitNum name with
    | none => rfl
    | some r => simp [withPrefix_some]

theorem ident_ne_nl {s : Str} (h : IsIdent s) : s.getLast? ≠ some '\n' := fun hl =>
  idChar_ne_nl (h.2.1 '\n' (List.mem_of_getLast? hl)) rfl

theorem splitNum_none_iff {s : Str} (h : s.getLast? ≠ some '\n') : splitNum s = none ↔ ¬ EndsInNumber s := by
  constructor
  · rintro hs ⟨b, ds, hne, hd, rfl⟩
    have hrev : (b ++ '_' :: ds).reverse = ds.reverse ++ '_' :: b.reverse := by simp
    have hd' : ∀ x ∈ ds.reverse, Char.isDigit x = true := fun x hx => hd x (List.mem_reverse.1 hx)
    unfold splitNum at hs
    rw [stripNL_of_last h, hrev] at hs
    simp only [takeWhile_all_append hd' isDigit_underscore, dropWhile_all_append hd' isDigit_underscore] at hs
    cases hr : ds.reverse with
    | nil => exact hne (List.reverse_eq_nil_iff.1 hr)
    | cons x xs => rw [hr] at hs; simp at hs
  · intro hs
    cases hsp : splitNum s with
    | none => rfl
    | some p =>
      obtain ⟨b, n⟩ := p
      obtain ⟨ds, hne, hd, he, _⟩ := splitNum_some hsp
      rw [stripNL_of_last h] at he
      exact absurd ⟨b, ds, hne, hd, he⟩ hs

theorem splitNum_digits {b ds : Str} (hne : ds ≠ []) (hd : ∀ c ∈ ds, Char.isDigit c = true)
    (h : (b ++ '_' :: ds).getLast? ≠ some '\n') :
    splitNum (b ++ '_' :: ds) = some (b, Nat.ofDigitChars 10 ds 0) := by
  have hrev : (b ++ '_' :: ds).reverse = ds.reverse ++ '_' :: b.reverse := by simp
  have hd' : ∀ x ∈ ds.reverse, Char.isDigit x = true := fun x hx => hd x (List.mem_reverse.1 hx)
  unfold splitNum
  rw [stripNL_of_last h, hrev]
  simp only [takeWhile_all_append hd' isDigit_underscore, dropWhile_all_append hd' isDigit_underscore]
  cases hr : ds.reverse with
  | nil => exact absurd (List.reverse_eq_nil_iff.1 hr) hne
  | cons x xs =>
    simp only
    rw [← hr]; simp

/-- C14: requesting an identifier without numeric suffix succeeds after every history of the scope. -/
theorem auto_never_fails (caller : Caller) (hist : List Str) (name : Str) (hid : IsIdent name)
    (hn : ¬ EndsInNumber name) : ∃ q, outcome caller hist name = .ok q := by
  have hI := Scope.Inv.empty.requests caller hist
  have hs : splitNum (withPrefix caller name) = none := by
    rw [splitNum_withPrefix caller hid.1, (splitNum_none_iff (ident_ne_nl hid)).2 hn]; rfl
  unfold outcome request
  rw [if_pos ((validIdentifier_iff name).2 (Or.inl hid)), uniqueName_auto hs hI]
  exact ⟨_, rfl⟩

example : ∃ q, outcome none (["foo", "foo_3", "foo"].map String.toList) "foo".toList = .ok q :=
  auto_never_fails _ _ _ ⟨by decide, by simp [IdChar], by simp⟩ (by
    rw [← splitNum_none_iff (by decide)]; decide)

/-- C14: requesting `<b>_<digits>` fails exactly when that base with that number is already the name of a module
constructed in the scope. -/
theorem numbered_fails_iff (caller : Caller) (hist : List Str) (b ds : Str) (hid : IsIdent (b ++ '_' :: ds))
    (hne : ds ≠ []) (hd : ∀ c ∈ ds, Char.isDigit c = true) :
    outcome caller hist (b ++ '_' :: ds) = .error .nameNotUnique ↔
      withPrefix caller b ++ '_' :: (toString (Nat.ofDigitChars 10 ds 0)).toList ∈ successes (history caller hist) := by
  have hs : splitNum (withPrefix caller (b ++ '_' :: ds)) = some (withPrefix caller b, Nat.ofDigitChars 10 ds 0) := by
    rw [splitNum_withPrefix caller hid.1, splitNum_digits hne hd (ident_ne_nl hid)]; rfl
  have hstr : (toString (Nat.ofDigitChars 10 ds 0)).toList = Nat.toDigits 10 (Nat.ofDigitChars 10 ds 0) := by
    simp
  have hu := (successes_not_used caller hist .empty).2.2
    (fmt (withPrefix caller b) (Nat.ofDigitChars 10 ds 0))
  simp only [Scope.empty, List.not_mem_nil, false_or] at hu
  rw [hstr]
  show _ ↔ fmt (withPrefix caller b) (Nat.ofDigitChars 10 ds 0) ∈ _
  unfold history
  rw [show (requests caller .empty hist) = requests caller ⟨[], []⟩ hist from rfl, ← hu]
  unfold outcome request
  rw [if_pos ((validIdentifier_iff _).2 (Or.inl hid)), uniqueName_numbered hs]
  by_cases h : fmt (withPrefix caller b) (Nat.ofDigitChars 10 ds 0) ∈ (requests caller ⟨[], []⟩ hist).2.used
  · rw [if_pos (by exact h)]; exact ⟨fun _ => h, fun _ => rfl⟩
  · rw [if_neg (by exact h)]; exact ⟨fun he => (by simp at he), fun he => absurd he h⟩

example : outcome none (["foo", "foo"].map String.toList) "foo_01".toList = .error .nameNotUnique ∧
    outcome none (["foo"].map String.toList) "foo_1".toList = .ok "foo_1".toList := by decide

/-- C15: when a scope only ever requests identifiers without numeric suffix, the request for `name` after `k` earlier
requests for the same `name` is called `name` if `k = 0` and `name_k` otherwise. -/
theorem kth_name (caller : Caller) (hist : List Str) (name : Str)
    (hist_ok : ∀ n ∈ hist, IsIdent n ∧ ¬ EndsInNumber n) (hid : IsIdent name) (hn : ¬ EndsInNumber name) :
    outcome caller hist name =
      .ok (if hist.count name = 0 then withPrefix caller name
           else withPrefix caller name ++ '_' :: (toString (hist.count name)).toList) := by
  have auto : ∀ {n : Str}, IsIdent n → ¬ EndsInNumber n → splitNum (withPrefix caller n) = none := by
    intro n hid hn
    rw [splitNum_withPrefix caller hid.1, (splitNum_none_iff (ident_ne_nl hid)).2 hn]; rfl
  have hcount : ∀ (hist : List Str) (sc : Scope), sc.Inv → (∀ n ∈ hist, IsIdent n ∧ ¬ EndsInNumber n) →
      counterGet (requests caller sc hist).2.counters (withPrefix caller name) =
        counterGet sc.counters (withPrefix caller name) + hist.count name := by
    intro hist
    induction hist with
    | nil => intro sc _ _; rfl
    | cons m ms ih =>
      intro sc hI hok
      have hm := hok m (by simp)
      have h1 := ih (request caller sc m).2 (hI.request caller m) (fun n hn => hok n (by simp [hn]))
      show counterGet (requests caller (request caller sc m).2 ms).2.counters _ = _
      rw [h1]
      have h2 : (request caller sc m).2.counters =
          sc.counters.set (withPrefix caller m) (counterGet sc.counters (withPrefix caller m) + 1) := by
        unfold request
        rw [if_pos ((validIdentifier_iff m).2 (Or.inl hm.1)), uniqueName_auto (auto hm.1 hm.2) hI]
      rw [h2, counterGet_set]
      by_cases e : m = name
      · subst e; simp; omega
      · have : withPrefix caller m ≠ withPrefix caller name := fun h => e (withPrefix_injective h)
        simp [this, e]
  have hI := Scope.Inv.empty.requests caller hist
  have hc := hcount hist .empty Scope.Inv.empty hist_ok
  simp only [Scope.empty, counterGet, Dict.get?_nil, Option.getD_none, Nat.zero_add] at hc
  unfold outcome request
  rw [if_pos ((validIdentifier_iff name).2 (Or.inl hid)), uniqueName_auto (auto hid hn) hI]
  have hc' : counterGet (requests caller Scope.empty hist).2.counters (withPrefix caller name) = hist.count name := hc
  simp only [hc']
  congr 1
  by_cases h0 : hist.count name = 0
  · simp [h0]
  · simp [h0, fmt]

example : outcome (some ("mlp".toList, sInit)) (["linear", "relu", "linear"].map String.toList) "linear".toList =
    .ok "mlp/~/linear_2".toList := by decide

/-! ### C16 -/

/-- The full names of modules that can exist: constructed at top level, or inside a method of a module that exists. -/
inductive ModuleName : Str → Prop
  | top {sc sc' : Scope} {name q : Str} (h : request none sc name = (.ok q, sc')) : ModuleName q
  | nested {sc sc' : Scope} {parent method name q : Str} (hp : ModuleName parent) (hm : IsIdent method)
      (h : request (some (parent, method)) sc name = (.ok q, sc')) : ModuleName q

/-- Non-empty, without the separators. -/
def NoSep (s : Str) : Prop := s ≠ [] ∧ '/' ∉ s ∧ '~' ∉ s

private theorem idChar_noSep {c : Char} (h : IdChar c) : c ≠ '/' ∧ c ≠ '~' := by
  constructor <;> (rintro rfl; revert h; simp [IdChar, Char.isAlphanum, Char.isAlpha, Char.isUpper, Char.isLower, Char.isDigit])

theorem ident_noSep {s : Str} (h : IsIdent s) : NoSep s :=
  ⟨h.1, fun hm => (idChar_noSep (h.2.1 _ hm)).1 rfl, fun hm => (idChar_noSep (h.2.1 _ hm)).2 rfl⟩

theorem valid_noSep {s : Str} (h : validIdentifier s = true) : NoSep s := by
  rcases (validIdentifier_iff s).1 h with h' | ⟨t, rfl, ht⟩
  · exact ident_noSep h'
  · have := ident_noSep ht
    refine ⟨by simp, ?_, ?_⟩
    · simp [this.2.1]
    · simp [this.2.2]

private theorem digits_noSep (n : Nat) : '/' ∉ Nat.toDigits 10 n ∧ '~' ∉ Nat.toDigits 10 n := by
  constructor <;>
  · intro h
    have := Nat.isDigit_of_mem_toDigits (b := 10) (n := n) (by omega) (by omega) h
    revert this; decide

private theorem fmt_noSep {b : Str} (h : '/' ∉ b ∧ '~' ∉ b) (n : Nat) : NoSep (fmt b n) := by
  have hd := digits_noSep n
  refine ⟨by simp [fmt], ?_, ?_⟩ <;> simp [fmt, h.1, h.2, hd.1, hd.2]

/-- The local part of the name given to a module. -/
theorem request_local {caller : Caller} {sc sc' : Scope} {name q : Str}
    (h : request caller sc name = (.ok q, sc')) : ∃ l, NoSep l ∧ q = withPrefix caller l := by
  unfold request at h
  split at h
  · rename_i hv
    have hns := valid_noSep hv
    unfold uniqueName at h
    simp only at h
    split at h
    · simp at h
    · simp only [Prod.mk.injEq, Except.ok.injEq] at h
      obtain ⟨rfl, _⟩ := h
      unfold numbering
      cases hsp : splitNum name with
      | none =>
        rw [splitNum_withPrefix caller hns.1, hsp]
        simp only [Option.map_none]
        split
        · refine ⟨fmt name (counterGet sc.counters (withPrefix caller name)), fmt_noSep hns.2 _, ?_⟩
          cases caller with
          | none => rfl
          | some c => obtain ⟨p, m⟩ := c; simp [withPrefix_some, fmt]
        · exact ⟨name, hns, rfl⟩
      | some r =>
        obtain ⟨b, n⟩ := r
        rw [splitNum_withPrefix caller hns.1, hsp]
        obtain ⟨ds, _, _, he, _⟩ := splitNum_some hsp
        have hsub : ∀ c ∈ b, c ∈ name := by
          intro c hc
          have h1 : c ∈ stripNL name := by rw [he]; simp [hc]
          unfold stripNL at h1
          split at h1
          · exact List.dropLast_subset _ h1
          · exact h1
        refine ⟨fmt b n, fmt_noSep ⟨fun h => hns.2.1 (hsub _ h), fun h => hns.2.2 (hsub _ h)⟩ n, ?_⟩
        cases caller with
        | none => rfl
        | some c => obtain ⟨p, m⟩ := c; simp [withPrefix_some, fmt]
  · simp at h

private theorem last_component {a b x y : Str} (hx : '/' ∉ x) (hy : '/' ∉ y) (h : a ++ '/' :: x = b ++ '/' :: y) :
    a = b ∧ x = y := by
  have h' := congrArg List.reverse h
  simp only [List.reverse_append, List.reverse_cons, List.append_assoc, List.singleton_append] at h'
  have key : ∀ (x y a b : Str), '/' ∉ x → '/' ∉ y → x ++ '/' :: a = y ++ '/' :: b → x = y ∧ a = b := by
    intro x
    induction x with
    | nil =>
      intro y a b _ hy h
      cases y with
      | nil => simpa using h
      | cons c y => simp at h; exact absurd h.1 (by rintro rfl; simp at hy)
    | cons c x ih =>
      intro y a b hx hy h
      cases y with
      | nil => simp at h; exact absurd h.1 (by rintro rfl; simp at hx)
      | cons d y =>
        simp only [List.cons_append, List.cons.injEq] at h
        obtain ⟨rfl, h⟩ := h
        obtain ⟨rfl, rfl⟩ := ih y a b (fun hm => hx (by simp [hm])) (fun hm => hy (by simp [hm])) h
        exact ⟨rfl, rfl⟩
  obtain ⟨h1, h2⟩ := key _ _ _ _ (by simpa using hx) (by simpa using hy) h'
  exact ⟨List.reverse_inj.1 h2, List.reverse_inj.1 h1⟩

/-- The last component of an existing module's name is free of `/` and `~`. -/
private theorem moduleName_shape {q : Str} (h : ModuleName q) :
    NoSep q ∨ ∃ p l, NoSep l ∧ q = p ++ '/' :: l := by
  cases h with
  | top h =>
    obtain ⟨l, hl, rfl⟩ := request_local h
    exact Or.inl hl
  | nested hp hm h =>
    obtain ⟨l, hl, rfl⟩ := request_local h
    exact Or.inr ⟨_, l, hl, withPrefix_some _ _ _⟩

private theorem pre_injective {p p' m m' : Str} (hp : ModuleName p) (hp' : ModuleName p')
    (hm : IsIdent m) (hm' : IsIdent m') (h : pre p m = pre p' m') : p = p' ∧ m = m' := by
  have nm := ident_noSep hm
  have nm' := ident_noSep hm'
  -- a name ending in a component that starts with `~` is not a module name
  have tilde : ∀ {p p' t : Str}, ModuleName p → '/' ∉ t → p ≠ p' ++ '/' :: '~' :: t := by
    intro p p' t hp ht he
    rcases moduleName_shape hp with hl | ⟨a, l, hl, rfl⟩
    · rw [he] at hl; exact hl.2.1 (by simp)
    · obtain ⟨_, rfl⟩ := last_component hl.2.1 (by simp [ht]) he
      exact hl.2.2 (by simp)
  unfold pre at h
  by_cases h1 : m = sInit <;> by_cases h1' : m' = sInit
  · simp only [h1, h1', if_true] at h
    exact ⟨List.append_cancel_right h, by rw [h1, h1']⟩
  · simp only [h1, h1', if_true, if_false] at h
    by_cases h2 : m' = sCall
    · simp only [h2, ne_eq, not_true_eq_false, if_false] at h
      exact absurd h.symm (tilde (t := []) hp' (by simp))
    · simp only [h2, ne_eq, not_false_eq_true, if_true] at h
      have := last_component (x := ['~']) (y := '~' :: m') (by simp) (by simp [nm'.2.1]) h
      simp at this
      exact absurd this.2 nm'.1
  · simp only [h1, h1', if_true, if_false] at h
    by_cases h2 : m = sCall
    · simp only [h2, ne_eq, not_true_eq_false, if_false] at h
      exact absurd h (tilde (t := []) hp (by simp))
    · simp only [h2, ne_eq, not_false_eq_true, if_true] at h
      have := last_component (x := '~' :: m) (y := ['~']) (by simp [nm.2.1]) (by simp) h
      simp at this
      exact absurd this.2 nm.1
  · simp only [h1, h1', if_false] at h
    by_cases h2 : m = sCall <;> by_cases h2' : m' = sCall
    · simp only [h2, h2', ne_eq, not_true_eq_false, if_false] at h
      exact ⟨h, by rw [h2, h2']⟩
    · simp only [h2, h2', ne_eq, not_true_eq_false, not_false_eq_true, if_false, if_true] at h
      exact absurd h (tilde hp nm'.2.1)
    · simp only [h2, h2', ne_eq, not_true_eq_false, not_false_eq_true, if_false, if_true] at h
      exact absurd h.symm (tilde hp' nm.2.1)
    · simp only [h2, h2', ne_eq, not_false_eq_true, if_true] at h
      have := last_component (x := '~' :: m) (y := '~' :: m') (by simp [nm.2.1]) (by simp [nm'.2.1]) h
      simp at this
      exact this

/-- C16: a full module name determines the parent module and the method it was created in: modules created by
different owners (different parents, or different methods of the same parent, or top level versus nested) never get the same
full name, whatever the state of the scopes. -/
theorem full_name_determines_owner (c c' : Caller) (sc sc' t t' : Scope) (name name' q : Str)
    (hc : ∀ p m, c = some (p, m) → ModuleName p ∧ IsIdent m)
    (hc' : ∀ p m, c' = some (p, m) → ModuleName p ∧ IsIdent m)
    (h : request c sc name = (.ok q, t)) (h' : request c' sc' name' = (.ok q, t')) : c = c' := by
  obtain ⟨l, hl, rfl⟩ := request_local h
  obtain ⟨l', hl', he⟩ := request_local h'
  match c, c' with
  | none, none => rfl
  | none, some (p, m) =>
    rw [withPrefix_some] at he
    simp only [withPrefix] at he
    exact absurd (by rw [he]; simp) hl.2.1
  | some (p, m), none =>
    rw [withPrefix_some] at he
    simp only [withPrefix] at he
    exact absurd (by rw [← he]; simp) hl'.2.1
  | some (p, m), some (p', m') =>
    rw [withPrefix_some, withPrefix_some] at he
    obtain ⟨hp, _⟩ := last_component hl.2.1 hl'.2.1 he
    obtain ⟨rfl, rfl⟩ := pre_injective (hc p m rfl).1 (hc' p' m' rfl).1 (hc p m rfl).2 (hc' p' m' rfl).2 hp
    rfl

example : request (some ("net".toList, "encode".toList)) .empty "linear".toList =
      (.ok "net/~encode/linear".toList, ⟨[("net/~encode/linear".toList, 1)], ["net/~encode/linear".toList]⟩) ∧
    (request (some ("net".toList, sInit)) .empty "linear".toList).1 = .ok "net/~/linear".toList ∧
    (request (some ("net".toList, sCall)) .empty "linear".toList).1 = .ok "net/linear".toList := by decide

/-! ### camel_to_snake -/

private theorem toLower_cases (c : Char) (h : IdChar c) :
    IdChar c.toLower ∧ (c.toLower.isDigit = c.isDigit) ∧ isUpper c.toLower = false := by
  have e5 : ('_' : Char).val.toNat = 95 := rfl
  rcases h with h | rfl
  · by_cases hu : c.isUpper = true
    · have hn : 65 ≤ c.toNat ∧ c.toNat ≤ 90 := by
        simp only [Char.isUpper, Bool.and_eq_true, decide_eq_true_eq, UInt32.le_iff_toNat_le, ge_iff_le] at hu
        exact hu
      have key : ∀ n, 65 ≤ n → n ≤ 90 → IdChar (Char.ofNat n).toLower ∧
          ((Char.ofNat n).toLower.isDigit = (Char.ofNat n).isDigit) ∧ isUpper (Char.ofNat n).toLower = false := by
        intro n h1 h2
        have : n = 65 ∨ n = 66 ∨ n = 67 ∨ n = 68 ∨ n = 69 ∨ n = 70 ∨ n = 71 ∨ n = 72 ∨ n = 73 ∨ n = 74 ∨ n = 75 ∨ n = 76 ∨
          n = 77 ∨ n = 78 ∨ n = 79 ∨ n = 80 ∨ n = 81 ∨ n = 82 ∨ n = 83 ∨ n = 84 ∨ n = 85 ∨ n = 86 ∨ n = 87 ∨ n = 88 ∨
          n = 89 ∨ n = 90 := by omega
        unfold IdChar
        rcases this with h | h | h | h | h | h | h | h | h | h | h | h | h | h | h | h | h | h | h | h | h | h | h | h | h | h <;>
          subst h <;> decide
      have := key c.toNat hn.1 hn.2
      simpa using this
    · have hl : c.toLower = c := by
        unfold Char.toLower
        simp only [Char.isUpper, Bool.and_eq_true, decide_eq_true_eq, ge_iff_le] at hu
        split
        · rename_i h'; exact absurd h' (by simpa using hu)
        · rfl
      rw [hl]
      refine ⟨Or.inl h, rfl, ?_⟩
      simp only [Char.isUpper, isUpper, Char.le_def, Bool.and_eq_true, decide_eq_true_eq, decide_eq_false_iff_not,
        ge_iff_le, Bool.not_eq_true] at hu ⊢
      exact hu
  · refine ⟨Or.inr rfl, rfl, by decide⟩

/-- C59: the default name derived from a class name that is an identifier is an identifier without upper case
letters, so it is always accepted as a module name. -/
theorem camelToSnake_ident (s : Str) (h : IsIdent s) :
    IsIdent (camelToSnake s) ∧ (∀ c ∈ camelToSnake s, isUpper c = false) ∧ validIdentifier (camelToSnake s) = true := by
  have all : ∀ (s : Str) (prev : Option Char), (∀ c ∈ s, IdChar c) →
      ∀ c ∈ camelAux prev s, IdChar c ∧ isUpper c = false := by
    intro s
    induction s with
    | nil => intro _ _ c hc; simp [camelAux] at hc
    | cons x s ih =>
      intro prev hs c hc
      have hx := toLower_cases x (hs x (by simp))
      have hmem : c = '_' ∨ c = x.toLower ∨ c ∈ camelAux (some x) s := by
        unfold camelAux at hc
        simp only at hc
        generalize (isUpper x && _) = b at hc
        cases b <;> simp at hc <;> tauto
      rcases hmem with rfl | rfl | hc
      · exact ⟨Or.inr rfl, by decide⟩
      · exact ⟨hx.1, hx.2.2⟩
      · exact ih _ (fun c hc => hs c (by simp [hc])) c hc
  have hall := all s none h.2.1
  have hid : IsIdent (camelToSnake s) := by
    refine ⟨?_, fun c hc => (hall c hc).1, ?_⟩
    · cases s with
      | nil => exact absurd rfl h.1
      | cons x s => unfold camelToSnake camelAux; simp
    · intro c hc
      cases s with
      | nil => exact absurd rfl h.1
      | cons x s =>
        have hx := toLower_cases x (h.2.1 x (by simp))
        unfold camelToSnake camelAux at hc
        simp at hc
        rw [← hc, hx.2.1]
        exact h.2.2 x rfl
  exact ⟨hid, fun c hc => (hall c hc).2, (validIdentifier_iff _).2 (Or.inl hid)⟩

example : camelToSnake "Conv2DTranspose".toList = "conv2_d_transpose".toList ∧
    camelToSnake "HTTPServer".toList = "http_server".toList ∧ camelToSnake "LSTM".toList = "lstm".toList := by decide

end Verif.Props.Names
