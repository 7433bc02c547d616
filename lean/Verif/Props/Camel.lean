import Verif.Base.Dict
import Verif.Props.Names

/-!
# The default name of a module (C81)
-/

namespace Verif.Props.Camel
open Verif.Names

/-! ### Specification -/

/-- An ASCII upper case letter. -/
def Upper (c : Char) : Prop := 'A' ≤ c ∧ c ≤ 'Z'

/-- An ASCII lower case letter. -/
def Lower (c : Char) : Prop := 'a' ≤ c ∧ c ≤ 'z'

/-- A lower case letter or a digit. -/
def Small (c : Char) : Prop := Lower c ∨ ('0' ≤ c ∧ c ≤ '9')

/-- An abbreviation of upper case letters, which may be missing, and a word of an upper case letter, a lower case letter and any number of lower case letters and digits. -/
structure Part where
  abbr : Str
  first : Char
  second : Char
  rest : Str

/-- The letters are as described. -/
def Part.Ok (p : Part) : Prop := (∀ c ∈ p.abbr, Upper c) ∧ Upper p.first ∧ Lower p.second ∧ ∀ c ∈ p.rest, Small c

/-- The part as it is written in a class name. -/
def Part.text (p : Part) : Str := p.abbr ++ p.first :: p.second :: p.rest

/-- The words of a part, in lower case. -/
def Part.words (p : Part) : List Str := (if p.abbr = [] then [] else [p.abbr.map Char.toLower]) ++ [p.first.toLower :: p.second :: p.rest]

/-- An abbreviation at the end, which may be missing. -/
def lastWord (a : Str) : List Str := if a = [] then [] else [a.map Char.toLower]

/-- The words with underscores between them. -/
def joined : List Str → Str
  | [] => []
  | [w] => w
  | w :: ws => w ++ '_' :: joined ws

/-! ### Proof -/

theorem upper_iff {c : Char} : isUpper c = true ↔ Upper c := by
  unfold isUpper Upper
  exact decide_eq_true_iff

theorem lower_iff {c : Char} : isLower c = true ↔ Lower c := by
  unfold isLower Lower
  exact decide_eq_true_iff

theorem small_iff {c : Char} : (isLower c || decide ('0' ≤ c ∧ c ≤ '9')) = true ↔ Small c := by
  unfold Small
  rw [Bool.or_eq_true, lower_iff, decide_eq_true_iff]

theorem val_le {a b : Char} : a ≤ b ↔ a.toNat ≤ b.toNat := by
  rw [Char.le_def, UInt32.le_iff_toNat_le]
  rfl

theorem upper_not_small {c : Char} (h : Upper c) : ¬Small c := by
  obtain ⟨h1, h2⟩ := h
  rw [val_le] at h1 h2
  change 65 ≤ _ at h1
  change _ ≤ 90 at h2
  rintro (⟨h3, h4⟩ | ⟨h3, h4⟩)
  · rw [val_le] at h3
    change 97 ≤ _ at h3
    omega
  · rw [val_le] at h4
    change _ ≤ 57 at h4
    omega

theorem small_lower {c : Char} (h : Small c) : c.toLower = c := by
  have : ¬Upper c := fun k => upper_not_small k h
  unfold Char.toLower
  split
  · rename_i h'
    exact absurd (show Upper c from by
      unfold Upper
      rw [val_le, val_le]
      simpa [UInt32.le_iff_toNat_le] using h') this
  · rfl

/-- The first characters decide whether an underscore is put. -/
def after (prev : Option Char) : Bool :=
  match prev with
  | some p => isLower p || ('0' ≤ p ∧ p ≤ '9')
  | none => false

/-- A lower case letter is next. -/
def before (prev : Option Char) (cs : Str) : Bool := prev.isSome && (match cs with | d :: _ => isLower d | [] => false)

theorem aux_cons (prev : Option Char) (c : Char) (cs : Str) :
    camelAux prev (c :: cs) = if (isUpper c && (after prev || before prev cs)) = true then '_' :: c.toLower :: camelAux (some c) cs else c.toLower :: camelAux (some c) cs := rfl

/-- No underscore before a character that is not an upper case letter. -/
theorem aux_small {prev : Option Char} {c : Char} {cs : Str} (h : Small c) : camelAux prev (c :: cs) = c :: camelAux (some c) cs := by
  have : isUpper c = false := by
    rw [Bool.eq_false_iff]
    intro k
    exact upper_not_small (upper_iff.mp k) h
  rw [aux_cons]
  simp only [this, Bool.false_and, Bool.false_eq_true, if_false, small_lower h]

/-- What precedes does not ask for an underscore. -/
def Quiet : Option Char → Prop
  | none => True
  | some p => ¬Small p

/-- Inside an abbreviation there is no underscore. -/
theorem aux_upper {prev : Option Char} {c : Char} {cs : Str} (hp : Quiet prev) (hcs : ∀ d ∈ cs.head?, ¬Lower d) : camelAux prev (c :: cs) = c.toLower :: camelAux (some c) cs := by
  rw [aux_cons, if_neg]
  intro k
  rw [Bool.and_eq_true, Bool.or_eq_true] at k
  rcases k.2 with k | k
  · cases prev with
    | none => cases k
    | some p => exact hp (small_iff.mp k)
  · unfold before at k
    rw [Bool.and_eq_true] at k
    cases cs with
    | nil => cases k.2
    | cons d ds => exact hcs d rfl (lower_iff.mp k.2)

/-- After a lower case letter or a digit there is an underscore. -/
theorem aux_after {p c : Char} {cs : Str} (hp : Small p) (hc : Upper c) : camelAux (some p) (c :: cs) = '_' :: c.toLower :: camelAux (some c) cs := by
  rw [aux_cons, if_pos]
  rw [Bool.and_eq_true, Bool.or_eq_true]
  exact ⟨upper_iff.mpr hc, Or.inl (small_iff.mpr hp)⟩

/-- Before an upper case letter with a lower case letter after it there is an underscore, unless it is first. -/
theorem aux_before {p c d : Char} {cs : Str} (hc : Upper c) (hd : Lower d) : camelAux (some p) (c :: d :: cs) = '_' :: c.toLower :: camelAux (some c) (d :: cs) := by
  rw [aux_cons, if_pos]
  rw [Bool.and_eq_true, Bool.or_eq_true]
  exact ⟨upper_iff.mpr hc, Or.inr (by unfold before; rw [Bool.and_eq_true]; exact ⟨rfl, lower_iff.mpr hd⟩)⟩

theorem aux_none {c : Char} {cs : Str} : camelAux none (c :: cs) = c.toLower :: camelAux (some c) cs := by
  rw [aux_cons, if_neg]
  simp [after, before]

theorem aux_smalls : ∀ {t cs : Str} {p : Char}, Small p → (∀ c ∈ t, Small c) → ∃ q, Small q ∧ camelAux (some p) (t ++ cs) = t ++ camelAux (some q) cs
  | [], cs, p, hp, _ => ⟨p, hp, rfl⟩
  | c :: t, cs, p, hp, ht => by
    obtain ⟨q, hq, h⟩ := aux_smalls (cs := cs) (ht c (List.mem_cons_self)) fun d hd => ht d (List.mem_cons_of_mem _ hd)
    refine ⟨q, hq, ?_⟩
    rw [List.cons_append, aux_small (ht c List.mem_cons_self), h]
    rfl

theorem aux_uppers : ∀ {a cs : Str} {p : Char}, Upper p → (∀ c ∈ a, Upper c) → (∀ d ∈ cs.head?, ¬Lower d) → ∃ q, Upper q ∧ camelAux (some p) (a ++ cs) = a.map Char.toLower ++ camelAux (some q) cs
  | [], cs, p, hp, _, _ => ⟨p, hp, rfl⟩
  | c :: a, cs, p, hp, ha, hcs => by
    have ha' : ∀ d ∈ a, Upper d := fun d hd => ha d (List.mem_cons_of_mem _ hd)
    obtain ⟨q, hq, h⟩ := aux_uppers (cs := cs) (ha c List.mem_cons_self) ha' hcs
    refine ⟨q, hq, ?_⟩
    rw [List.cons_append, aux_upper (show Quiet (some p) from upper_not_small hp) ?_, h]
    · rfl
    · intro d hd
      cases a with
      | nil => exact hcs d hd
      | cons b a =>
        cases hd
        exact fun k => upper_not_small (ha' _ List.mem_cons_self) (Or.inl k)

theorem joined_cons (w : Str) {ws : List Str} (h : ws ≠ []) : joined (w :: ws) = w ++ '_' :: joined ws := by
  cases ws with
  | nil => exact absurd rfl h
  | cons _ _ => rfl

/-- The words each with an underscore before it. -/
def led (ws : List Str) : Str := ws.flatMap fun w => '_' :: w

theorem joined_led (w : Str) : ∀ ws : List Str, joined (w :: ws) = w ++ led ws
  | [] => (List.append_nil w).symm
  | v :: ws => by
    rw [joined_cons w (by simp), joined_led v ws]
    rfl

theorem led_append (a b : List Str) : led (a ++ b) = led a ++ led b := List.flatMap_append

/-- A part after a lower case letter or a digit. -/
theorem part_after {p : Part} (hp : p.Ok) {c : Char} (hc : Small c) (cs : Str) : ∃ q, Small q ∧ camelAux (some c) (p.text ++ cs) = led p.words ++ camelAux (some q) cs := by
  obtain ⟨h1, h2, h3, h4⟩ := hp
  unfold Part.text Part.words
  obtain ⟨q, hq, ht⟩ := aux_smalls (cs := cs) (Or.inl h3 : Small p.second) h4
  refine ⟨q, hq, ?_⟩
  cases ha : p.abbr with
  | nil =>
    show camelAux (some c) (p.first :: p.second :: (p.rest ++ cs)) = _
    rw [aux_after hc h2, aux_small (Or.inl h3), ht]
    simp [led]
  | cons a as =>
    rw [ha] at h1
    have hl : ∀ d ∈ (p.first :: p.second :: (p.rest ++ cs)).head?, ¬Lower d := by
      intro d hd
      cases hd
      exact fun k => upper_not_small h2 (Or.inl k)
    obtain ⟨r, hr, hu⟩ := aux_uppers (cs := p.first :: p.second :: (p.rest ++ cs)) (h1 a List.mem_cons_self) (fun d hd => h1 d (List.mem_cons_of_mem _ hd)) hl
    rw [List.append_assoc]
    show camelAux (some c) (a :: (as ++ (p.first :: p.second :: (p.rest ++ cs)))) = _
    rw [aux_after hc (h1 a List.mem_cons_self), hu, aux_before h2 h3, aux_small (Or.inl h3), ht]
    simp [led]

/-- A part at the start of the name. -/
theorem part_first {p : Part} (hp : p.Ok) (cs : Str) : ∃ q, Small q ∧ ∃ w ws, p.words = w :: ws ∧ camelAux none (p.text ++ cs) = w ++ led ws ++ camelAux (some q) cs := by
  obtain ⟨h1, h2, h3, h4⟩ := hp
  unfold Part.text Part.words
  obtain ⟨q, hq, ht⟩ := aux_smalls (cs := cs) (Or.inl h3 : Small p.second) h4
  refine ⟨q, hq, ?_⟩
  cases ha : p.abbr with
  | nil =>
    refine ⟨_, _, rfl, ?_⟩
    show camelAux none (p.first :: p.second :: (p.rest ++ cs)) = _
    rw [aux_none, aux_small (Or.inl h3), ht]
    simp [led]
  | cons a as =>
    refine ⟨_, _, rfl, ?_⟩
    rw [ha] at h1
    have hl : ∀ d ∈ (p.first :: p.second :: (p.rest ++ cs)).head?, ¬Lower d := by
      intro d hd
      cases hd
      exact fun k => upper_not_small h2 (Or.inl k)
    obtain ⟨r, hr, hu⟩ := aux_uppers (cs := p.first :: p.second :: (p.rest ++ cs)) (h1 a List.mem_cons_self) (fun d hd => h1 d (List.mem_cons_of_mem _ hd)) hl
    rw [List.append_assoc]
    show camelAux none (a :: (as ++ (p.first :: p.second :: (p.rest ++ cs)))) = _
    rw [aux_none, hu, aux_before h2 h3, aux_small (Or.inl h3), ht]
    simp [led]

theorem last_after {a : Str} (ha : ∀ c ∈ a, Upper c) {c : Char} (hc : Small c) : camelAux (some c) a = led (lastWord a) := by
  cases a with
  | nil => rfl
  | cons b bs =>
    obtain ⟨q, _, h⟩ := aux_uppers (cs := []) (ha b List.mem_cons_self) (fun d hd => ha d (List.mem_cons_of_mem _ hd)) (fun d hd => by cases hd)
    rw [List.append_nil] at h
    rw [aux_after hc (ha b List.mem_cons_self), h]
    simp [led, lastWord, camelAux]

theorem parts_after {a : Str} (ha : ∀ c ∈ a, Upper c) : ∀ {ps : List Part}, (∀ p ∈ ps, p.Ok) → ∀ {c : Char}, Small c → camelAux (some c) (ps.flatMap Part.text ++ a) = led (ps.flatMap Part.words ++ lastWord a)
  | [], _, c, hc => last_after ha hc
  | p :: ps, h, c, hc => by
    obtain ⟨q, hq, e⟩ := part_after (h p List.mem_cons_self) hc (ps.flatMap Part.text ++ a)
    have ih := parts_after ha (fun p hp => h p (List.mem_cons_of_mem _ hp)) hq
    rw [List.flatMap_cons, List.append_assoc, e, ih, List.flatMap_cons, List.append_assoc, led_append p.words]

/-- C81: the default name of a module is made of the words of its class name in lower case, with one underscore between any two: a word starts at every upper case letter that is followed by a lower case letter or
preceded by a lower case letter or digit; neighbouring upper case letters belong to one abbreviation. -/
theorem camelToSnake_words (ps : List Part) (h : ∀ p ∈ ps, p.Ok) (a : Str) (ha : ∀ c ∈ a, Upper c) : camelToSnake (ps.flatMap Part.text ++ a) = joined (ps.flatMap Part.words ++ lastWord a) := by
  unfold camelToSnake
  cases ps with
  | nil =>
    cases a with
    | nil => rfl
    | cons b bs =>
      obtain ⟨q, _, e⟩ := aux_uppers (cs := []) (ha b List.mem_cons_self) (fun d hd => ha d (List.mem_cons_of_mem _ hd)) (fun d hd => by cases hd)
      rw [List.append_nil] at e
      show camelAux none (b :: bs) = _
      rw [aux_none, e]
      simp [lastWord, joined, camelAux]
  | cons p ps =>
    obtain ⟨q, hq, w, ws, hw, e⟩ := part_first (h p List.mem_cons_self) (ps.flatMap Part.text ++ a)
    rw [List.flatMap_cons, List.append_assoc, e, parts_after ha (fun p hp => h p (List.mem_cons_of_mem _ hp)) hq, List.flatMap_cons, hw]
    rw [List.cons_append, List.cons_append, joined_led, List.append_assoc, led_append, led_append, led_append, List.append_assoc]

/-- The case of `HTTPConv2DTransposeLSTM`. -/
example : camelToSnake "HTTPServerConv2DTransposeLSTM".toList = joined ["http".toList, "server".toList, "conv2".toList, "d".toList, "transpose".toList, "lstm".toList] := by
  have h := camelToSnake_words [⟨"HTTP".toList, 'S', 'e', "rver".toList⟩, ⟨[], 'C', 'o', "nv2".toList⟩, ⟨"D".toList, 'T', 'r', "anspose".toList⟩]
  refine (h ?_ "LSTM".toList ?_).trans (by decide)
  · unfold Part.Ok Upper Lower Small Lower
    decide
  · unfold Upper
    decide

end Verif.Props.Camel
