import Verif.Lemmas.Construct
import Verif.Props.Submodules
import Verif.Props.Transform
import Verif.Props.Names

/-!
# `name_scope` and re-entered contexts (C43, C44)
-/

set_option linter.unusedVariables false

namespace Verif.Props.Scopes
open Verif Names Frame
open Verif.Props.Context Verif.Props.Control Verif.Props.Params Verif.Props.State Verif.Props.Submodules Verif.Props.Names
open Verif.Props.Transform (entered_run)

/-! ### Specification vocabulary -/

/-- `hk.Module(name=a)`. -/
def moduleNamed (a : Str) : Prog := .newModule .unit fun id _ => .op (.superInit id (some a) "Module".toList)

/-- A module constructed here with name `a` gets the full name `A`. -/
def Gets (w : World) (a A : Str) : Prop := ∃ id w', (moduleNamed a).run stackMach w = (.ok (.mod id), w') ∧ nameOf w' id = some A

/-- A place where modules can be constructed: inside a transform, no interceptors, the super constructor of every running module was called. -/
structure Here (w : World) : Prop where
  inside : InTransform w
  plain : w.hooks.interceptors = []
  ready : ∀ F ∈ w.frames.head?, ∀ p ∈ F.moduleStack, ∃ n subs, w.heap[p.1]? = some ⟨some n, some subs⟩
  scope : ∀ F ∈ w.frames.head?, F.scopeStack ≠ []

/-- The name is that of the module or of something below it. -/
def Under (n b : Str) : Prop := b = n ∨ ∃ k, b = n ++ '/' :: k

/-- The name a part of a scope is written with: a number at its end loses leading zeros. -/
def Written (n n' : Str) : Prop :=
  (¬ EndsInNumber n ∧ n' = n) ∨
  ∃ b ds, ds ≠ [] ∧ (∀ c ∈ ds, Char.isDigit c = true) ∧ n = b ++ '_' :: ds ∧ n' = b ++ '_' :: Nat.toDigits 10 (Nat.ofDigitChars 10 ds 0)

/-- `"/".join(parts)`. -/
def joinSlash (a : Str) (parts : List Str) : Str := a ++ parts.flatMap ('/' :: ·)

/-- Leaving the innermost module. -/
def leave (w : World) : World := onTop (fun F => { F with moduleStack := F.moduleStack.tail, scopeStack := F.scopeStack.tail }) w

/-! ### Lemmas -/

theorem here_local {s : LW} {tl rest} (h : Here (toWorld s tl rest)) :
    s.env.hooks.interceptors = [] ∧ Ready s.env.modules s.loc.heap ∧ ∃ sc scs, s.loc.scopes = sc :: scs := by
  refine ⟨h.plain, h.ready _ rfl, ?_⟩
  have := h.scope _ rfl
  have this : s.loc.scopes ≠ [] := this
  cases hs : s.loc.scopes with
  | nil => exact absurd hs this
  | cons sc scs => exact ⟨sc, scs, rfl⟩

theorem moduleNamed_eq (a : Str) (s : LW) : (moduleNamed a).run localMach s = (plainModule localMach a "Module".toList >>- fun id => M.pure (Val.mod id)) s := rfl

theorem gets_local {s : LW} {tl rest} {sc : Scope} {scs : List Scope} (h : Here (toWorld s tl rest)) (hs : s.loc.scopes = sc :: scs) {a A : Str} :
    Gets (toWorld s tl rest) a A ↔ validIdentifier a = true ∧ ∃ c sc', CallerIs s.env.modules s.loc.heap c ∧ request c sc a = (.ok A, sc') := by
  obtain ⟨hi, hr, -⟩ := here_local h
  obtain ⟨c, hc⟩ := hr.caller
  constructor
  · rintro ⟨id, w', hrun, hname⟩
    rw [(ref_run _).1, moduleNamed_eq] at hrun
    cases hv : validIdentifier a with
    | false =>
      rw [M.bind, plainModule_error hi (superInit_invalid hv)] at hrun
      cases hrun
    | true =>
      refine ⟨rfl, c, ?_⟩
      rcases hq : request c sc a with ⟨e | q, sc'⟩
      · have hsup := superInit_run (E := { s.env with modules := (s.loc.heap.length, sInit) :: s.env.modules })
          (l := { s.loc with scopes := Scope.empty :: s.loc.scopes, heap := s.loc.heap ++ [⟨none, none⟩] }) (id := s.loc.heap.length) (n := a)
          (cls := "Module".toList) (own := Scope.empty) (sc := sc) (rest := scs) rfl (by dsimp only; rw [hs])
          (fun p hp => Nat.ne_of_lt (hr.lt hp)) hv ((HeapLe.append _ _).callerIs hc)
        rw [hq] at hsup
        rw [M.bind, plainModule_error hi hsup] at hrun
        cases hrun
      · obtain ⟨h', e1, e2, e3, e4⟩ := plainModule_ok (cls := "Module".toList) hi hr hs hv hc hq
        rw [M.bind, e1] at hrun
        dsimp only [M.pure] at hrun
        obtain ⟨h5, h6⟩ := Prod.mk.inj hrun
        injection h5 with h5
        injection h5 with h5
        subst h5
        rw [← h6] at hname
        have : nameOf (toWorld { s with loc := { s.loc with scopes := sc' :: scs, heap := h' } } tl rest) s.loc.heap.length = some q := by
          show h'[s.loc.heap.length]?.bind ModObj.name = _
          rw [e3]
          rfl
        rw [this] at hname
        injection hname with hname
        subst hname
        exact ⟨sc', hc, rfl⟩
  · rintro ⟨hv, c', sc', hc', hq⟩
    obtain ⟨h', e1, e2, e3, e4⟩ := plainModule_ok (cls := "Module".toList) hi hr hs hv hc' hq
    refine ⟨s.loc.heap.length, toWorld { s with loc := { s.loc with scopes := sc' :: scs, heap := h' } } tl rest, ?_, ?_⟩
    · rw [(ref_run _).1, moduleNamed_eq, M.bind, e1]
      rfl
    · show h'[s.loc.heap.length]?.bind ModObj.name = _
      rw [e3]
      rfl

theorem splitSlash_join (a : Str) (parts : List Str) (ha : '/' ∉ a) (hp : ∀ x ∈ parts, '/' ∉ x) : splitSlash (joinSlash a parts) = a :: parts := by
  unfold joinSlash
  have key : ∀ (a t : Str), '/' ∉ a → (∃ u us, splitSlash t = u :: us) → ∃ u us, splitSlash t = u :: us ∧ splitSlash (a ++ t) = (a ++ u) :: us := by
    intro a t ha ht
    obtain ⟨u, us, e⟩ := ht
    refine ⟨u, us, e, ?_⟩
    induction a with
    | nil => exact e
    | cons c a ih =>
      rw [List.mem_cons, not_or] at ha
      rw [List.cons_append, splitSlash, if_neg (fun h => ha.1 h.symm), ih ha.2]
      rfl
  induction parts generalizing a with
  | nil =>
    obtain ⟨u, us, e1, e2⟩ := key a [] ha ⟨[], [], rfl⟩
    cases e1
    rw [List.flatMap_nil, e2, List.append_nil]
  | cons n ns ih =>
    have h1 := ih n (hp n (by simp)) fun x hx => hp x (by simp [hx])
    have h2 : splitSlash ('/' :: (n ++ ns.flatMap ('/' :: ·))) = [] :: n :: ns := by
      rw [splitSlash, if_pos rfl, h1]
    obtain ⟨u, us, e1, e2⟩ := key a _ ha ⟨[], n :: ns, h2⟩
    rw [h2] at e1
    cases e1
    rw [List.append_nil] at e2
    exact e2

theorem canonical_written {n : Str} (h : IsIdent n) : Written n (canonical n) := by
  unfold canonical Written
  have hl := ident_ne_nl h
  by_cases hn : EndsInNumber n
  · obtain ⟨b, ds, h1, h2, rfl⟩ := hn
    rw [splitNum_digits h1 h2 hl]
    exact .inr ⟨b, ds, h1, h2, rfl, rfl⟩
  · rw [(splitNum_none_iff hl).2 hn]
    exact .inl ⟨hn, rfl⟩

theorem under_eq : ∀ (ns : List Str) (q : Str), under q ns = q ++ (ns.map canonical).flatMap ('/' :: ·) := by
  intro ns
  induction ns with
  | nil => intro q; simp [under]
  | cons n ns ih =>
    intro q
    show under (q ++ '/' :: canonical n) ns = _
    rw [ih]
    simp

theorem ident_head {a : Str} (h : IsIdent a) (t : Str) : ¬ ((a ++ t).head? = none ∨ (a ++ t).head? = some '/') := by
  obtain ⟨h1, h2, h3⟩ := h
  cases a with
  | nil => exact absurd rfl h1
  | cons c a =>
    rintro (h | h)
    · cases h
    · injection h with h
      have := (ident_noSep ⟨h1, h2, h3⟩).2.1
      rw [h] at this
      exact this (by simp)

theorem nameScope_eq (name : Str) (p : Prog) (s : LW) (h : ¬ (name.head? = none ∨ name.head? = some '/')) : (Prog.nameScope name p).run localMach s =
    (nameScopeCtor localMach (splitSlash name) >>- fun id => localMach.inModule (id, sCall) (p.run localMach)) s := by
  have : (Prog.nameScope name p).run localMach s = (localMach.top (fun _ => M.pure ()) >>- fun _ =>
    if name.head? = none || name.head? = some '/' then M.throw .badScopeName
    else nameScopeCtor localMach (splitSlash name) >>- fun id => localMach.inModule (id, sCall) (p.run localMach)) s := rfl
  rw [this, M.bind, top_eq]
  dsimp only [M.pure]
  rw [if_neg]
  simpa using h

theorem valid_of_ident {n : Str} (h : IsIdent n) : validIdentifier n = true := (validIdentifier_iff n).2 (.inl h)

/-- The local form of `scope_prefix`. -/
theorem scope_local {s : LW} {tl rest} (h : Here (toWorld s tl rest)) {a A : Str} {parts : List Str} (ha : IsIdent a) (hp : ∀ n ∈ parts, IsIdent n)
    (hA : Gets (toWorld s tl rest) a A) : ∃ sc scs sc' id h' subs, s.loc.scopes = sc :: scs ∧ A ∉ sc.used ∧ sc'.used = A :: sc.used ∧
      HeapLe s.loc.heap h' ∧ h'[id]? = some ⟨some (under A parts), some subs⟩ ∧
      ∀ p, (Prog.nameScope (joinSlash a parts) p).run localMach s =
        localMach.inModule (id, sCall) (p.run localMach) { s with loc := { s.loc with scopes := sc' :: scs, heap := h' } } := by
  obtain ⟨hi, hr, sc, scs, hs⟩ := here_local h
  obtain ⟨hv, c, sc', hc, hq⟩ := (gets_local h hs).1 hA
  obtain ⟨id, h', subs, e1, e2, e3, e4⟩ := nameScopeCtor_ok parts s a A c sc sc' scs hi hr hs (by
    intro x hx
    rcases List.mem_cons.1 hx with rfl | hx
    · exact valid_of_ident ha
    · exact valid_of_ident (hp x hx)) hc hq
  have hu := request_used c sc a
  rw [hq] at hu
  rcases hu with ⟨q, h1, h2, h3⟩ | ⟨e, h1, -⟩
  · injection h1 with h1
    subst h1
    refine ⟨sc, scs, sc', id, h', subs, hs, h2, h3, e2, e3, fun p => ?_⟩
    rw [nameScope_eq (joinSlash a parts) _ _ (ident_head ha _), splitSlash_join a parts (ident_noSep ha).2.1 fun x hx => (ident_noSep (hp x hx)).2.1, M.bind, e1]
  · cases h1

/-! ### C43 -/

/-- C43 the body of `with name_scope("a/b/c")` runs as a method of a module whose full name is the one a module named `a` would get
here, followed by `b` and `c`; everything the body does, and its result or exception, is kept and the scope is left. -/
theorem scope_prefix {w : World} (h : Here w) {a A : Str} {parts : List Str} (ha : IsIdent a) (hp : ∀ n ∈ parts, IsIdent n) (hA : Gets w a A) :
    ∃ w1 names, names.length = parts.length ∧ (∀ x ∈ parts.zip names, Written x.1 x.2) ∧ moduleNow w1 = some (joinSlash A names) ∧
      topParams w1 = topParams w ∧ topState w1 = topState w ∧ rngStackOf w1 = rngStackOf w ∧ accesses w1 = accesses w ∧
      w1.hooks = w.hooks ∧ w1.frames.tail = w.frames.tail ∧
      ∀ p, (Prog.nameScope (joinSlash a parts) p).run stackMach w = ((p.run stackMach w1).1, leave (p.run stackMach w1).2) := by
  obtain ⟨F, rest, r, tl, hF, hr⟩ := h.inside
  have hc := toWorld_curr hF hr
  generalize curr F r w = s at hc
  subst hc
  obtain ⟨sc, scs, sc', id, h', subs, e1, e2, e3, e4, e5, e6⟩ := scope_local h ha hp hA
  refine ⟨toWorld ⟨{ s.env with modules := (id, sCall) :: s.env.modules }, { s.loc with scopes := Scope.empty :: sc' :: scs, heap := h' }⟩ tl rest,
    parts.map canonical, by simp, ?_, ?_, rfl, rfl, rfl, rfl, rfl, rfl, fun p => ?_⟩
  · intro x hx
    rw [List.zip_map_right, List.mem_map] at hx
    obtain ⟨⟨y, z⟩, hy, rfl⟩ := hx
    have hyz : y = z := by
      obtain ⟨i, hi, hyi⟩ := List.mem_iff_getElem.1 hy
      rw [List.getElem_zip] at hyi
      injection hyi with h1 h2
      exact h1.symm.trans h2
    subst hyz
    exact canonical_written (hp y (List.of_mem_zip hy).1)
  · show h'[id]?.bind ModObj.name = _
    rw [e5, under_eq]
    rfl
  · rw [(ref_run _).1, (ref_run _).1, e6]
    have key : ∀ (k : M LW Val) (s' : LW), localMach.inModule (id, sCall) k s' = LW.inModule (id, sCall) k s' := fun _ _ => rfl
    rw [key, LW.inModule]
    dsimp only
    have hf := (frm_run p ⟨{ s.env with modules := (id, sCall) :: s.env.modules }, { s.loc with scopes := Scope.empty :: sc' :: scs, heap := h' }⟩).1
    revert hf
    rcases p.run localMach ⟨{ s.env with modules := (id, sCall) :: s.env.modules }, { s.loc with scopes := Scope.empty :: sc' :: scs, heap := h' }⟩
      with ⟨v, s2⟩
    obtain ⟨E2, l2⟩ := s2
    intro hf
    have he : E2 = { s.env with modules := (id, sCall) :: s.env.modules } := hf
    subst he
    rfl

/-- C43 without numbers in the parts the prefix is literally `A/b/c`. -/
theorem scope_prefix_plain {w : World} (h : Here w) {a A : Str} {parts : List Str} (ha : IsIdent a) (hp : ∀ n ∈ parts, IsIdent n ∧ ¬ EndsInNumber n)
    (hA : Gets w a A) : ∃ w1, moduleNow w1 = some (joinSlash A parts) ∧
      ∀ p, (Prog.nameScope (joinSlash a parts) p).run stackMach w = ((p.run stackMach w1).1, leave (p.run stackMach w1).2) := by
  obtain ⟨w1, names, h1, h2, h3, -, -, -, -, -, -, h4⟩ := scope_prefix h ha (fun n hn => (hp n hn).1) hA
  have : names = parts := by
    apply List.ext_getElem h1
    intro i hi1 hi2
    have hm : (parts[i], names[i]) ∈ parts.zip names := by
      rw [List.mem_iff_getElem]
      exact ⟨i, by simp; omega, by simp⟩
    rcases h2 _ hm with ⟨_, e⟩ | ⟨b, ds, k1, k2, k3, _⟩
    · exact e
    · exact absurd ⟨b, ds, k1, k2, k3⟩ (hp _ (List.getElem_mem hi2)).2
  subst this
  exact ⟨w1, h3, h4⟩

/-- C43 names are validated: empty, starting with a slash, or with a part that is not accepted as a module name. -/
theorem scope_validated {w : World} (h : Here w) {name : Str} (hn : name.head? = none ∨ name.head? = some '/' ∨
      ∃ a parts x, name = joinSlash a parts ∧ (∀ y ∈ a :: parts, '/' ∉ y) ∧ x ∈ a :: parts ∧ validIdentifier x = false ∧
        (validIdentifier a = true → ∃ A, Gets w a A)) :
    ∃ e w', (e = .badScopeName ∨ e = .invalidName) ∧ ∀ p, (Prog.nameScope name p).run stackMach w = (.error e, w') := by
  obtain ⟨F, rest, r, tl, hF, hr⟩ := h.inside
  have hc := toWorld_curr hF hr
  generalize curr F r w = s at hc
  subst hc
  by_cases hb : name.head? = none ∨ name.head? = some '/'
  · refine ⟨.badScopeName, toWorld s tl rest, .inl rfl, fun p => ?_⟩
    rw [(ref_run _).1]
    have : (Prog.nameScope name p).run localMach s = (localMach.top (fun _ => M.pure ()) >>- fun _ =>
      if name.head? = none || name.head? = some '/' then M.throw .badScopeName
      else nameScopeCtor localMach (splitSlash name) >>- fun id => localMach.inModule (id, sCall) (p.run localMach)) s := rfl
    rw [this, M.bind, top_eq]
    dsimp only [M.pure]
    rw [if_pos (by simpa using hb)]
    rfl
  · rcases hn with hn | hn | ⟨a, parts, x, rfl, h1, h2, h3, h4⟩
    · exact absurd (.inl hn) hb
    · exact absurd (.inr hn) hb
    · obtain ⟨hi, hr, sc, scs, hs⟩ := here_local h
      obtain ⟨c, hc⟩ := hr.caller
      obtain ⟨A, sc', hq⟩ : ∃ A sc', validIdentifier a = true → request c sc a = (.ok A, sc') := by
        cases hv : validIdentifier a with
        | false => exact ⟨[], sc, fun h => by cases h⟩
        | true =>
          obtain ⟨A, hA⟩ := h4 hv
          obtain ⟨-, c', sc', hc', hq⟩ := (gets_local h hs).1 hA
          have : c' = c := by
            unfold CallerIs at hc hc'
            cases hm : s.env.modules with
            | nil => rw [hm] at hc hc'; rw [hc, hc']
            | cons p ms =>
              rw [hm] at hc hc'
              obtain ⟨n, sb, e1, rfl⟩ := hc
              obtain ⟨n', sb', e2, rfl⟩ := hc'
              rw [e1] at e2
              injection e2 with e2
              injection e2 with e2
              injection e2 with e2
              rw [e2]
          subst this
          exact ⟨A, sc', fun _ => hq⟩
      obtain ⟨s', e1⟩ := nameScopeCtor_invalid parts s a A c sc sc' scs hi hr hs ⟨x, h2, h3⟩ hc hq
      refine ⟨.invalidName, toWorld s' tl rest, .inr rfl, fun p => ?_⟩
      rw [(ref_run _).1, nameScope_eq _ _ _ hb, splitSlash_join a parts (h1 a (by simp)) fun y hy => h1 y (by simp [hy]), M.bind, e1]

theorem callerIs_unique {mods : List (ModId × Str)} {heap : List ModObj} {c c' : Caller} (hc : CallerIs mods heap c) (hc' : CallerIs mods heap c') : c' = c := by
  unfold CallerIs at hc hc'
  cases hm : mods with
  | nil => rw [hm] at hc hc'; rw [hc, hc']
  | cons p ms =>
    rw [hm] at hc hc'
    obtain ⟨n, sb, e1, rfl⟩ := hc
    obtain ⟨n', sb', e2, rfl⟩ := hc'
    rw [e1] at e2
    injection e2 with e2
    injection e2 with e2
    injection e2 with e2
    rw [e2]

/-- Two names given at one place, one of them already in use when the other is given. -/
theorem names_apart {c : Caller} {sc1 sc1' sc2 sc2' : Scope} {a1 a2 A1 A2 : Str} (h1 : request c sc1 a1 = (.ok A1, sc1'))
    (h2 : request c sc2 a2 = (.ok A2, sc2')) (hu : A1 ∈ sc2.used) : A1 ≠ A2 ∧ ∀ b, ¬ (Under A1 b ∧ Under A2 b) := by
  have hne : A1 ≠ A2 := by
    have := request_used c sc2 a2
    rw [h2] at this
    rcases this with ⟨q, k1, k2, -⟩ | ⟨e, k1, -⟩
    · injection k1 with k1
      subst k1
      rintro rfl
      exact k2 hu
    · cases k1
  refine ⟨hne, ?_⟩
  obtain ⟨l1, n1, rfl⟩ := request_local h1
  obtain ⟨l2, n2, rfl⟩ := request_local h2
  have hne' : l1 ≠ l2 := fun h => hne (by rw [h])
  have cut : ∀ (x y t u : Str), '/' ∉ x → '/' ∉ y → (t = [] ∨ ∃ k, t = '/' :: k) → (u = [] ∨ ∃ k, u = '/' :: k) → x ++ t = y ++ u → x = y := by
    intro x
    induction x with
    | nil =>
      intro y t u hx hy ht hu e
      cases y with
      | nil => rfl
      | cons d y =>
        rcases ht with rfl | ⟨k, rfl⟩
        · cases e
        · injection e with e _
          exact absurd (by rw [← e]; simp) hy
    | cons d x ih =>
      intro y t u hx hy ht hu e
      cases y with
      | nil =>
        rcases hu with rfl | ⟨k, rfl⟩
        · cases e
        · injection e with e _
          exact absurd (by rw [e]; simp) hx
      | cons d' y =>
        injection e with e1 e2
        rw [e1, ih y t u (fun h => hx (by simp [h])) (fun h => hy (by simp [h])) ht hu e2]
  rintro b ⟨u1, u2⟩
  have form : ∀ l b, Under (withPrefix c l) b → ∃ t, (t = [] ∨ ∃ k, t = '/' :: k) ∧ b = withPrefix c (l ++ t) := by
    intro l b hb
    have app : ∀ t, withPrefix c l ++ t = withPrefix c (l ++ t) := by
      intro t
      cases c with
      | none => rfl
      | some p => obtain ⟨p, m⟩ := p; rw [withPrefix_some, withPrefix_some]; simp
    rcases hb with rfl | ⟨k, rfl⟩
    · exact ⟨[], .inl rfl, by simp⟩
    · exact ⟨'/' :: k, .inr ⟨k, rfl⟩, app _⟩
  obtain ⟨t1, ht1, e1⟩ := form _ _ u1
  obtain ⟨t2, ht2, e2⟩ := form _ _ u2
  have : l1 ++ t1 = l2 ++ t2 := by
    have := e1.symm.trans e2
    cases c with
    | none => exact this
    | some p =>
      obtain ⟨p, m⟩ := p
      rw [withPrefix_some, withPrefix_some] at this
      have := List.append_cancel_left this
      injection this
  exact hne' (cut l1 l2 t1 t2 n1.2.1 n2.2.1 ht1 ht2 this)

/-- C43 two `name_scope` blocks in one scope, with an arbitrary program in between and arbitrary bodies, ended normally or by exceptions, never
share a prefix: nothing lies below both. -/
theorem scopes_apart {w w1 : World} (h : Here w) {a1 A1 a2 A2 : Str} {parts : List Str} (body between : Prog) (ha : IsIdent a1) (hp : ∀ n ∈ parts, IsIdent n)
    (hA1 : Gets w a1 A1) (hw1 : w1 = (between.run stackMach ((Prog.nameScope (joinSlash a1 parts) body).run stackMach w).2).2)
    (h1 : Here w1) (hm : moduleNow w1 = moduleNow w) (hA2 : Gets w1 a2 A2) : A1 ≠ A2 ∧ ∀ b, ¬ (Under A1 b ∧ Under A2 b) := by
  obtain ⟨F, rest, r, tl, hF, hr⟩ := h.inside
  have hc := toWorld_curr hF hr
  generalize curr F r w = s at hc
  subst hc
  obtain ⟨sc, scs, sc', id, h', subs, e1, e2, e3, e4, e5, e6⟩ := scope_local h ha hp hA1
  obtain ⟨-, c, sc0, hc0, hq0⟩ := (gets_local h e1).1 hA1
  rw [(ref_run _).1, (ref_run _).1, e6] at hw1
  dsimp only at hw1
  subst hw1
  generalize hs1 : (localMach.inModule (id, sCall) (body.run localMach) { s with loc := { s.loc with scopes := sc' :: scs, heap := h' } }).2 = s1 at *
  have k1 : ∃ b, s1.loc.scopes[0]? = some b ∧ ScopeLe sc' b := by
    have := (scopes_run body ⟨{ s.env with modules := (id, sCall) :: s.env.modules }, { s.loc with scopes := Scope.empty :: sc' :: scs, heap := h' }⟩).2 1 sc' rfl
    obtain ⟨b, hb, hle⟩ := this
    refine ⟨b, ?_, hle⟩
    rw [← hs1]
    show (List.tail _)[0]? = _
    rw [List.getElem?_tail]
    exact hb
  have henv : (between.run localMach s1).2.env = s.env := ((frm_run between s1).1).trans (by rw [← hs1]; rfl)
  obtain ⟨b1, hb1, le1⟩ := k1
  obtain ⟨b2, hb2, le2⟩ := (scopes_run between s1).2 0 b1 hb1
  obtain ⟨-, -, sc2, scs2, hs2⟩ := here_local h1
  obtain ⟨-, c2, sc2', hc2, hq2⟩ := (gets_local h1 hs2).1 hA2
  have hcc : c2 = c := by
    have hm : (match (between.run localMach s1).2.env.modules with
        | [] => some "~".toList
        | (m, _) :: _ => (between.run localMach s1).2.loc.heap[m]?.bind ModObj.name) =
      (match s.env.modules with
        | [] => some "~".toList
        | (m, _) :: _ => s.loc.heap[m]?.bind ModObj.name) := hm
    rw [henv] at hm hc2
    unfold CallerIs at hc0 hc2
    cases hmods : s.env.modules with
    | nil => rw [hmods] at hc0 hc2; rw [hc0, hc2]
    | cons p ms =>
      rw [hmods] at hc0 hc2 hm
      obtain ⟨n, sb, k1, rfl⟩ := hc0
      obtain ⟨n', sb', k2, rfl⟩ := hc2
      dsimp only at hm
      rw [k1, k2] at hm
      injection hm with hm
      rw [hm]
  subst hcc
  refine names_apart hq0 hq2 ?_
  rw [hs2] at hb2
  injection hb2 with hb2
  subst hb2
  exact le2.used.subset (le1.used.subset (by rw [e3]; simp))

/-- C43 likewise a module and a later block (or module) of the same scope. -/
theorem module_apart {w w1 : World} (h : Here w) {a1 A1 a2 A2 : Str} (between : Prog)
    (hA1 : Gets w a1 A1) (hw1 : w1 = (between.run stackMach ((moduleNamed a1).run stackMach w).2).2)
    (h1 : Here w1) (hm : moduleNow w1 = moduleNow w) (hA2 : Gets w1 a2 A2) : A1 ≠ A2 ∧ ∀ b, ¬ (Under A1 b ∧ Under A2 b) := by
  obtain ⟨F, rest, r, tl, hF, hr⟩ := h.inside
  have hc := toWorld_curr hF hr
  generalize curr F r w = s at hc
  subst hc
  obtain ⟨hi, hr, sc, scs, e1⟩ := here_local h
  obtain ⟨hv, c, sc', hc0, hq0⟩ := (gets_local h e1).1 hA1
  obtain ⟨h', k1, k2, k3, k4⟩ := plainModule_ok (cls := "Module".toList) hi hr e1 hv hc0 hq0
  have hu := request_used c sc a1
  rw [hq0] at hu
  have hu : sc'.used = A1 :: sc.used := by
    rcases hu with ⟨q, x1, -, x3⟩ | ⟨e, x1, -⟩
    · injection x1 with x1
      subst x1
      exact x3
    · cases x1
  rw [(ref_run _).1, (ref_run _).1, moduleNamed_eq, M.bind, k1] at hw1
  dsimp only [M.pure] at hw1
  subst hw1
  generalize hs1 : (⟨s.env, { s.loc with scopes := sc' :: scs, heap := h' }⟩ : LW) = s1 at *
  have hb1 : s1.loc.scopes[0]? = some sc' := by rw [← hs1]; rfl
  have henv : (between.run localMach s1).2.env = s.env := ((frm_run between s1).1).trans (by rw [← hs1])
  obtain ⟨b2, hb2, le2⟩ := (scopes_run between s1).2 0 sc' hb1
  obtain ⟨-, -, sc2, scs2, hs2⟩ := here_local h1
  obtain ⟨-, c2, sc2', hc2, hq2⟩ := (gets_local h1 hs2).1 hA2
  have hcc : c2 = c := by
    have hm : (match (between.run localMach s1).2.env.modules with
        | [] => some "~".toList
        | (m, _) :: _ => (between.run localMach s1).2.loc.heap[m]?.bind ModObj.name) =
      (match s.env.modules with
        | [] => some "~".toList
        | (m, _) :: _ => s.loc.heap[m]?.bind ModObj.name) := hm
    rw [henv] at hm hc2
    unfold CallerIs at hc0 hc2
    cases hmods : s.env.modules with
    | nil => rw [hmods] at hc0 hc2; rw [hc0, hc2]
    | cons p ms =>
      rw [hmods] at hc0 hc2 hm
      obtain ⟨n, sb, k1, rfl⟩ := hc0
      obtain ⟨n', sb', k2, rfl⟩ := hc2
      dsimp only at hm
      rw [k1, k2] at hm
      injection hm with hm
      rw [hm]
  subst hcc
  refine names_apart hq0 hq2 ?_
  rw [hs2] at hb2
  injection hb2 with hb2
  subst hb2
  exact le2.used.subset (by rw [hu]; simp)

/-! ### C44 -/

/-- The context after one more `with ctx:` block running `p`, in a thread state `w`. -/
def visit (c : Ctx) (p : Prog) (w : World) : Ctx :=
  match (stackMach.inCtx c (p.run stackMach) w).1 with
  | .ok (_, c') => c'
  | .error _ => c

/-- Some number of entries, with any programs, ended normally or by exceptions. -/
inductive Visits (c : Ctx) : Ctx → Prop
  | none : Visits c c
  | more {c1 : Ctx} (h : Visits c c1) (p : Prog) (w : World) : Visits c (visit c1 p w)

/-- A context some time after `new_context`. -/
def Used (c : Ctx) : Prop := ∃ params state rng, Visits (Ctx.new params state rng) c

theorem visit_eq (c : Ctx) (p : Prog) (w : World) : visit c p w =
    (let r := p.run localMach (ctxStart c w)
     ⟨r.2.loc.params, c.frozen, r.2.loc.state, r.2.loc.rng, r.2.loc.scopes.head?.getD Scope.empty⟩) := by
  unfold visit
  rw [inCtx_run]

/-- What holds of every context. -/
structure CtxOk (c : Ctx) : Prop where
  params : WF2 c.params
  state : WF2 c.state
  scope : c.scope.Inv

/-- What one entry does to a context. -/
structure CtxLe (c c' : Ctx) : Prop where
  ok : CtxOk c → CtxOk c'
  params : CtxOk c → Map.le (lookup2 c.params) (lookup2 c'.params)
  state : CtxOk c → ∀ m n v x, lookup2 c.state m n = some ⟨v, x⟩ → ∃ x', lookup2 c'.state m n = some ⟨v, x'⟩
  scope : ScopeLe c.scope c'.scope

theorem top_scope (c : Ctx) (p : Prog) (w : World) : ∃ b bs, (p.run localMach (ctxStart c w)).2.loc.scopes = b :: bs ∧ ScopeLe c.scope b := by
  obtain ⟨b, hb, hle⟩ := (scopes_run p (ctxStart c w)).2 0 c.scope rfl
  cases hs : (p.run localMach (ctxStart c w)).2.loc.scopes with
  | nil => rw [hs] at hb; cases hb
  | cons b' bs =>
    rw [hs] at hb
    injection hb with hb
    subst hb
    exact ⟨b', bs, rfl, hle⟩

theorem visit_le (c : Ctx) (p : Prog) (w : World) : CtxLe c (visit c p w) := by
  obtain ⟨b, bs, hs, hle⟩ := top_scope c p w
  rw [visit_eq]
  dsimp only
  rw [hs]
  refine ⟨fun h => ?_, fun h => ?_, fun h m n v x hx => ?_, hle⟩
  · have := (grow_run p (ctxStart c w)).2.wf (show (ctxStart c w).loc.WF from ⟨h.params, h.state⟩)
    exact ⟨this.1, this.2, hle.inv h.scope⟩
  · exact (hist_run p (ctxStart c w) ⟨h.params, h.state⟩).params
  · have ht : Tidy (entered c w) := by
      intro F hF
      cases hF
      exact ⟨h.params, h.state⟩
    have := initial_fixed (w := entered c w) ⟨_, _, _, _, rfl, rfl⟩ ht p m n v x hx
    rw [entered_run] at this
    exact this

theorem Visits.le {c c' : Ctx} (h : Visits c c') : CtxLe c c' := by
  induction h with
  | none => exact ⟨id, fun _ _ _ _ h => h, fun _ _ _ _ _ h => ⟨_, h⟩, List.suffix_refl _, id⟩
  | more h p w ih =>
    rename_i c1
    have h2 := visit_le c1 p w
    refine ⟨fun h => h2.ok (ih.ok h), fun h _ _ _ k => h2.params (ih.ok h) _ _ _ (ih.params h _ _ _ k), fun h m n v x k => ?_,
      ih.scope.used.trans h2.scope.used, fun k => h2.scope.inv (ih.scope.inv k)⟩
    obtain ⟨x', k⟩ := ih.state h m n v x k
    exact h2.state (ih.ok h) m n v x' k

theorem Used.ok {c : Ctx} (h : Used c) : CtxOk c := by
  obtain ⟨params, state, rng, h⟩ := h
  have := WF2.ctxNew params state rng []
  exact h.le.ok ⟨this.1, this.2, Scope.Inv.empty⟩

theorem Used.tidy {c : Ctx} (h : Used c) (w : World) : Tidy (entered c w) := by
  intro F hF
  cases hF
  exact ⟨h.ok.params, h.ok.state⟩

theorem here_top (c : Ctx) (w : World) (p : Prog) (hi : w.hooks.interceptors = []) : Here (p.run stackMach (entered c w)).2 := by
  rw [entered_run]
  have henv := (frm_run p (ctxStart c w)).1
  obtain ⟨b, bs, hs, -⟩ := top_scope c p w
  refine ⟨⟨_, _, _, _, rfl, rfl⟩, ?_, ?_, ?_⟩
  · show (p.run localMach (ctxStart c w)).2.env.hooks.interceptors = []
    rw [henv]
    exact hi
  · intro F hF
    cases hF
    have hm : (Prog.run localMach p (ctxStart c w)).2.env.modules = [] := by rw [henv]; rfl
    intro x hx
    have hx : x ∈ (Prog.run localMach p (ctxStart c w)).2.env.modules := hx
    rw [hm] at hx
    cases hx
  · intro F hF
    cases hF
    show (Prog.run localMach p (ctxStart c w)).2.loc.scopes ≠ []
    rw [hs]
    exact List.cons_ne_nil _ _

theorem gets_top (c : Ctx) (w : World) (p : Prog) (hi : w.hooks.interceptors = []) (a A : Str) :
    Gets (p.run stackMach (entered c w)).2 a A ↔ (request none (visit c p w).scope a).1 = .ok A := by
  have hh := here_top c w p hi
  obtain ⟨b, bs, hs, -⟩ := top_scope c p w
  rw [visit_eq]
  dsimp only
  rw [hs]
  rw [entered_run] at hh ⊢
  rw [gets_local hh hs]
  have henv : (p.run localMach (ctxStart c w)).2.env.modules = [] := by rw [(frm_run p (ctxStart c w)).1]; rfl
  rw [henv]
  constructor
  · rintro ⟨hv, c', sc', rfl, hq⟩
    show (request none b a).1 = _
    rw [hq]
  · intro h
    have h : (request none b a).1 = .ok A := h
    refine ⟨?_, none, (request none b a).2, rfl, Prod.ext h rfl⟩
    unfold request at h
    split at h
    · assumption
    · cases h

/-- C44 at the start of the next entry everything is as the previous entry left it, whatever it did and however it ended, and in whatever
thread state the next one happens. -/
theorem resumes (c : Ctx) (p : Prog) (w w' : World) :
    let before := (p.run stackMach (entered c w)).2
    let start := entered (visit c p w) w'
    topParams start = topParams before ∧ (∀ m n, entry start m n = entry before m n) ∧ topState start = topState before ∧
      rngStackOf start = rngStackOf before ∧ moduleNow start = moduleNow before ∧
      (start.frames.head?.map FrameS.frozen = before.frames.head?.map FrameS.frozen) := by
  dsimp only
  have h := (frm_run p (ctxStart c w)).1
  rw [entered_run, visit_eq]
  refine ⟨rfl, fun _ _ => rfl, rfl, rfl, ?_, ?_⟩
  · show some "~".toList = (match (p.run localMach (ctxStart c w)).2.env.modules with
        | [] => some "~".toList
        | (m, _) :: _ => (p.run localMach (ctxStart c w)).2.loc.heap[m]?.bind ModObj.name)
    rw [h]
    rfl
  · show some c.frozen = some (p.run localMach (ctxStart c w)).2.env.frozen
    rw [h]
    rfl

/-- C44 a parameter present after some entry is what `get_parameter` gives for it in every later entry, whatever happened in between
and earlier in that entry, for a module of that name. -/
theorem params_kept {c c' : Ctx} (hc : Used c) (h : Visits c c') {m name : Str} {a : Arr} (hp : lookup2 c.params m name = some a)
    (p : Prog) (w w1 : World) (hw1 : w1 = (p.run stackMach (entered c' w)).2) (id : ModId) (hid : nameOf w1 id = some m)
    (method : Str) (shape : List Nat) (dtype : DType) (i : Initializer) :
    param w1 m name = some a ∧ (Prog.op (.getParam name shape dtype (some i))).run stackMach (enter id method w1) =
      (answer shape (Params.viaGetters (enter id method w1) m name shape dtype a), accessed (.paramRead m name a) (enter id method w1)) := by
  have hok := h.le.ok hc.ok
  have h1 : param w1 m name = some a := by
    rw [hw1]
    refine param_never_changes (w := entered c' w) ⟨_, _, _, _, rfl, rfl⟩ ?_ p m name a (h.le.params hc.ok _ _ _ hp)
    intro F hF
    cases hF
    exact ⟨hok.params, hok.state⟩
  rw [entered_run] at hw1
  subst hw1
  exact ⟨h1, existing_returned (w := enter id method (toWorld (p.run localMach (ctxStart c' w)).2 [] w.frames)) ⟨_, _, _, _, rfl, rfl⟩
    m name shape dtype i a hid h1⟩

/-- C44 a state entry is never lost and keeps its initial value. -/
theorem state_kept {c c' : Ctx} (hc : Used c) (h : Visits c c') {m name : Str} {v x : Arr} (hp : lookup2 c.state m name = some ⟨v, x⟩) :
    ∃ x', lookup2 c'.state m name = some ⟨v, x'⟩ := h.le.state hc.ok m name v x hp

/-- C44 a module with a name without number can be constructed in every entry, whatever earlier entries did. -/
theorem module_created {c : Ctx} (hc : Used c) (p : Prog) (w : World) (hi : w.hooks.interceptors = []) (a : Str) (ha : IsIdent a)
    (hn : ¬ EndsInNumber a) : ∃ A, Gets (p.run stackMach (entered c w)).2 a A := by
  have hI := ((visit_le c p w).ok hc.ok).scope
  have hs : splitNum (withPrefix none a) = none := by
    rw [splitNum_withPrefix none ha.1, (splitNum_none_iff (ident_ne_nl ha)).2 hn]; rfl
  obtain ⟨q, hq⟩ : ∃ q, (request none (visit c p w).scope a).1 = .ok q := by
    unfold request
    rw [if_pos ((validIdentifier_iff a).2 (Or.inl ha)), uniqueName_auto hs hI]
    exact ⟨_, rfl⟩
  exact ⟨q, (gets_top c w p hi a q).2 hq⟩

/-- C44 a module constructed at the outermost level of one entry and one constructed at the outermost level of any later entry have
different names, and nothing is below both.  Missing: modules constructed inside the function of an `hk.jit`, `hk.cond` and the like,
for which it is false (`jit_collides`); `p` and `q` may contain such blocks. -/
theorem entries_apart_partial {c c' : Ctx} (p q p' : Prog) (w w' : World) (hi : w.hooks.interceptors = []) (hi' : w'.hooks.interceptors = []) (a a' A A' : Str)
    (hA : Gets (p.run stackMach (entered c w)).2 a A) (hv : Visits (visit c (.bind p fun _ => .bind (moduleNamed a) fun _ => q) w) c')
    (hp : ∃ v, (p.run stackMach (entered c w)).1 = .ok v)
    (hA' : Gets (p'.run stackMach (entered c' w')).2 a' A') : A ≠ A' ∧ ∀ b, ¬ (Under A b ∧ Under A' b) := by
  have h1 := (gets_top c w p hi a A).1 hA
  have h2 := (gets_top c' w' p' hi' a' A').1 hA'
  refine names_apart (sc1' := (request none (visit c p w).scope a).2) (sc2' := (request none (visit c' p' w').scope a').2) (Prod.ext h1 rfl) (Prod.ext h2 rfl) ?_
  refine (visit_le c' p' w').scope.used.subset (hv.le.scope.used.subset ?_)
  -- the first entry
  have hh := here_top c w p hi
  obtain ⟨b, bs, hs, -⟩ := top_scope c p w
  have henv : (p.run localMach (ctxStart c w)).2.env.modules = [] := by rw [(frm_run p (ctxStart c w)).1]; rfl
  have hb : (request none b a).1 = .ok A := by
    rw [visit_eq] at h1
    dsimp only at h1
    rw [hs] at h1
    exact h1
  have hval : validIdentifier a = true := by
    unfold request at hb
    split at hb
    · assumption
    · cases hb
  rw [entered_run] at hh hp
  obtain ⟨v, hp⟩ := hp
  obtain ⟨hi2, hr2, -⟩ := here_local hh
  obtain ⟨h', k1, k2, k3, k4⟩ := plainModule_ok (cls := "Module".toList) hi2 hr2 hs hval (c := none) (by rw [henv]; rfl) (Prod.ext hb rfl : request none b a = (.ok A, _))
  have hu := request_used none b a
  have hu : (request none b a).2.used = A :: b.used := by
    rcases hu with ⟨q, x1, -, x3⟩ | ⟨e, x1, -⟩
    · rw [hb] at x1
      injection x1 with x1
      subst x1
      exact x3
    · rw [hb] at x1; cases x1
  rw [visit_eq]
  dsimp only
  have hrun : ∃ s2 : LW, (Prog.run localMach (.bind p fun _ => .bind (moduleNamed a) fun _ => q) (ctxStart c w)).2 = (q.run localMach s2).2 ∧
      s2.loc.scopes = (request none b a).2 :: bs := by
    rcases hrun : p.run localMach (ctxStart c w) with ⟨x, s1⟩
    rw [hrun] at hp k1
    dsimp only at hp
    subst hp
    refine ⟨{ s1 with loc := { s1.loc with scopes := (request none b a).2 :: bs, heap := h' } }, ?_, rfl⟩
    show ((p.run localMach >>- fun _ => (moduleNamed a).run localMach >>- fun _ => q.run localMach) (ctxStart c w)).2 = _
    rw [M.bind, hrun]
    dsimp only
    rw [M.bind, moduleNamed_eq, M.bind, k1]
    rfl
  obtain ⟨s2, e1, e2⟩ := hrun
  rw [e1]
  obtain ⟨b3, hb3, le3⟩ := (scopes_run q s2).2 0 (request none b a).2 (by rw [e2]; rfl)
  rw [← List.head?_eq_getElem?] at hb3
  rw [hb3]
  exact le3.used.subset (by rw [hu]; simp)

/-- A block that constructs modules with these names, carrying on when a construction raises. -/
def makeAll : List Str → Prog
  | [] => .ret .unit
  | n :: ns => .bind (.tryCatch (moduleNamed n) fun _ => .ret .unit) fun _ => makeAll ns

theorem makeAll_scope : ∀ (ns : List Str) (s : LW) (sc : Scope) (bs : List Scope), s.env.modules = [] → s.env.hooks.interceptors = [] → s.loc.scopes = sc :: bs →
    ((makeAll ns).run localMach s).2.loc.scopes = (requests none sc ns).2 :: bs := by
  intro ns
  induction ns with
  | nil => intro s sc bs _ _ h; exact h
  | cons n ns ih =>
    intro s sc bs hm hi hs
    have hr : Ready s.env.modules s.loc.heap := by rw [hm]; intro p hp; cases hp
    have hc : CallerIs s.env.modules s.loc.heap none := by rw [hm]; rfl
    have step : ∃ v s2, (Prog.tryCatch (moduleNamed n) fun _ => .ret .unit).run localMach s = (.ok v, s2) ∧ s2.env = s.env ∧
        s2.loc.scopes = (request none sc n).2 :: bs := by
      show ∃ v s2, M.tryCatch ((moduleNamed n).run localMach) (fun _ => M.pure Val.unit) s = (.ok v, s2) ∧ _
      unfold M.tryCatch
      rw [moduleNamed_eq, M.bind]
      cases hv : validIdentifier n with
      | false =>
        rw [plainModule_error hi (superInit_invalid hv)]
        refine ⟨.unit, _, rfl, rfl, ?_⟩
        have : request none sc n = (.error .invalidName, sc) := by
          unfold request
          rw [if_neg (by rw [hv]; decide)]
        rw [this]
        exact hs
      | true =>
        rcases hq : request none sc n with ⟨e | q, sc'⟩
        · have hsup := superInit_run (E := { s.env with modules := (s.loc.heap.length, sInit) :: s.env.modules })
            (l := { s.loc with scopes := Scope.empty :: s.loc.scopes, heap := s.loc.heap ++ [⟨none, none⟩] }) (id := s.loc.heap.length) (n := n)
            (cls := "Module".toList) (own := Scope.empty) (sc := sc) (rest := bs) rfl (by dsimp only; rw [hs])
            (fun p hp => Nat.ne_of_lt (hr.lt hp)) hv ((HeapLe.append _ _).callerIs hc)
          rw [hq] at hsup
          rw [plainModule_error hi hsup]
          exact ⟨.unit, _, rfl, rfl, rfl⟩
        · obtain ⟨h', e1, -⟩ := plainModule_ok (cls := "Module".toList) hi hr hs hv hc hq
          rw [e1]
          exact ⟨_, _, rfl, rfl, rfl⟩
    obtain ⟨v, s2, e1, e2, e3⟩ := step
    show (((Prog.tryCatch (moduleNamed n) fun _ => .ret .unit).run localMach >>- fun _ => (makeAll ns).run localMach) s).2.loc.scopes = _
    rw [M.bind, e1]
    exact ih s2 _ bs (by rw [e2]; exact hm) (by rw [e2]; exact hi) e3

theorem requests_append (c : Caller) : ∀ (xs ys : List Str) (sc : Scope), (requests c sc (xs ++ ys)).2 = (requests c (requests c sc xs).2 ys).2 := by
  intro xs
  induction xs with
  | nil => intro ys sc; rfl
  | cons x xs ih => intro ys sc; exact ih ys _

theorem visit_makeAll (c : Ctx) (ns : List Str) (w : World) (hi : w.hooks.interceptors = []) :
    (visit c (makeAll ns) w).scope = (requests none c.scope ns).2 := by
  rw [visit_eq]
  dsimp only
  rw [makeAll_scope ns (ctxStart c w) c.scope [Scope.empty] rfl hi rfl]
  rfl

/-- C44 the numbering goes on as if everything had happened in one entry: what a module is called depends on the names requested in all
entries so far, in their order. -/
theorem numbering_continues (params state : Option PDict) (rng : Option PRNGSeq) (es : List (List Str × World)) (ns : List Str) (w : World)
    (hes : ∀ e ∈ es, e.2.hooks.interceptors = []) (hi : w.hooks.interceptors = []) (a A : Str) :
    Gets ((makeAll ns).run stackMach (entered (es.foldl (fun c e => visit c (makeAll e.1) e.2) (Ctx.new params state rng)) w)).2 a A ↔
      Props.Names.outcome none ((es.map Prod.fst).flatten ++ ns) a = .ok A := by
  rw [gets_top _ _ _ hi, visit_makeAll _ _ _ hi]
  have key : ∀ (es : List (List Str × World)) (c : Ctx), (∀ e ∈ es, e.2.hooks.interceptors = []) →
      (es.foldl (fun c e => visit c (makeAll e.1) e.2) c).scope = (requests none c.scope (es.map Prod.fst).flatten).2 := by
    intro es
    induction es with
    | nil => intro c _; rfl
    | cons e es ih =>
      intro c h
      rw [List.foldl_cons, ih _ fun x hx => h x (by simp [hx]), visit_makeAll _ _ _ (h e (by simp)), List.map_cons, List.flatten_cons, requests_append]
  rw [key es _ hes, ← requests_append]
  rfl

/-! ### Concrete cases -/

theorem gets_start (c : Ctx) (w : World) (hi : w.hooks.interceptors = []) (a A : Str) (h : (request none c.scope a).1 = .ok A) : Gets (entered c w) a A :=
  (gets_top c w (.ret .unit) hi a A).2 (by rw [visit_eq]; exact h)

theorem after_eq (p : Prog) (w : World) : ((Prog.bind p fun _ => .ret .unit).run stackMach w).2 = ((Prog.ret .unit).run stackMach (p.run stackMach w).2).2 := by
  show ((p.run stackMach >>- fun _ => M.pure Val.unit) w).2 = (p.run stackMach w).2
  unfold M.bind
  rcases p.run stackMach w with ⟨e | v, w1⟩ <;> rfl

/-- A fresh context for init. -/
def fresh : Ctx := Ctx.new none none none

theorem here_fresh (c : Ctx) : Here (entered c World.initial) := here_top c World.initial (.ret .unit) rfl

/-- One module named "a" was already constructed. -/
def oneModule : Ctx := visit fresh (makeAll ["a".toList]) World.initial

theorem oneModule_scope : oneModule.scope = (requests none Scope.empty ["a".toList]).2 := visit_makeAll fresh _ _ rfl

theorem ident_a : IsIdent "a".toList := ⟨by decide, by simp [IdChar], by simp⟩
theorem ident_b : IsIdent "b".toList := ⟨by decide, by simp [IdChar], by simp⟩

/-- `scope_prefix` applies to `name_scope("a/b_01")` after a module "a": the prefix is "a_1/b_1". -/
example : ∃ w, Here w ∧ IsIdent "a".toList ∧ IsIdent "b_01".toList ∧ Gets w "a".toList "a_1".toList ∧ Written "b_01".toList "b_1".toList :=
  ⟨_, here_fresh oneModule, ident_a, ⟨by decide, by simp [IdChar], by simp⟩, gets_start _ _ rfl _ _ (by rw [oneModule_scope]; decide +kernel),
    .inr ⟨"b".toList, "01".toList, by decide, by decide, rfl, by decide +kernel⟩⟩

/-- The names in `with name_scope("a/b"): get_parameter("w")` are those of a nested module. -/
example : topParams ((Prog.nameScope "a/b".toList (.op (.getParam "w".toList [] .f32 (some fun _ _ => .ret ⟨[], .f32, [5]⟩)))).run stackMach
    (entered fresh World.initial)).2 = [("a/b".toList, [("w".toList, ⟨[], .f32, [5]⟩)])] := by decide +kernel

example : ¬ EndsInNumber "b".toList := by rw [← splitNum_none_iff (by decide)]; decide

/-- `scope_validated`: a second part that is not an identifier. -/
example : (∀ y ∈ ["a".toList, "1b".toList], '/' ∉ y) ∧ "1b".toList ∈ "a".toList :: ["1b".toList] ∧ validIdentifier "1b".toList = false ∧
    Gets (entered fresh World.initial) "a".toList "a".toList :=
  ⟨by decide, by decide, by decide +kernel, gets_start _ _ rfl _ _ (by decide +kernel)⟩

/-- `scopes_apart`: two blocks with the same name. -/
example : ∃ w w1, Here w ∧ Gets w "a".toList "a".toList ∧ w1 = ((Prog.ret .unit).run stackMach ((Prog.nameScope (joinSlash "a".toList []) (.ret .unit)).run stackMach w).2).2 ∧
    Here w1 ∧ moduleNow w1 = moduleNow w ∧ ∃ A2, Gets w1 "a".toList A2 :=
  ⟨entered fresh World.initial, ((Prog.bind (Prog.nameScope (joinSlash "a".toList []) (.ret .unit)) fun _ => .ret .unit).run stackMach (entered fresh World.initial)).2,
    here_fresh _, gets_start _ _ rfl _ _ (by decide +kernel), after_eq _ _, here_top _ _ _ rfl, by decide +kernel,
    module_created ⟨none, none, none, .none⟩ _ _ rfl _ ident_a (by rw [← splitNum_none_iff (by decide)]; decide)⟩

/-- `module_apart`: a module and then a block with the same name. -/
example : ∃ w w1, Here w ∧ Gets w "a".toList "a".toList ∧ w1 = ((Prog.ret .unit).run stackMach ((moduleNamed "a".toList).run stackMach w).2).2 ∧
    Here w1 ∧ moduleNow w1 = moduleNow w ∧ ∃ A2, Gets w1 "a".toList A2 :=
  ⟨entered fresh World.initial, ((Prog.bind (moduleNamed "a".toList) fun _ => .ret .unit).run stackMach (entered fresh World.initial)).2,
    here_fresh _, gets_start _ _ rfl _ _ (by decide +kernel), after_eq _ _, here_top _ _ _ rfl, by decide +kernel,
    module_created ⟨none, none, none, .none⟩ _ _ rfl _ ident_a (by rw [← splitNum_none_iff (by decide)]; decide)⟩

/-- A context with one parameter, created in its first entry. -/
def withParam : Ctx := visit fresh (.nameScope "a".toList (.op (.getParam "w".toList [] .f32 (some fun _ _ => .ret ⟨[], .f32, [5]⟩)))) World.initial

/-- `params_kept`: the second entry does something else, the third one has a module "a". -/
example : Used withParam ∧ Visits withParam (visit withParam (makeAll ["b".toList]) World.initial) ∧
    lookup2 withParam.params "a".toList "w".toList = some ⟨[], .f32, [5]⟩ ∧
    nameOf ((Prog.ret .unit).run stackMach (entered (visit withParam (makeAll ["b".toList]) World.initial)
      { World.initial with heap := [⟨some "a".toList, some []⟩] })).2 0 = some "a".toList :=
  ⟨⟨none, none, none, .more .none _ _⟩, .more .none _ _, by decide +kernel, by decide +kernel⟩

/-- `state_kept` -/
example : Used (Ctx.new none (some [("a".toList, [("s".toList, ⟨[], .f32, [1]⟩)])]) none) ∧
    lookup2 (Ctx.new none (some [("a".toList, [("s".toList, ⟨[], .f32, [1]⟩)])]) none).state "a".toList "s".toList = some ⟨⟨[], .f32, [1]⟩, ⟨[], .f32, [1]⟩⟩ :=
  ⟨⟨_, _, _, .none⟩, by decide +kernel⟩

/-- `entries_apart_partial`: "a" in the first entry, "a" again in the second one. -/
example : Gets ((Prog.ret .unit).run stackMach (entered fresh World.initial)).2 "a".toList "a".toList ∧
    ((Prog.ret .unit).run stackMach (entered fresh World.initial)).1 = .ok .unit ∧
    ∃ A', Gets ((Prog.ret .unit).run stackMach (entered (visit fresh (.bind (.ret .unit) fun _ => .bind (moduleNamed "a".toList) fun _ => .ret .unit)
      World.initial) World.initial)).2 "a".toList A' :=
  ⟨gets_start _ _ rfl _ _ (by decide +kernel), rfl,
    module_created ⟨none, none, none, .more .none _ _⟩ _ _ rfl _ ident_a (by rw [← splitNum_none_iff (by decide)]; decide)⟩

/-- `numbering_continues`: entries constructing "a", "b" and "a" and then "a" give "a_2" in the third entry. -/
example : Props.Names.outcome none (([(["a".toList, "b".toList], World.initial), (["a".toList], World.initial)].map Prod.fst).flatten ++ []) "a".toList =
    .ok "a_2".toList := by decide +kernel

/-- C44 fails for modules constructed inside `hk.jit`: their names are forgotten, the next module with that name gets the same one. -/
theorem jit_collides : ∃ (c : Ctx) (p : Prog) (w w' : World) (id : ModId) (A : Str), Used c ∧ nameOf (entered c w) id = none ∧
    nameOf (p.run stackMach (entered c w)).2 id = some A ∧ (p.run stackMach (entered c w)).1 = .ok (.mod id) ∧
    Gets (entered (visit c p w) w') A A := by
  refine ⟨fresh, .jit (moduleNamed "a".toList), World.initial, World.initial, 0, "a".toList, ⟨none, none, none, .none⟩, by decide +kernel,
    by decide +kernel, by decide +kernel, gets_start _ _ rfl _ _ ?_⟩
  have : (visit fresh (.jit (moduleNamed "a".toList)) World.initial).scope = Scope.empty := by
    rw [visit_eq]
    decide +kernel
  rw [this]
  decide +kernel

end Verif.Props.Scopes
