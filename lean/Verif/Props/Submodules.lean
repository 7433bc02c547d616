import Verif.Props.State

/-!
# `params_dict` and `state_dict` (C45)
-/

set_option linter.unusedVariables false

namespace Verif.Props.Submodules
open Verif Names Frame
open Verif.Props.Context Verif.Props.Control Verif.Props.Params Verif.Props.State

variable {β : Type}

/-! ### Specification vocabulary -/

/-- The name recorded for module object `m`. -/
def nameOf (w : World) (m : ModId) : Option Str := w.heap[m]?.bind ModObj.name

/-- The names recorded in module object `m` as its submodules. -/
def submodules (w : World) (m : ModId) : List Str := (w.heap[m]?.bind ModObj.subs).getD []

/-- A method of module object `m` is running. -/
def Running (w : World) (m : ModId) : Prop := ∃ F ∈ w.frames.head?, m ∈ F.moduleStack.map Prod.fst

/-- The bundle belongs to a module named `n` with submodules `subs`: its own, below its name, or that of a submodule. -/
def Selected (n : Str) (subs : List Str) (b : Str) : Prop := b = n ∨ (∃ k, b = n ++ '/' :: k) ∨ b ∈ subs

/-- No parameter or state name contains a slash. -/
def PlainNames (d : Dict Str (Dict Str β)) : Prop := ∀ p ∈ d, ∀ q ∈ p.2, '/' ∉ q.1

/-! ### The dictionary -/

/-- The selected entries in order, with their full names. -/
def flat (n : Str) (subs : List Str) (d : Dict Str (Dict Str β)) : List (Str × β) :=
  (d.filter fun p => belongs n subs p.1).flatMap fun p => p.2.map fun q => (fqName p.1 q.1, q.2)

theorem dict_eq (n : Str) (subs : List Str) (d : Dict Str (Dict Str β)) : paramsOrStateDict n subs d = Dict.ofItems (flat n subs d) := by
  unfold paramsOrStateDict flat Dict.ofItems
  rw [List.foldl_flatMap]
  congr 1
  funext out p
  rw [List.foldl_map]

theorem belongs_iff {n : Str} {subs : List Str} {b : Str} : belongs n subs b = true ↔ Selected n subs b := by
  unfold belongs Selected
  rw [Bool.or_eq_true, Bool.or_eq_true, decide_eq_true_eq, List.isPrefixOf_iff_prefix, List.contains_iff_mem, or_assoc]
  constructor
  · rintro (h | h | h)
    · exact .inl h
    · obtain ⟨k, rfl⟩ := h; exact .inr (.inl ⟨k, by simp⟩)
    · exact .inr (.inr h)
  · rintro (h | h | h)
    · exact .inl h
    · obtain ⟨k, rfl⟩ := h; exact .inr (.inl ⟨k, by simp⟩)
    · exact .inr (.inr h)

theorem mem_flat {n : Str} {subs : List Str} {d : Dict Str (Dict Str β)} {x : Str × β} : x ∈ flat n subs d ↔
    ∃ p ∈ d, Selected n subs p.1 ∧ ∃ q ∈ p.2, x = (p.1 ++ '/' :: q.1, q.2) := by
  unfold flat
  simp only [List.mem_flatMap, List.mem_filter, belongs_iff, List.mem_map]
  constructor
  · rintro ⟨p, ⟨hp, hs⟩, q, hq, rfl⟩; exact ⟨p, hp, hs, q, hq, rfl⟩
  · rintro ⟨p, hp, hs, q, hq, rfl⟩; exact ⟨p, ⟨hp, hs⟩, q, hq, rfl⟩

theorem append_slash_inj : ∀ {b b' k k' : Str}, '/' ∉ k → '/' ∉ k' → b ++ '/' :: k = b' ++ '/' :: k' → b = b' ∧ k = k' := by
  intro b b' k k' hk hk' h
  have h' := congrArg List.reverse h
  simp only [List.reverse_append, List.reverse_cons, List.append_assoc, List.singleton_append] at h'
  have key : ∀ (a a' x x' : Str), '/' ∉ a → '/' ∉ a' → a ++ '/' :: x = a' ++ '/' :: x' → a = a' ∧ x = x' := by
    intro a
    induction a with
    | nil =>
      intro a' x x' _ ha' e
      cases a' with
      | nil => injection e with _ e; exact ⟨rfl, e⟩
      | cons c a' => injection e with e _; exact absurd (by rw [← e]; simp) ha'
    | cons c a ih =>
      intro a' x x' ha ha' e
      cases a' with
      | nil => injection e with e _; exact absurd (by rw [← e]; simp) ha
      | cons c' a' =>
        injection e with e1 e2
        obtain ⟨h1, h2⟩ := ih a' x x' (fun h => ha (by simp [h])) (fun h => ha' (by simp [h])) e2
        exact ⟨by rw [e1, h1], h2⟩
  obtain ⟨h1, h2⟩ := key _ _ _ _ (by simpa using hk) (by simpa using hk') h'
  exact ⟨List.reverse_injective h2, List.reverse_injective h1⟩

theorem nodup_flat {n : Str} {subs : List Str} {d : Dict Str (Dict Str β)} (hd : WF2 d) (hp : PlainNames d) : ((flat n subs d).map Prod.fst).Nodup := by
  have key : ∀ (l : List (Str × Dict Str β)), (l.map Prod.fst).Nodup → (∀ p ∈ l, p.2.keys.Nodup) → (∀ p ∈ l, ∀ q ∈ p.2, '/' ∉ q.1) →
      ((l.flatMap fun p => p.2.map fun q => (fqName p.1 q.1, q.2)).map Prod.fst).Nodup := by
    intro l
    induction l with
    | nil => intros; simp
    | cons p l ih =>
      intro h1 h2 h3
      rw [List.map_cons, List.nodup_cons] at h1
      rw [List.flatMap_cons, List.map_append, List.nodup_append]
      refine ⟨?_, ih h1.2 (fun q hq => h2 q (by simp [hq])) (fun q hq => h3 q (by simp [hq])), ?_⟩
      · rw [List.map_map]
        have e : (Prod.fst ∘ fun q : Str × β => (fqName p.1 q.1, q.2)) = fun q => fqName p.1 q.1 := rfl
        rw [e]
        have hn : (p.2.map Prod.fst).Nodup := h2 p (by simp)
        have : p.2.map (fun q => fqName p.1 q.1) = (p.2.map Prod.fst).map (fqName p.1) := by rw [List.map_map]; rfl
        rw [this]
        unfold List.Nodup at hn ⊢
        rw [List.pairwise_map]
        refine hn.imp fun {a b} hab e => hab ?_
        have := List.append_cancel_left e
        injection this
      · intro a ha b hb
        simp only [List.map_map, List.mem_map, Function.comp] at ha
        obtain ⟨q, hq, rfl⟩ := ha
        simp only [List.mem_map, List.mem_flatMap] at hb
        obtain ⟨x, ⟨p', hp', q', hq', rfl⟩, rfl⟩ := hb
        intro e
        have := append_slash_inj (h3 p (by simp) q hq) (h3 p' (by simp [hp']) q' hq') e
        exact h1.1 (List.mem_map.2 ⟨p', hp', this.1.symm⟩)
  refine key _ ?_ (fun p hp => hd.mem (List.mem_filter.1 hp).1) (fun p h => hp p (List.mem_filter.1 h).1)
  exact (List.filter_sublist.map _).nodup hd.1

/-! ### Reading the dictionaries of a module -/

/-- The parameters or the current state of the current frame. -/
def stored (w : World) (ofState : Bool) : PDict := if ofState then topState w else topParams w

theorem modDict_run {w : World} (hw : InTransform w) (m : ModId) (n : Str) (subs : List Str) (hm : w.heap[m]? = some ⟨some n, some subs⟩) (ofState : Bool) :
    (Prog.op (.modDict m ofState)).run stackMach w = (.ok (.bundle [([], paramsOrStateDict n subs (stored w ofState))]), w) := by
  obtain ⟨F, rest, r, tl, hF, hr⟩ := hw
  have hc := toWorld_curr hF hr
  generalize curr F r w = s at hc
  subst hc
  have hm : s.loc.heap[m]? = some ⟨some n, some subs⟩ := hm
  rw [(ref_run _).1]
  have : (Prog.op (.modDict m ofState)).run localMach s = localMach.top (fun _ => modDict m ofState) s := rfl
  rw [this, top_eq, modDict, hm]
  cases ofState <;> rfl

/-- C45 `params_dict()` and `state_dict()` contain exactly the stored values of the selected bundles, under their full names.  Missing from the full
property: names of parameters with a slash, where two parameters may share a full name (`full_names_collide`). -/
theorem selects_partial {w : World} (hw : InTransform w) (ht : Tidy w) (m : ModId) (n : Str) (subs : List Str)
    (hm : w.heap[m]? = some ⟨some n, some subs⟩) (ofState : Bool) (hp : PlainNames (stored w ofState)) :
    ∃ d : Dict Str Arr, (Prog.op (.modDict m ofState)).run stackMach w = (.ok (.bundle [([], d)]), w) ∧
      ∀ key v, d.get? key = some v ↔ ∃ b k, key = b ++ '/' :: k ∧ Selected n subs b ∧ lookup2 (stored w ofState) b k = some v := by
  refine ⟨_, modDict_run hw m n subs hm ofState, fun key v => ?_⟩
  have hwf : WF2 (stored w ofState) := by
    obtain ⟨F, rest, r, tl, hF, hr⟩ := hw
    have := ht F (by rw [hF]; rfl)
    unfold stored topState topParams
    rw [hF]
    cases ofState
    · exact this.1
    · show WF2 (extractState false F.state)
      exact this.2.mapVals _
  rw [dict_eq, Dict.ofItems_of_nodup (nodup_flat hwf hp)]
  constructor
  · intro h
    obtain ⟨p, hp', hs, q, hq, e⟩ := mem_flat.1 (Dict.mem_of_get? h)
    injection e with e1 e2
    refine ⟨p.1, q.1, e1, hs, ?_⟩
    unfold lookup2
    rw [Dict.get?_of_mem hwf.1 (show (p.1, p.2) ∈ stored w ofState from hp')]
    show Dict.get? p.2 q.1 = some v
    exact Dict.get?_of_mem (hwf.mem hp') (by rw [e2]; exact hq)
  · rintro ⟨b, k, rfl, hs, hl⟩
    refine Dict.get?_of_mem (nodup_flat hwf hp) (mem_flat.2 ?_)
    unfold lookup2 at hl
    cases hb : Dict.get? (stored w ofState) b with
    | none => rw [hb] at hl; cases hl
    | some i =>
      rw [hb] at hl
      exact ⟨(b, i), Dict.mem_of_get? hb, hs, (k, v), Dict.mem_of_get? hl, rfl⟩

/-- C45 for any names: every value returned is a stored value of a selected bundle under its full name, and every stored entry of a selected bundle has
its full name in the result. -/
theorem selects_names {w : World} (hw : InTransform w) (m : ModId) (n : Str) (subs : List Str)
    (hm : w.heap[m]? = some ⟨some n, some subs⟩) (ofState : Bool) :
    ∃ d : Dict Str Arr, (Prog.op (.modDict m ofState)).run stackMach w = (.ok (.bundle [([], d)]), w) ∧
      (∀ key v, d.get? key = some v → ∃ p ∈ stored w ofState, Selected n subs p.1 ∧ ∃ q ∈ p.2, key = p.1 ++ '/' :: q.1 ∧ v = q.2) ∧
      ∀ p ∈ stored w ofState, Selected n subs p.1 → ∀ q ∈ p.2, p.1 ++ '/' :: q.1 ∈ d.map Prod.fst := by
  refine ⟨_, modDict_run hw m n subs hm ofState, fun key v h => ?_, fun p hp hs q hq => ?_⟩
  · rw [dict_eq] at h
    obtain ⟨p, hp, hs, q, hq, e⟩ := mem_flat.1 (Dict.mem_ofItems (Dict.mem_of_get? h))
    injection e with e1 e2
    exact ⟨p, hp, hs, q, hq, e1, e2⟩
  · rw [dict_eq]
    have keys : ∀ (l : List (Str × Arr)) (out : Dict Str Arr) x, (x ∈ out.keys ∨ x ∈ l.map Prod.fst) → x ∈ (l.foldl (fun d p => d.set p.1 p.2) out).keys := by
      intro l
      induction l with
      | nil => intro out x h; rcases h with h | h; exact h; cases h
      | cons y l ih =>
        intro out x h
        rw [List.foldl_cons]
        refine ih _ _ ?_
        rcases h with h | h
        · exact .inl ((Dict.keys_prefix_set out _ _).subset h)
        · rw [List.map_cons, List.mem_cons] at h
          rcases h with rfl | h
          · left
            rw [Dict.mem_keys_iff, Dict.get?_set_self]; rfl
          · exact .inr h
    exact keys _ [] _ (.inr (List.mem_map.2 ⟨_, mem_flat.2 ⟨p, hp, hs, q, hq, rfl⟩, rfl⟩))

/-! ### Which modules are submodules -/

theorem heap_modify {h : List ModObj} {m : ModId} {f : ModObj → ModObj} (i : Nat) : (h.modify m f)[i]? = if m = i then h[i]?.map f else h[i]? := by
  rw [List.getElem?_modify]
  by_cases e : m = i
  · rw [if_pos e]; simp [e]
  · rw [if_neg e]; simp [e]

/-- Membership in the recorded submodules after notifying the modules on the stack. -/
theorem notifyLoop_subs (self : ModId) (n : Str) : ∀ (ms : List (ModId × Str)) (s s' : Loc), notifyLoop self n ms s = (.ok (), s') →
    (∀ (m : ModId) x, x ∈ (s'.heap[m]?.bind ModObj.subs).getD [] ↔
      x ∈ (s.heap[m]?.bind ModObj.subs).getD [] ∨ (x = n ∧ m ≠ self ∧ m ∈ ms.map Prod.fst)) ∧
    ∀ m : ModId, s'.heap[m]?.bind ModObj.name = s.heap[m]?.bind ModObj.name := by
  intro ms
  induction ms with
  | nil =>
    intro s s' h
    obtain ⟨-, rfl⟩ := Prod.mk.inj h
    exact ⟨fun m x => by simp, fun m => rfl⟩
  | cons p ms ih =>
    obtain ⟨m0, meth⟩ := p
    intro s s' h
    unfold notifyLoop at h
    by_cases h0 : m0 = self
    · rw [if_pos h0] at h
      obtain ⟨h1, h2⟩ := ih s s' h
      refine ⟨fun m x => ?_, h2⟩
      rw [h1]
      simp only [List.map_cons, List.mem_cons]
      constructor
      · rintro (h | ⟨rfl, h3, h4⟩)
        · exact .inl h
        · exact .inr ⟨rfl, h3, .inr h4⟩
      · rintro (h | ⟨rfl, h3, rfl | h4⟩)
        · exact .inl h
        · exact absurd h0 h3
        · exact .inr ⟨rfl, h3, h4⟩
    · rw [if_neg h0] at h
      rcases ho : s.heap[m0]? with _ | ⟨nm, _ | subs⟩
      · rw [ho] at h; cases h
      · rw [ho] at h; cases h
      · rw [ho] at h
        dsimp only at h
        obtain ⟨h1, h2⟩ := ih _ s' h
        refine ⟨fun m x => ?_, fun m => ?_⟩
        · rw [h1]
          dsimp only
          rw [heap_modify]
          by_cases hm : m0 = m
          · subst hm
            rw [if_pos rfl, ho]
            simp only [Option.map_some, Option.bind_some, Option.getD_some, List.mem_cons, List.map_cons]
            constructor
            · rintro ((rfl | h) | ⟨rfl, h3, h4⟩)
              · exact .inr ⟨rfl, h0, by simp⟩
              · exact .inl h
              · exact .inr ⟨rfl, h3, by simp⟩
            · rintro (h | ⟨rfl, h3, h4⟩)
              · exact .inl (.inr h)
              · exact .inl (.inl rfl)
          · rw [if_neg hm]
            simp only [List.map_cons, List.mem_cons]
            constructor
            · rintro (h | ⟨rfl, h3, h4⟩)
              · exact .inl h
              · exact .inr ⟨rfl, h3, .inr h4⟩
            · rintro (h | ⟨rfl, h3, rfl | h4⟩)
              · exact .inl h
              · exact absurd rfl hm
              · exact .inr ⟨rfl, h3, h4⟩
        · rw [h2]
          dsimp only
          rw [heap_modify]
          by_cases hm : m0 = m
          · subst hm
            rw [if_pos rfl, ho]; rfl
          · rw [if_neg hm]

/-- Entering a method of module `m`. -/
def enter (m : ModId) (method : Str) (w : World) : World :=
  onTop (fun F => { F with moduleStack := (m, method) :: F.moduleStack, scopeStack := Scope.empty :: F.scopeStack }) w

/-- C45 when a method of module `m` with name `n` returns, `n` is recorded as submodule of every other module a method of which is running, and nothing
else is recorded beyond what the body of the method did. -/
theorem method_recorded {w w1 w' : World} (hw : InTransform w) (hi : w.hooks.interceptors = []) (hc : w.namedCall = false) (m : ModId) (n : Str)
    (hm : nameOf w m = some n) (method : Str) (args : Val) (body : Val → Prog) (v v' : Val)
    (hb : (body args).run stackMach (enter m method w) = (.ok v, w1))
    (h : (Prog.callMethod m method args body).run stackMach w = (.ok v', w')) :
    v' = v ∧ ∀ m' x, x ∈ submodules w' m' ↔ x ∈ submodules w1 m' ∨ (x = n ∧ m' ≠ m ∧ Running w m') := by
  obtain ⟨F, rest, r, tl, hF, hr⟩ := hw
  have hcu := toWorld_curr hF hr
  generalize curr F r w = s at hcu
  subst hcu
  have e1 : enter m method (toWorld s tl rest) =
    toWorld ⟨{ s.env with modules := (m, method) :: s.env.modules }, { s.loc with scopes := Scope.empty :: s.loc.scopes }⟩ tl rest := rfl
  rw [e1, (ref_run _).1] at hb
  rw [(ref_run _).1] at h
  have hi : s.env.hooks.interceptors = [] := hi
  have hc : s.env.namedCall = false := hc
  have hm : s.loc.heap[m]?.bind ModObj.name = some n := hm
  generalize hs1 : (⟨{ s.env with modules := (m, method) :: s.env.modules }, { s.loc with scopes := Scope.empty :: s.loc.scopes }⟩ : LW) = s1 at hb
  rcases hq : (body args).run localMach s1 with ⟨e | u, s2⟩
  · rw [hq] at hb; cases hb
  rw [hq] at hb
  obtain ⟨hb1, rfl⟩ := Prod.mk.inj hb
  injection hb1 with hb1
  subst hb1
  have henv : s2.env = s1.env := by
    have := (frm_run (body args) s1).1
    rw [hq] at this
    exact this
  have key : (Prog.callMethod m method args body).run localMach s =
      LW.inModule (m, method) (fun s0 => (
        LW.top (fun E => getModuleName m >>- fun nm => M.pure (nm, E.hooks.interceptors, E.namedCall)) >>- fun r =>
        (if r.2.2 && r.1.isSome && method = sCall then jitM localMach (runInterceptors m method (fun a => (body a).run localMach) r.2.1 args)
          else runInterceptors m method (fun a => (body a).run localMach) r.2.1 args) >>- fun v =>
        LW.top (notify m r.1) >>- fun _ => M.pure v) s0) s := rfl
  rw [key, LW.inModule, hs1] at h
  have h2 : (LW.top (fun E => getModuleName m >>- fun nm => M.pure (nm, E.hooks.interceptors, E.namedCall)) : M LW _) s1 = (.ok (some n, [], false), s1) := by
    subst hs1
    show (Except.ok (s.loc.heap[m]?.bind ModObj.name, s.env.hooks.interceptors, s.env.namedCall), _) = _
    rw [hm, hi, hc]
  rw [M.bind, h2] at h
  dsimp only at h
  rw [M.bind] at h
  have h3 : ((if false && (some n).isSome && decide (method = sCall) then
      jitM localMach (runInterceptors m method (fun a => (body a).run localMach) [] args)
      else runInterceptors m method (fun a => (body a).run localMach) [] args) : M LW Val) s1 = (.ok u, s2) := hq
  rw [h3] at h
  dsimp only at h
  rw [M.bind] at h
  rcases hn : notify m (some n) s2.env s2.loc with ⟨e | z, l3⟩
  · have h4 : (LW.top (notify m (some n)) : M LW Unit) s2 = (.error e, { s2 with loc := l3 }) := by unfold LW.top; rw [hn]
    rw [h4] at h
    cases h
  · have h4 : (LW.top (notify m (some n)) : M LW Unit) s2 = (.ok z, { s2 with loc := l3 }) := by unfold LW.top; rw [hn]
    rw [h4] at h
    dsimp only [M.pure] at h
    obtain ⟨h5, h6⟩ := Prod.mk.inj h
    injection h5 with h5
    refine ⟨h5.symm, ?_⟩
    have hn' : notifyLoop m n s2.env.modules s2.loc = (.ok z, l3) := hn
    obtain ⟨h7, -⟩ := notifyLoop_subs m n s2.env.modules s2.loc l3 hn'
    intro m' x
    rw [← h6]
    have h8 := h7 m' x
    rw [henv, ← hs1] at h8
    have e3 : (x = n ∧ m' ≠ m ∧ m' ∈ (((m, method) :: s.env.modules).map Prod.fst)) ↔ (x = n ∧ m' ≠ m ∧ Running (toWorld s tl rest) m') := by
      constructor
      · rintro ⟨h1, h2, h3⟩
        rw [List.map_cons, List.mem_cons] at h3
        exact ⟨h1, h2, ⟨_, rfl, h3.resolve_left h2⟩⟩
      · rintro ⟨h1, h2, G, hG, h3⟩
        cases hG
        exact ⟨h1, h2, by rw [List.map_cons, List.mem_cons]; exact .inr h3⟩
    rw [← e3]
    exact h8

/-- C45 the other functions record nothing: among all functions acting on the current frame only `super().__init__()` touches the module objects. -/
theorem ops_record_nothing {w : World} (hw : InTransform w) (o : Op) (ho : ∀ m n cls, o ≠ .superInit m n cls) :
    ((Prog.op o).run stackMach w).2.heap = w.heap := by
  obtain ⟨F, rest, r, tl, hF, hr⟩ := hw
  have hc := toWorld_curr hF hr
  generalize curr F r w = s at hc
  subst hc
  rw [(ref_run _).1]
  have O := Keep.preord Loc.heap
  have ofN : ∀ {α : Type} {f : M Loc α}, Pres (Keep Loc.noRng) f → Pres (Keep Loc.heap) f := by
    intro α f h s
    have := h s
    simp only [Keep, Loc.noRng, Prod.mk.injEq] at this ⊢
    exact this.2.2.2.1
  have mod : ∀ {g : Loc → Loc}, (∀ s, (g s).heap = s.heap) → Pres (Keep Loc.heap) (M.modify g) := fun h s => h s
  have rec' : ∀ e, Pres (Keep Loc.heap) (record e) := fun e s => rfl
  have draw : ∀ q, Pres (Keep Loc.heap) (drawKey q) := by
    intro q
    exact ofN (keep_noRng_draw q)
  have seq : ∀ {α : Type} {f : PRNGSeq → M Loc α}, (∀ q, Pres (Keep Loc.heap) (f q)) → Pres (Keep Loc.heap) (rngSeqOrFail >>- f) := by
    intro α f h s
    rw [rngSeqOrFail_eq]
    split
    · exact O.refl s
    · exact h _ s
  have key : Pres (Keep Loc.heap) (o.run s.env) := by
    cases o with
    | getParam n sh dt i =>
      refine Pres.bind O ?_ fun _ => Pres.pure O _
      unfold getParameter
      cases i with
      | none => exact Pres.throw O _
      | some i =>
        refine Pres.bind O (Pres.readOnly O (readOnly_bundleName _)) fun b => Pres.bind O (Pres.get O) fun s0 => ?_
        split
        · exact Pres.throw O _
        · refine Pres.bind O ?_ fun _ => Pres.bind O ?_ fun a => Pres.bind O (Pres.readOnly O (readOnly_liftExcept _)) fun r => ?_
          · split
            · exact Pres.pure O _
            · exact mod fun _ => rfl
          · split
            · exact Pres.bind O (rec' _) fun _ => Pres.pure O _
            · split
              · exact Pres.throw O _
              · exact Pres.bind O (ofN (keep_noRng_runCreators _ _ _ _ _)) fun a => Pres.bind O (mod fun _ => rfl) fun _ =>
                  Pres.bind O (rec' _) fun _ => Pres.pure O _
          · split
            · exact Pres.pure O _
            · exact Pres.throw O _
    | getState n sh dt i =>
      refine Pres.bind O ?_ fun _ => Pres.pure O _
      unfold getState
      refine Pres.bind O (Pres.readOnly O (readOnly_bundleName _)) fun b => Pres.bind O (mod fun _ => rfl) fun _ => Pres.bind O (Pres.get O) fun s0 =>
        Pres.bind O ?_ fun _ => Pres.readOnly O (readOnly_liftExcept _)
      split
      · exact Pres.bind O (rec' _) fun _ => Pres.pure O _
      · split
        · exact Pres.throw O _
        · split
          · exact Pres.bind O (ofN (keep_noRng_runCreators _ _ _ _ _)) fun a => Pres.bind O (mod fun _ => rfl) fun _ =>
              Pres.bind O (rec' _) fun _ => Pres.pure O _
          · exact Pres.throw O _
    | setState n v =>
      refine Pres.bind O ?_ fun _ => Pres.pure O _
      unfold setState
      exact Pres.bind O (Pres.readOnly O (readOnly_bundleName _)) fun b => Pres.bind O (mod fun _ => rfl) fun _ => Pres.bind O (Pres.get O) fun s0 =>
        Pres.bind O (mod fun _ => rfl) fun _ => rec' _
    | nextKey => exact Pres.bind O (seq draw) fun _ => Pres.pure O _
    | nextKeys n => exact Pres.bind O (seq fun q s => rfl) fun _ => Pres.pure O _
    | maybeNextKey =>
      refine Pres.bind O ?_ fun _ => Pres.pure O _
      intro s
      unfold maybeNextRngKey
      split
      · exact O.refl s
      · exact Pres.bind O (draw _) (fun _ => Pres.pure O _) s
    | reserve n => exact Pres.bind O (seq fun q s => rfl) fun _ => Pres.pure O _
    | runningInit => exact Pres.pure O _
    | superInit m n cls => exact absurd rfl (ho m n cls)
    | modDict m b => exact Pres.readOnly O (readOnly_modDict m b)
    | liftUnpack m => exact Pres.bind O (Pres.readOnly O (readOnly_liftUnpack m _)) fun _ => Pres.pure O _
    | liftPack m p =>
      refine Pres.bind O ?_ fun _ => Pres.pure O _
      intro s
      unfold liftPack
      split
      · exact O.refl s
      · split
        · exact O.refl s
        · exact O.refl s
  exact key s.loc

/-! ### Examples -/

/-- A transform with a module "a" that has recorded "c" as submodule, a module "c", and parameters in five bundles. -/
def several : World := { World.initial with
  frames := [World.frameOf { Ctx.new (some [("a".toList, [("w".toList, ⟨[], .f32, [1]⟩)]), ("ab".toList, [("w".toList, ⟨[], .f32, [2]⟩)]),
    ("a/b".toList, [("w".toList, ⟨[], .f32, [3]⟩), ("x".toList, ⟨[], .f32, [4]⟩)]), ("c".toList, [("w".toList, ⟨[], .f32, [5]⟩)]),
    ("d".toList, [("w".toList, ⟨[], .f32, [6]⟩)])]) (some []) none with frozen := false }]
  heap := [⟨some "a".toList, some ["c".toList]⟩, ⟨some "c".toList, some []⟩] }

example : InTransform several ∧ several.heap[0]? = some ⟨some "a".toList, some ["c".toList]⟩ ∧
    ((Prog.op (.modDict 0 false)).run stackMach several).1 = .ok (.bundle [([], [("a/w".toList, ⟨[], .f32, [1]⟩),
      ("a/b/w".toList, ⟨[], .f32, [3]⟩), ("a/b/x".toList, ⟨[], .f32, [4]⟩), ("c/w".toList, ⟨[], .f32, [5]⟩)])]) :=
  ⟨⟨_, _, _, _, rfl, rfl⟩, rfl, by decide +kernel⟩

example : PlainNames (stored several false) ∧ Tidy several := by
  constructor
  · unfold PlainNames; decide +kernel
  · intro F hF
    cases hF
    exact WF2.ctxNew (some _) (some []) none []

/-- A method of module 0 calls a method of module 1, which was created outside it. -/
def calling : Prog := .callMethod 0 "go".toList .unit fun _ => .callMethod 1 "go".toList .unit fun _ => .ret .unit

/-- A transform with two modules "a" and "c" without submodules, inside a method of module 0. -/
def inside : World := { several with heap := [⟨some "a".toList, some []⟩, ⟨some "c".toList, some []⟩] }

example : InTransform inside ∧ submodules inside 0 = [] ∧ (calling.run stackMach inside).1 = .ok .unit ∧
    submodules (calling.run stackMach inside).2 0 = ["c".toList] ∧ submodules (calling.run stackMach inside).2 1 = [] :=
  ⟨⟨_, _, _, _, rfl, rfl⟩, by decide +kernel⟩

/-- Two parameters with the same full name. -/
def colliding : World := { World.initial with
  frames := [World.frameOf { Ctx.new (some [("a".toList, [("b/w".toList, ⟨[], .f32, [1]⟩)]), ("a/b".toList, [("w".toList, ⟨[], .f32, [2]⟩)])])
    (some []) none with frozen := false }]
  heap := [⟨some "a".toList, some []⟩] }

/-- C45 fails for parameter names with a slash: both parameters belong to module "a", one of them is missing from the result. -/
theorem full_names_collide : ∃ (w : World) (m : ModId) (p q : Str × Str) (x y : Arr), InTransform w ∧ p ≠ q ∧ x ≠ y ∧
    lookup2 (topParams w) p.1 p.2 = some x ∧ lookup2 (topParams w) q.1 q.2 = some y ∧ Selected "a".toList [] p.1 ∧ Selected "a".toList [] q.1 ∧
    w.heap[m]? = some ⟨some "a".toList, some []⟩ ∧
    ((Prog.op (.modDict m false)).run stackMach w).1 = .ok (.bundle [([], [("a/b/w".toList, y)])]) :=
  ⟨colliding, 0, ("a".toList, "b/w".toList), ("a/b".toList, "w".toList), ⟨[], .f32, [1]⟩, ⟨[], .f32, [2]⟩, ⟨_, _, _, _, rfl, rfl⟩, by decide, by decide,
    by decide +kernel, by decide +kernel, .inl rfl, .inr (.inl ⟨"b".toList, rfl⟩), rfl, by decide +kernel⟩

end Verif.Props.Submodules
