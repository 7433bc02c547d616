import Verif.Lemmas.Top
import Verif.Lemmas.Control
import Verif.Lemmas.Names

/-!
# Running constructors and `name_scope` on the local machine
-/

set_option linter.unusedVariables false

namespace Verif
open Names Frame LW

/-- The caller a constructor sees: the current module and method. -/
def CallerIs (mods : List (ModId × Str)) (heap : List ModObj) (c : Caller) : Prop :=
  match mods with
  | [] => c = none
  | (m, method) :: _ => ∃ n subs, heap[m]? = some ⟨some n, subs⟩ ∧ c = some (n, method)

/-- The super constructor of every module on the stack has run. -/
def Ready (mods : List (ModId × Str)) (heap : List ModObj) : Prop := ∀ p ∈ mods, ∃ n subs, heap[p.1]? = some ⟨some n, some subs⟩

theorem Ready.lt {mods : List (ModId × Str)} {heap : List ModObj} (h : Ready mods heap) {p : ModId × Str} (hp : p ∈ mods) : p.1 < heap.length := by
  obtain ⟨n, subs, e⟩ := h p hp
  exact (List.getElem?_eq_some_iff.1 e).1

theorem Ready.caller {mods : List (ModId × Str)} {heap : List ModObj} (h : Ready mods heap) : ∃ c, CallerIs mods heap c := by
  cases mods with
  | nil => exact ⟨none, rfl⟩
  | cons p ms =>
    obtain ⟨m, method⟩ := p
    obtain ⟨n, subs, e⟩ := h _ (List.mem_cons_self ..)
    exact ⟨_, n, some subs, e, rfl⟩

/-- What later calls may do to a module object: only add submodules. -/
def ObjLe (o o' : ModObj) : Prop := o'.name = o.name ∧ (o.subs.isSome → o'.subs.isSome)

/-- Objects stay, possibly with more submodules. -/
def HeapLe (h h' : List ModObj) : Prop := ∀ (m : ModId) o, h[m]? = some o → ∃ o', h'[m]? = some o' ∧ ObjLe o o'

theorem HeapLe.refl (h : List ModObj) : HeapLe h h := fun m o e => ⟨o, e, rfl, id⟩
theorem HeapLe.trans {a b c : List ModObj} (h : HeapLe a b) (k : HeapLe b c) : HeapLe a c := fun m o e => by
  obtain ⟨o', e', h1, h2⟩ := h m o e
  obtain ⟨o'', e'', k1, k2⟩ := k m o' e'
  exact ⟨o'', e'', k1.trans h1, fun x => k2 (h2 x)⟩

theorem HeapLe.named {h h' : List ModObj} (k : HeapLe h h') {m : ModId} {n : Str} {subs : List Str} (e : h[m]? = some ⟨some n, some subs⟩) :
    ∃ subs', h'[m]? = some ⟨some n, some subs'⟩ := by
  obtain ⟨⟨n', s'⟩, e', h1, h2⟩ := k m _ e
  have h1 : n' = some n := h1
  subst h1
  cases s' with
  | none => cases h2 rfl
  | some x => exact ⟨x, e'⟩

theorem HeapLe.ready {mods : List (ModId × Str)} {h h' : List ModObj} (k : HeapLe h h') (r : Ready mods h) : Ready mods h' := by
  intro p hp
  obtain ⟨n, subs, e⟩ := r p hp
  obtain ⟨subs', e'⟩ := k.named e
  exact ⟨n, subs', e'⟩

theorem HeapLe.callerIs {mods : List (ModId × Str)} {h h' : List ModObj} (k : HeapLe h h') {c : Caller} (r : CallerIs mods h c) : CallerIs mods h' c := by
  cases mods with
  | nil => exact r
  | cons p ms =>
    obtain ⟨n, subs, e, rfl⟩ := r
    obtain ⟨⟨n', s'⟩, e', h1, h2⟩ := k p.1 _ e
    have h1 : n' = some n := h1
    subst h1
    exact ⟨n, s', e', rfl⟩

theorem HeapLe.append (h t : List ModObj) : HeapLe h (h ++ t) := fun m o e =>
  ⟨o, by rw [List.getElem?_append_left (List.getElem?_eq_some_iff.1 e).1]; exact e, rfl, id⟩

theorem heap_modify' {h : List ModObj} {m : ModId} {f : ModObj → ModObj} (i : Nat) : (h.modify m f)[i]? = if m = i then h[i]?.map f else h[i]? := by
  rw [List.getElem?_modify]
  by_cases e : m = i
  · rw [if_pos e]; simp [e]
  · rw [if_neg e]; simp [e]

/-- Notifying modules that are all ready succeeds. -/
theorem notifyLoop_ready (self : ModId) (n : Str) : ∀ (ms : List (ModId × Str)) (s : Loc), (∀ p ∈ ms, p.1 ≠ self → ∃ n subs, s.heap[p.1]? = some ⟨some n, some subs⟩) →
    ∃ h', notifyLoop self n ms s = (.ok (), { s with heap := h' }) ∧ h'.length = s.heap.length ∧ h'[self]? = s.heap[self]? ∧ HeapLe s.heap h' := by
  intro ms
  induction ms with
  | nil => intro s _; exact ⟨s.heap, rfl, rfl, rfl, HeapLe.refl _⟩
  | cons p ms ih =>
    obtain ⟨m0, meth⟩ := p
    intro s h
    unfold notifyLoop
    by_cases h0 : m0 = self
    · rw [if_pos h0]
      exact ih s fun p hp => h p (List.mem_cons_of_mem _ hp)
    · rw [if_neg h0]
      obtain ⟨n0, subs0, e0⟩ := h _ (List.mem_cons_self ..) h0
      rw [e0]
      dsimp only
      have le : HeapLe s.heap (s.heap.modify m0 fun o => { o with subs := some (n :: subs0) }) := by
        intro m o e
        rw [heap_modify']
        by_cases hm : m0 = m
        · rw [if_pos hm, e]; exact ⟨_, rfl, rfl, fun _ => rfl⟩
        · rw [if_neg hm]; exact ⟨o, e, rfl, id⟩
      obtain ⟨h', e1, e2, e3, e4⟩ := ih { s with heap := s.heap.modify m0 fun o => { o with subs := some (n :: subs0) } } (by
        intro p hp hne
        obtain ⟨n1, subs1, e⟩ := h p (List.mem_cons_of_mem _ hp) hne
        obtain ⟨subs', e'⟩ := le.named e
        exact ⟨n1, subs', e'⟩)
      refine ⟨h', e1, by rw [e2]; simp, ?_, le.trans e4⟩
      rw [e3]
      show (s.heap.modify m0 _)[self]? = _
      rw [heap_modify', if_neg h0]

/-- `Module.__init__` inside a constructor, when the name is accepted or not. -/
theorem superInit_run {E : Env} {l : Loc} {id : ModId} {n cls : Str} {mods : List (ModId × Str)} {own sc : Scope} {rest : List Scope} {c : Caller}
    (hE : E.modules = (id, sInit) :: mods) (hs : l.scopes = own :: sc :: rest) (hid : ∀ p ∈ mods, p.1 ≠ id) (hv : validIdentifier n = true)
    (hc : CallerIs mods l.heap c) : (Op.superInit id (some n) cls).run E l =
      match request c sc n with
      | (.ok q, sc') => (.ok .unit, { l with
          scopes := own :: sc' :: rest
          heap := (l.heap.modify id fun o => { o with subs := some [] }).modify id fun o => { o with name := some q } })
      | (.error e, sc') => (.error e, { l with scopes := own :: sc' :: rest, heap := l.heap.modify id fun o => { o with subs := some [] } }) := by
  have hcall : ∀ l' : Loc, l'.heap = (l.heap.modify id fun o => { o with subs := some [] }) → callerOf E l' = (.ok c, l') := by
    intro l' hl
    unfold callerOf
    rw [hE]
    cases mods with
    | nil => cases hc; rfl
    | cons p ms =>
      obtain ⟨m, method⟩ := p
      obtain ⟨nm, subs, e, rfl⟩ := hc
      dsimp only
      have hne : id ≠ m := fun h => hid (m, method) (List.mem_cons_self ..) h.symm
      unfold moduleName
      rw [hl, heap_modify', if_neg hne, e]
      rfl
  show ((superInit id (some n) cls E >>- fun _ => M.pure Val.unit) l) = _
  unfold superInit
  rw [Option.getD_some, if_pos hv]
  unfold M.bind M.modify
  dsimp only
  rw [hcall _ rfl]
  dsimp only
  rw [hs]
  dsimp only
  rcases request c sc n with ⟨e | q, sc'⟩ <;> rfl

theorem superInit_invalid {E : Env} {l : Loc} {id : ModId} {n cls : Str} (hv : validIdentifier n = false) :
    (Op.superInit id (some n) cls).run E l = (.error .invalidName, l) := by
  show ((superInit id (some n) cls E >>- fun _ => M.pure Val.unit) l) = _
  unfold superInit
  rw [Option.getD_some, if_neg (by rw [hv]; decide)]
  rfl

/-- `hk.Module(name=n)`. -/
def plainModule {σ : Type} (K : Mach σ) (n cls : Str) : M σ ModId := construct K .unit fun id _ => K.top (Op.superInit id (some n) cls).run

/-- A constructor that fails before its body does anything else. -/
theorem plainModule_error {s : LW} {n cls : Str} {e : Exc} {l' : Loc} (hi : s.env.hooks.interceptors = [])
    (h : (Op.superInit s.loc.heap.length (some n) cls).run { s.env with modules := (s.loc.heap.length, sInit) :: s.env.modules }
      { s.loc with scopes := Scope.empty :: s.loc.scopes, heap := s.loc.heap ++ [⟨none, none⟩] } = (.error e, l')) :
    plainModule localMach n cls s = (.error e, { s with loc := { l' with scopes := l'.scopes.tail } }) := by
  unfold plainModule construct
  rw [M.bind, top_eq]
  dsimp only [allocModule]
  rw [M.bind]
  unfold wrapMethod
  have key : ∀ (m : M LW Val) (s' : LW), localMach.inModule (s.loc.heap.length, sInit) m s' = LW.inModule (s.loc.heap.length, sInit) m s' := fun _ _ => rfl
  rw [key, LW.inModule]
  rw [M.bind, top_eq]
  have e1 : ∀ E l, (getModuleName s.loc.heap.length >>- fun nm => M.pure (nm, Env.hooks E |>.interceptors, Env.namedCall E)) l =
    (.ok (l.heap[s.loc.heap.length]?.bind ModObj.name, E.hooks.interceptors, E.namedCall), l) := fun _ _ => rfl
  rw [e1]
  dsimp only
  rw [hi]
  have e2 : (s.loc.heap ++ [(⟨none, none⟩ : ModObj)])[s.loc.heap.length]? = some ⟨none, none⟩ := by simp
  rw [e2]
  dsimp only [Option.bind_some]
  rw [if_neg (by simp)]
  unfold runInterceptors
  rw [M.bind, top_eq, h]

theorem plainModule_ok {s : LW} {n cls q : Str} {c : Caller} {sc sc' : Scope} {rest : List Scope} (hi : s.env.hooks.interceptors = [])
    (hr : Ready s.env.modules s.loc.heap) (hs : s.loc.scopes = sc :: rest) (hv : validIdentifier n = true)
    (hc : CallerIs s.env.modules s.loc.heap c) (hq : request c sc n = (.ok q, sc')) :
    ∃ h', plainModule localMach n cls s = (.ok s.loc.heap.length, { s with loc := { s.loc with scopes := sc' :: rest, heap := h' } }) ∧
      h'.length = s.loc.heap.length + 1 ∧ h'[s.loc.heap.length]? = some ⟨some q, some []⟩ ∧ HeapLe s.loc.heap h' := by
  have hne : ∀ p ∈ s.env.modules, p.1 ≠ s.loc.heap.length := fun p hp => Nat.ne_of_lt (hr.lt hp)
  have hsup := superInit_run (E := { s.env with modules := (s.loc.heap.length, sInit) :: s.env.modules })
    (l := { s.loc with scopes := Scope.empty :: s.loc.scopes, heap := s.loc.heap ++ [⟨none, none⟩] }) (id := s.loc.heap.length) (n := n) (cls := cls)
    (own := Scope.empty) (sc := sc) (rest := rest) rfl (by dsimp only; rw [hs]) hne hv ((HeapLe.append _ _).callerIs hc)
  rw [hq] at hsup
  dsimp only at hsup
  generalize hl2 : ((s.loc.heap ++ [(⟨none, none⟩ : ModObj)]).modify s.loc.heap.length fun o => { o with subs := some [] }).modify s.loc.heap.length
    (fun o => { o with name := some q }) = h2 at hsup
  have hself : h2[s.loc.heap.length]? = some ⟨some q, some []⟩ := by
    rw [← hl2, heap_modify', if_pos rfl, heap_modify', if_pos rfl]
    simp
  have hlen : h2.length = s.loc.heap.length + 1 := by rw [← hl2]; simp
  have hle : HeapLe s.loc.heap h2 := by
    intro m o e
    have hm : s.loc.heap.length ≠ m := fun h => by
      have := (List.getElem?_eq_some_iff.1 e).1
      omega
    refine ⟨o, ?_, rfl, id⟩
    rw [← hl2, heap_modify', if_neg hm, heap_modify', if_neg hm]
    rw [List.getElem?_append_left (List.getElem?_eq_some_iff.1 e).1]; exact e
  obtain ⟨h3, e1, e2, e3, e4⟩ := notifyLoop_ready s.loc.heap.length q ((s.loc.heap.length, sInit) :: s.env.modules)
    { s.loc with scopes := Scope.empty :: sc' :: rest, heap := h2 } (by
      intro p hp hne'
      rcases List.mem_cons.1 hp with rfl | hp
      · exact absurd rfl hne'
      · exact hle.ready hr p hp)
  refine ⟨h3, ?_, by rw [e2]; exact hlen, by rw [e3]; exact hself, hle.trans e4⟩
  unfold plainModule construct
  rw [M.bind, top_eq]
  dsimp only [allocModule]
  rw [M.bind]
  unfold wrapMethod
  have key : ∀ (m : M LW Val) (s' : LW), localMach.inModule (s.loc.heap.length, sInit) m s' = LW.inModule (s.loc.heap.length, sInit) m s' := fun _ _ => rfl
  rw [key, LW.inModule]
  rw [M.bind, top_eq]
  have k1 : ∀ E l, (getModuleName s.loc.heap.length >>- fun nm => M.pure (nm, Env.hooks E |>.interceptors, Env.namedCall E)) l =
    (.ok (l.heap[s.loc.heap.length]?.bind ModObj.name, E.hooks.interceptors, E.namedCall), l) := fun _ _ => rfl
  rw [k1]
  dsimp only
  rw [hi]
  have k2 : (s.loc.heap ++ [(⟨none, none⟩ : ModObj)])[s.loc.heap.length]? = some ⟨none, none⟩ := by simp
  rw [k2]
  dsimp only [Option.bind_some]
  rw [if_neg (by simp)]
  unfold runInterceptors
  rw [M.bind, top_eq, hsup]
  dsimp only
  rw [M.bind, top_eq]
  have name : ∀ l : Loc, l.heap[s.loc.heap.length]? = some ⟨some q, some []⟩ → getModuleName s.loc.heap.length l = (.ok (some q), l) := by
    intro l hl
    unfold getModuleName
    rw [hl]
    rfl
  have k3 : ∀ E l, l.heap[s.loc.heap.length]? = some ⟨some q, some []⟩ → Frame.notify s.loc.heap.length none E l = notifyLoop s.loc.heap.length q E.modules l := by
    intro E l hl
    unfold Frame.notify
    dsimp only
    rw [M.bind, name _ hl]
  rw [k3 _ _ (by exact hself)]
  rw [e1]
  dsimp only [M.pure]
  rw [M.bind, top_eq]
  have k4 : ∀ l : Loc, l.heap[s.loc.heap.length]? = some ⟨some q, some []⟩ → checkCtor s.loc.heap.length l = (.ok (), l) := by
    intro l hl
    unfold checkCtor
    rw [M.bind, name _ hl]
    rfl
  rw [k4 _ (by rw [e3]; exact hself)]
  rfl

/-! ### `name_scope` -/

/-- The name given to the first module of a fresh scope with requested name `s`: the number is written without leading zeros. -/
def canonical (s : Str) : Str := match splitNum s with
  | some (b, n) => fmt b n
  | none => s

/-- The full name of the innermost of nested modules. -/
def under (q : Str) (ns : List Str) : Str := ns.foldl (fun q n => q ++ '/' :: canonical n) q

theorem request_fresh (q n : Str) (hv : validIdentifier n = true) : ∃ sc', request (some (q, sCall)) Scope.empty n = (.ok (q ++ '/' :: canonical n), sc') := by
  have hne : n ≠ [] := by rintro rfl; cases hv
  unfold request
  rw [if_pos hv]
  have e : withPrefix (some (q, sCall)) n = q ++ '/' :: n := by
    unfold withPrefix
    simp [show sCall ≠ sInit by decide]
  rw [e]
  unfold uniqueName
  have e2 : (numbering Scope.empty.counters (q ++ '/' :: n)).1 = q ++ '/' :: canonical n := by
    unfold numbering canonical
    rw [splitNum_append _ _ hne]
    cases splitNum n with
    | none => rfl
    | some r => simp [fmt]
  dsimp only
  rw [if_neg (by simp [Scope.empty]), e2]
  exact ⟨_, rfl⟩

theorem nameScopeCtor_cons2 {σ : Type} (K : Mach σ) (n m : Str) (ns : List Str) : nameScopeCtor K (n :: m :: ns) =
    (plainModule K n sModule >>- fun id => K.inModule (id, sCall) (nameScopeCtor K (m :: ns))) := rfl

theorem nameScopeCtor_ok : ∀ (ns : List Str) (s : LW) (n q : Str) (c : Caller) (sc sc' : Scope) (rest : List Scope), s.env.hooks.interceptors = [] →
    Ready s.env.modules s.loc.heap → s.loc.scopes = sc :: rest → (∀ x ∈ n :: ns, validIdentifier x = true) →
    CallerIs s.env.modules s.loc.heap c → request c sc n = (.ok q, sc') →
    ∃ id h' subs, nameScopeCtor localMach (n :: ns) s = (.ok id, { s with loc := { s.loc with scopes := sc' :: rest, heap := h' } }) ∧
      HeapLe s.loc.heap h' ∧ h'[id]? = some ⟨some (under q ns), some subs⟩ ∧ s.loc.heap.length ≤ id := by
  intro ns
  induction ns with
  | nil =>
    intro s n q c sc sc' rest hi hr hs hv hc hq
    obtain ⟨h', e1, e2, e3, e4⟩ := plainModule_ok (cls := sModule) hi hr hs (hv n (by simp)) hc hq
    exact ⟨_, h', [], e1, e4, e3, Nat.le_refl _⟩
  | cons m ns ih =>
    intro s n q c sc sc' rest hi hr hs hv hc hq
    obtain ⟨h1, e1, e2, e3, e4⟩ := plainModule_ok (cls := sModule) hi hr hs (hv n (by simp)) hc hq
    rw [nameScopeCtor_cons2, M.bind, e1]
    dsimp only
    have key : ∀ (k : M LW ModId) (s' : LW), localMach.inModule (s.loc.heap.length, sCall) k s' = LW.inModule (s.loc.heap.length, sCall) k s' := fun _ _ => rfl
    rw [key, LW.inModule]
    dsimp only
    obtain ⟨sc2, hq2⟩ := request_fresh q m (hv m (by simp))
    obtain ⟨id, h', subs, f1, f2, f3, f4⟩ := ih
      ⟨{ s.env with modules := (s.loc.heap.length, sCall) :: s.env.modules }, { s.loc with scopes := Scope.empty :: sc' :: rest, heap := h1 }⟩
      m _ _ Scope.empty sc2 (sc' :: rest) hi (by
        intro p hp
        rcases List.mem_cons.1 hp with rfl | hp
        · exact ⟨q, [], e3⟩
        · exact e4.ready hr p hp) rfl (fun x hx => hv x (by simp [hx])) ⟨q, some [], e3, rfl⟩ hq2
    dsimp only at f1
    rw [f1]
    refine ⟨id, h', subs, rfl, e4.trans f2, f3, ?_⟩
    have : h1.length ≤ id := f4
    omega

theorem nameScopeCtor_invalid : ∀ (ns : List Str) (s : LW) (n q : Str) (c : Caller) (sc sc' : Scope) (rest : List Scope), s.env.hooks.interceptors = [] →
    Ready s.env.modules s.loc.heap → s.loc.scopes = sc :: rest → (∃ x ∈ n :: ns, validIdentifier x = false) →
    CallerIs s.env.modules s.loc.heap c → (validIdentifier n = true → request c sc n = (.ok q, sc')) →
    ∃ s', nameScopeCtor localMach (n :: ns) s = (.error .invalidName, s') := by
  intro ns
  induction ns with
  | nil =>
    intro s n q c sc sc' rest hi hr hs hv hc hq
    obtain ⟨x, hx, hv⟩ := hv
    rw [List.mem_singleton.1 hx] at hv
    exact ⟨_, plainModule_error (cls := sModule) hi (superInit_invalid hv)⟩
  | cons m ns ih =>
    intro s n q c sc sc' rest hi hr hs hv hc hq
    cases hn : validIdentifier n with
    | false =>
      rw [nameScopeCtor_cons2, M.bind, plainModule_error (cls := sModule) hi (superInit_invalid hn)]
      exact ⟨_, rfl⟩
    | true =>
      obtain ⟨h1, e1, e2, e3, e4⟩ := plainModule_ok (cls := sModule) hi hr hs hn hc (hq hn)
      rw [nameScopeCtor_cons2, M.bind, e1]
      dsimp only
      have key : ∀ (k : M LW ModId) (s' : LW), localMach.inModule (s.loc.heap.length, sCall) k s' = LW.inModule (s.loc.heap.length, sCall) k s' := fun _ _ => rfl
      rw [key, LW.inModule]
      dsimp only
      cases hm : validIdentifier m with
      | true =>
        obtain ⟨sc2, hq2⟩ := request_fresh q m hm
        obtain ⟨s', f1⟩ := ih
          ⟨{ s.env with modules := (s.loc.heap.length, sCall) :: s.env.modules }, { s.loc with scopes := Scope.empty :: sc' :: rest, heap := h1 }⟩
          m _ _ Scope.empty sc2 (sc' :: rest) hi (by
            intro p hp
            rcases List.mem_cons.1 hp with rfl | hp
            · exact ⟨q, [], e3⟩
            · exact e4.ready hr p hp) rfl (by
              obtain ⟨x, hx, hv⟩ := hv
              rcases List.mem_cons.1 hx with rfl | hx
              · rw [hn] at hv; cases hv
              · exact ⟨x, hx, hv⟩) ⟨q, some [], e3, rfl⟩ fun _ => hq2
        dsimp only at f1
        rw [f1]
        exact ⟨_, rfl⟩
      | false =>
        obtain ⟨s', f1⟩ := ih
          ⟨{ s.env with modules := (s.loc.heap.length, sCall) :: s.env.modules }, { s.loc with scopes := Scope.empty :: sc' :: rest, heap := h1 }⟩
          m q (some (q, sCall)) Scope.empty sc' (sc' :: rest) hi (by
            intro p hp
            rcases List.mem_cons.1 hp with rfl | hp
            · exact ⟨q, [], e3⟩
            · exact e4.ready hr p hp) rfl ⟨m, by simp, hm⟩ ⟨q, some [], e3, rfl⟩ fun h => by rw [hm] at h; cases h
        dsimp only at f1
        rw [f1]
        exact ⟨_, rfl⟩

/-! ### Names in force only accumulate -/

/-- What may happen to one naming scope. -/
structure ScopeLe (a b : Scope) : Prop where
  used : a.used <:+ b.used
  inv : a.Inv → b.Inv

/-- Every naming scope only accumulates. -/
def ScopesLe (s s' : Loc) : Prop := ∀ (i : Nat) a, s.scopes[i]? = some a → ∃ b, s'.scopes[i]? = some b ∧ ScopeLe a b

theorem ScopesLe.preord : Preord ScopesLe where
  refl s i a h := ⟨a, h, List.suffix_refl _, id⟩
  trans h k i a e := by
    obtain ⟨b, e1, h1⟩ := h i a e
    obtain ⟨c, e2, h2⟩ := k i b e1
    exact ⟨c, e2, h1.used.trans h2.used, fun x => h2.inv (h1.inv x)⟩

theorem ScopesLe.same {s s' : Loc} (h : s'.scopes = s.scopes) : ScopesLe s s' := fun i a e => ⟨a, by rw [h]; exact e, List.suffix_refl _, id⟩

theorem ScopesLe.tol (E : Env) : Tol E ScopesLe where
  draw s q h := by
    have hk := keep_noRng_draw q s
    simp only [Keep, Loc.noRng, Prod.mk.injEq] at hk
    exact ScopesLe.same hk.2.2.1
  take s q n h := ScopesLe.same rfl
  reserve s q n h := ScopesLe.same rfl
  full s q h := ScopesLe.same rfl
  pbundle hf s b := ScopesLe.same rfl
  pnew hf s b n a _ _ := ScopesLe.same rfl
  pread s b n a _ := ScopesLe.same rfl
  sbundle s b := ScopesLe.same rfl
  snew s b n a _ _ := ScopesLe.same rfl
  sread s b n p _ := ScopesLe.same rfl
  sset s b n v _ := ScopesLe.same rfl
  alloc s := ScopesLe.same rfl
  heapSubs s m f := ScopesLe.same rfl
  scope s own sc rest caller nm sc' h h' := by
    intro i a e
    rw [h] at e
    rcases i with _ | _ | i
    · exact ⟨own, rfl, by cases e; exact ⟨List.suffix_refl _, id⟩⟩
    · cases e
      refine ⟨sc', rfl, ?_, ?_⟩
      · rw [← h']
        rcases request_used caller sc nm with ⟨q, _, _, hu⟩ | ⟨e, _, hu⟩
        · rw [hu]; exact List.suffix_cons _ _
        · rw [hu]; exact List.suffix_refl _
      · rw [← h']; exact fun hI => hI.request caller nm
    · exact ⟨a, e, List.suffix_refl _, id⟩
  named s m n := ScopesLe.same rfl
  lift hf s n p := ScopesLe.same rfl

theorem ScopesLe.update (E : Env) (d : Diff) : Pres ScopesLe (updateInternalState d E) := by
  intro s
  rw [updateInternalState_eq]
  exact ScopesLe.same rfl

theorem scopes_run (p : Prog) : Pres (LRel fun _ => ScopesLe) (p.run localMach) :=
  pres_run (LRel.preord fun _ => ScopesLe.preord) (LRel.topPres (fun _ => ScopesLe.preord) ScopesLe.tol ScopesLe.update)
    { temp := fun st m h s => ⟨rfl, ScopesLe.same rfl⟩
      inModule := fun ms m h s => by
        have := (h ⟨{ s.env with modules := ms :: s.env.modules }, { s.loc with scopes := Scope.empty :: s.loc.scopes }⟩).2
        refine ⟨rfl, fun i a e => ?_⟩
        obtain ⟨b, hb, hle⟩ := this (i + 1) a e
        refine ⟨b, ?_, hle⟩
        show (List.tail _)[i]? = _
        rw [List.getElem?_tail]
        exact hb
      inRng := fun q m h s => by
        have := h { s with loc := { s.loc with rng := some q } }
        exact ⟨this.1, this.2⟩
      inHook := fun hk m h s => by
        have := (h { s with env := { s.env with hooks := World.pushHook s.env.hooks hk } }).2
        exact ⟨rfl, this⟩
      inCtx := fun c m h s => ⟨rfl, ScopesLe.same rfl⟩ } p

end Verif
