import Verif.Model.ToModule
import Verif.Props.Scopes
import Verif.Props.SubmodulesRun

/-!
# Functions made into modules (C188)
-/

set_option linter.unusedVariables false

namespace Verif.Props.ToModule
open Verif Names Frame Verif.ToModule
open Verif.Props.Context Verif.Props.Control Verif.Props.Params Verif.Props.State Verif.Props.Submodules Verif.Props.Names Verif.Props.Scopes

/-- Two worlds that differ at most in how often and in which order submodules are recorded. -/
structure SameWorld (w w' : World) : Prop where
  frames : w.frames = w'.frames
  hooks : w.hooks = w'.hooks
  namedCall : w.namedCall = w'.namedCall
  log : w.log = w'.log
  size : w.heap.length = w'.heap.length
  names : ∀ m, nameOf w m = nameOf w' m
  subs : ∀ m b, b ∈ submodules w m ↔ b ∈ submodules w' m

/-- Telling modules what they know already changes nothing but the record. -/
theorem notifyLoop_known (self : ModId) (n : Str) : ∀ (ms : List (ModId × Str)) (s : Loc), (∀ p ∈ ms, p.1 ≠ self → n ∈ sb s.heap p.1) →
    ∃ h', notifyLoop self n ms s = (.ok (), { s with heap := h' }) ∧ h'.length = s.heap.length ∧ (∀ m, nm h' m = nm s.heap m) ∧ ∀ m b, b ∈ sb h' m ↔ b ∈ sb s.heap m := by
  intro ms
  induction ms with
  | nil => intro s _; exact ⟨s.heap, rfl, rfl, fun _ => rfl, fun _ _ => Iff.rfl⟩
  | cons p ms ih =>
    obtain ⟨m0, meth⟩ := p
    intro s h
    unfold notifyLoop
    by_cases h0 : m0 = self
    · rw [if_pos h0]
      exact ih s fun p hp => h p (List.mem_cons_of_mem _ hp)
    · rw [if_neg h0]
      have hk : n ∈ sb s.heap m0 := h _ (List.mem_cons_self ..) h0
      obtain ⟨n0, subs0, e0, hin⟩ : ∃ n0 subs0, s.heap[m0]? = some ⟨n0, some subs0⟩ ∧ n ∈ subs0 := by
        unfold sb at hk
        rcases e : s.heap[m0]? with _ | ⟨n0, _ | subs0⟩
        · rw [e] at hk; cases hk
        · rw [e] at hk; cases hk
        · rw [e] at hk; exact ⟨n0, subs0, rfl, hk⟩
      rw [e0]
      dsimp only
      have hnm : ∀ m, nm (s.heap.modify m0 fun o => { o with subs := some (n :: subs0) }) m = nm s.heap m := by
        intro m
        unfold nm
        rw [heap_modify']
        by_cases hm : m0 = m
        · subst hm; rw [if_pos rfl, e0]; rfl
        · rw [if_neg hm]
      have hsb : ∀ m b, b ∈ sb (s.heap.modify m0 fun o => { o with subs := some (n :: subs0) }) m ↔ b ∈ sb s.heap m := by
        intro m b
        unfold sb
        rw [heap_modify']
        by_cases hm : m0 = m
        · subst hm
          rw [if_pos rfl, e0]
          show b ∈ n :: subs0 ↔ b ∈ subs0
          rw [List.mem_cons]
          exact ⟨fun h => h.elim (fun e => e ▸ hin) id, .inr⟩
        · rw [if_neg hm]
      obtain ⟨h', e1, e2, e3, e4⟩ := ih { s with heap := s.heap.modify m0 fun o => { o with subs := some (n :: subs0) } }
        fun p hp hne => (hsb _ _).2 (h p (List.mem_cons_of_mem _ hp) hne)
      exact ⟨h', e1, by rw [e2]; simp, fun m => (e3 m).trans (hnm m), fun m b => (e4 m b).trans (hsb m b)⟩

/-- C188: without interceptors and named calls, constructing the module under a name and calling it is `with name_scope(name): f(x)`: the same result or exception, parameters, state, keys, naming scopes, modules and recorded submodules. -/
theorem as_scope {w : World} (h : Here w) (hn : w.namedCall = false) {f : PyFn} (hf : ∀ x, Orderly (f.body x)) {a A : Str} (ha : IsIdent a) (hA : Gets w a A)
    (hfresh : ∀ m, Running w m → nameOf w m ≠ some A) (x : Val) :
    ((newAndCall f (.str a) x).run stackMach w).1 = ((Prog.nameScope a (f.body x)).run stackMach w).1 ∧
      SameWorld ((newAndCall f (.str a) x).run stackMach w).2 ((Prog.nameScope a (f.body x)).run stackMach w).2 := by
  obtain ⟨F, rest, r, tl, hF, hr⟩ := h.inside
  have hc := toWorld_curr hF hr
  generalize curr F r w = s at hc
  subst hc
  obtain ⟨hi, hr, sc, scs, hs⟩ := here_local h
  obtain ⟨hv, c, sc', hc, hq⟩ := (gets_local h hs).1 hA
  obtain ⟨h', e1, e2, e3, e4⟩ := plainModule_ok (cls := sModule) hi hr hs hv hc hq
  obtain ⟨-, g1, -, n, k1, k2⟩ := construct_ok (fun id _ => CGood.super id (some a) sModule) e1
  have hnA : n = A := by
    have k1 : nm h' s.loc.heap.length = some n := k1
    unfold nm at k1
    rw [e3] at k1
    exact (Option.some.inj k1).symm
  subst hnA
  have hslash := splitSlash_join a [] (ident_noSep ha).2.1 (by simp)
  have hj : joinSlash a [] = a := by simp [joinSlash]
  rw [hj] at hslash
  rw [(ref_run _).1, (ref_run _).1, nameScope_eq a _ _ (by have := ident_head ha []; rwa [List.append_nil] at this), hslash]
  have l1 : (newAndCall f (.str a) x).run localMach s = wrapMethod localMach s.loc.heap.length sCall x (fun y => (f.body y).run localMach) { s with loc := { s.loc with scopes := sc' :: scs, heap := h' } } := by
    show (((plainModule localMach a sModule >>- fun id => M.pure (Val.mod id)) >>- fun m => Prog.run localMach (match m with | .mod id => call f id x | _ => .raise typeError)) s) = _
    rw [M.bind, M.bind, e1]
    rfl
  have l2 : (nameScopeCtor localMach [a] >>- fun id => localMach.inModule (id, sCall) ((f.body x).run localMach)) s =
      localMach.inModule (s.loc.heap.length, sCall) ((f.body x).run localMach) { s with loc := { s.loc with scopes := sc' :: scs, heap := h' } } := by
    show ((plainModule localMach a sModule >>- fun id => localMach.inModule (id, sCall) ((f.body x).run localMach)) s) = _
    rw [M.bind, e1]
  rw [l1, l2]
  unfold wrapMethod
  have key : ∀ (m : M LW Val) (s' : LW), localMach.inModule (s.loc.heap.length, sCall) m s' = LW.inModule (s.loc.heap.length, sCall) m s' := fun _ _ => rfl
  rw [key, key, LW.inModule, LW.inModule, M.bind, top_eq]
  have k3 : ∀ E l, (getModuleName s.loc.heap.length >>- fun nm => M.pure (nm, Env.hooks E |>.interceptors, Env.namedCall E)) l =
    (.ok (l.heap[s.loc.heap.length]?.bind ModObj.name, E.hooks.interceptors, E.namedCall), l) := fun _ _ => rfl
  rw [k3]
  have hnc : s.env.namedCall = false := hn
  dsimp only
  rw [hi, if_neg (by simp [hnc]), M.bind, e3]
  unfold runInterceptors
  rw [Option.bind_some]
  have hgood := (hf x).good ⟨{ s.env with modules := (s.loc.heap.length, sCall) :: s.env.modules }, { s.loc with scopes := Scope.empty :: sc' :: scs, heap := h' }⟩
  revert hgood
  rcases (f.body x).run localMach ⟨{ s.env with modules := (s.loc.heap.length, sCall) :: s.env.modules }, { s.loc with scopes := Scope.empty :: sc' :: scs, heap := h' }⟩
    with ⟨e | v, s2⟩
  · intro _
    exact ⟨rfl, rfl, rfl, rfl, rfl, rfl, fun _ => rfl, fun _ _ => Iff.rfl⟩
  · intro hgood
    obtain ⟨ge, gr⟩ := hgood v s2 rfl
    obtain ⟨E2, L2⟩ := s2
    have ge : E2 = _ := ge
    subst ge
    obtain ⟨h3, n1, n2, n3, n4⟩ := notifyLoop_known s.loc.heap.length n ((s.loc.heap.length, sCall) :: s.env.modules) L2 (by
      intro p hp hne
      rcases List.mem_cons.1 hp with rfl | hp
      · exact absurd rfl hne
      · refine gr.1.subs _ _ (by simp) ?_
        rcases k2 p.1 (List.mem_map.2 ⟨p, hp, rfl⟩) with hname | hsub
        · exfalso
          refine hfresh p.1 ⟨_, rfl, List.mem_map.2 ⟨p, hp, rfl⟩⟩ ?_
          obtain ⟨n0, subs0, e0⟩ := hr p hp
          have : nm s.loc.heap p.1 = some n0 := by unfold nm; rw [e0]; rfl
          have h5 := g1.name p.1 n0 (by simp) this
          have h5 : nm h' p.1 = some n0 := h5
          have hname : nm h' p.1 = some n := hname
          rw [h5] at hname
          show nm s.loc.heap p.1 = some n
          rw [this, hname]
        · exact hsub)
    dsimp only
    rw [M.bind, top_eq]
    have hnot : ∀ E, Frame.notify s.loc.heap.length (some n) E L2 = notifyLoop s.loc.heap.length n E.modules L2 := fun E => rfl
    rw [hnot, n1]
    exact ⟨rfl, rfl, rfl, rfl, rfl, n2, n3, n4⟩

/-- The name that the module asks for: the given one, or `f.__name__`. -/
def Wanted (f : PyFn) (arg : NameArg) (n : Str) : Prop := arg = .str n ∨ arg = .none ∧ f.name = some n

theorem new_eq {σ : Type} (K : Mach σ) {f : PyFn} {arg : NameArg} {n : Str} (h : Wanted f arg n) : (new f arg).run K = (moduleNamed n).run K := by
  rcases h with rfl | ⟨rfl, h⟩
  · rfl
  · have : nameFor f .none = .ok n := by unfold nameFor; rw [h]
    unfold new
    rw [this]
    rfl

/-- C188: the module has the name that a module constructed here with the wanted name has. -/
theorem new_named {w : World} {f : PyFn} {arg : NameArg} {n A : Str} (hn : Wanted f arg n) (hA : Gets w n A) :
    ∃ id w', (new f arg).run stackMach w = (.ok (.mod id), w') ∧ nameOf w' id = some A := by
  rw [new_eq stackMach hn]
  exact hA

theorem raise_local {s : LW} {f : PyFn} {arg : NameArg} {e : Exc} (hi : s.env.hooks.interceptors = []) (h : nameFor f arg = .error e) :
    (new f arg).run localMach s = (.error e, { s with loc := { s.loc with heap := s.loc.heap ++ [⟨none, none⟩] } }) := by
  unfold new
  rw [h]
  show ((construct localMach .unit (fun _ _ => (M.throw e : M LW Val)) >>- fun id => M.pure (Val.mod id)) s) = _
  unfold construct wrapMethod
  rw [M.bind, M.bind, top_eq]
  dsimp only [allocModule]
  rw [M.bind]
  have key : ∀ (m : M LW Val) (s' : LW), localMach.inModule (s.loc.heap.length, sInit) m s' = LW.inModule (s.loc.heap.length, sInit) m s' := fun _ _ => rfl
  rw [key, LW.inModule, M.bind, top_eq]
  have e1 : ∀ E l, (getModuleName s.loc.heap.length >>- fun nm => M.pure (nm, Env.hooks E |>.interceptors, Env.namedCall E)) l =
    (.ok (l.heap[s.loc.heap.length]?.bind ModObj.name, E.hooks.interceptors, E.namedCall), l) := fun _ _ => rfl
  rw [e1]
  dsimp only
  rw [hi]
  have e2 : (s.loc.heap ++ [(⟨none, none⟩ : ModObj)])[s.loc.heap.length]? = some ⟨none, none⟩ := by simp
  rw [e2]
  dsimp only [Option.bind_some]
  rw [if_neg (by simp)]
  rfl

/-- Everything is as before but for one more module object. -/
def Kept (w w' : World) : Prop := w' = { w with heap := w'.heap } ∧ ∀ (m : ModId) o, w.heap[m]? = some o → w'.heap[m]? = some o

/-- C188: for a name that is no string there is a `TypeError`, without a name for a function without `__name__`, such as a `functools.partial`, an `AttributeError`; nothing else happens. -/
theorem new_raises {w : World} (h : Here w) (f : PyFn) :
    (∃ w', (new f .other).run stackMach w = (.error typeError, w') ∧ Kept w w') ∧ (f.name = none → ∃ w', (new f .none).run stackMach w = (.error attributeError, w') ∧ Kept w w') := by
  obtain ⟨F, rest, r, tl, hF, hr⟩ := h.inside
  have hc := toWorld_curr hF hr
  generalize curr F r w = s at hc
  subst hc
  obtain ⟨hi, -⟩ := here_local h
  have kept : Kept (toWorld s tl rest) (toWorld { s with loc := { s.loc with heap := s.loc.heap ++ [⟨none, none⟩] } } tl rest) := by
    refine ⟨rfl, fun m o e => ?_⟩
    have e : s.loc.heap[m]? = some o := e
    show (s.loc.heap ++ [_])[m]? = some o
    rw [List.getElem?_append_left (List.getElem?_eq_some_iff.1 e).1]
    exact e
  refine ⟨⟨_, ?_, kept⟩, fun hn => ⟨_, ?_, kept⟩⟩
  · rw [(ref_run _).1, raise_local hi rfl]
  · rw [(ref_run _).1, raise_local hi (by unfold nameFor; rw [hn])]

/-- C188: a wanted name that is no identifier, such as `<lambda>`, is a `ValueError`; nothing else happens. -/
theorem lambda_raises {w : World} (h : Here w) {f : PyFn} {arg : NameArg} {n : Str} (hn : Wanted f arg n) (hv : validIdentifier n = false) :
    ∃ w', (new f arg).run stackMach w = (.error .invalidName, w') ∧ Kept w w' := by
  obtain ⟨F, rest, r, tl, hF, hr⟩ := h.inside
  have hc := toWorld_curr hF hr
  generalize curr F r w = s at hc
  subst hc
  obtain ⟨hi, -⟩ := here_local h
  refine ⟨toWorld { s with loc := { s.loc with heap := s.loc.heap ++ [⟨none, none⟩] } } tl rest, ?_, rfl, fun m o e => ?_⟩
  · rw [new_eq stackMach hn, (ref_run _).1, moduleNamed_eq, M.bind, plainModule_error hi (superInit_invalid hv)]
    rfl
  · have e : s.loc.heap[m]? = some o := e
    show (s.loc.heap ++ [_])[m]? = some o
    rw [List.getElem?_append_left (List.getElem?_eq_some_iff.1 e).1]
    exact e

/-- C188: a parameter of the module, once created, is what `get_parameter` gives in every later call of the module, whatever runs between the calls. -/
theorem calls_share {w w1 : World} (hw : InTransform w) (ht : Tidy w) {id : ModId} {A name : Str} {a : Arr} (hid : nameOf w id = some A) (hp : param w A name = some a)
    {p : Prog} (ho : Orderly p) {v : Val} (h : p.run stackMach w = (.ok v, w1)) (method : Str) (shape : List Nat) (dtype : DType) (i : Initializer) :
    (Prog.op (.getParam name shape dtype (some i))).run stackMach (enter id method w1) =
      (answer shape (Params.viaGetters (enter id method w1) A name shape dtype a), accessed (.paramRead A name a) (enter id method w1)) := by
  have h1 : param w1 A name = some a := by
    have := param_never_changes hw ht p A name a hp
    rw [h] at this
    exact this
  obtain ⟨F, rest, r, tl, hF, hr⟩ := hw
  have hc := toWorld_curr hF hr
  generalize curr F r w = s at hc
  subst hc
  rw [(ref_run _).1] at h
  obtain ⟨h2, rfl⟩ := Prod.mk.inj h
  have hname := (ho.good _ _ _ (Prod.ext h2 rfl : p.run localMach s = (.ok v, _))).2.1.name id A (by simp) hid
  exact existing_returned (w := enter id method (toWorld (p.run localMach s).2 tl rest)) ⟨_, _, _, _, rfl, rfl⟩ A name shape dtype i a hname h1

/-! ### Concrete cases -/

/-- `def bias_fn(x): return hk.get_parameter("b", [], init=...)`. -/
def biasFn : PyFn := ⟨some "bias_fn".toList, fun _ => .op (.getParam "b".toList [] .f32 (some fun _ _ => .ret ⟨[], .f32, [5]⟩))⟩

theorem bias_orderly (x : Val) : Orderly (biasFn.body x) := .op fun m n cls h => by cases h

theorem ident_bias : IsIdent "my_bias".toList := (validIdentifier_iff_partial _ (by decide)).1 (by decide +kernel)

theorem gets_bias : Gets (entered fresh World.initial) "my_bias".toList "my_bias".toList := gets_start _ _ rfl _ _ (by decide +kernel)

example : ((newAndCall biasFn (.str "my_bias".toList) .unit).run stackMach (entered fresh World.initial)).1 =
    ((Prog.nameScope "my_bias".toList (biasFn.body .unit)).run stackMach (entered fresh World.initial)).1 :=
  (as_scope (here_fresh _) rfl bias_orderly ident_bias gets_bias (fun m ⟨F, hF, hm⟩ => by cases hF; cases hm) .unit).1

/-- The parameter is that of the module. -/
example : topParams ((newAndCall biasFn (.str "my_bias".toList) .unit).run stackMach (entered fresh World.initial)).2 = [("my_bias".toList, [("b".toList, ⟨[], .f32, [5]⟩)])] := by
  decide +kernel

/-- Without a name: that of the function. -/
example : topParams ((newAndCall biasFn .none .unit).run stackMach (entered fresh World.initial)).2 = [("bias_fn".toList, [("b".toList, ⟨[], .f32, [5]⟩)])] := by decide +kernel

example : ∃ id w', (new biasFn (.str "my_bias".toList)).run stackMach (entered fresh World.initial) = (.ok (.mod id), w') ∧ nameOf w' id = some "my_bias".toList :=
  new_named (.inl rfl) gets_bias

example : ∃ w', (new ⟨none, biasFn.body⟩ .none).run stackMach (entered fresh World.initial) = (.error attributeError, w') ∧ Kept (entered fresh World.initial) w' :=
  (new_raises (here_fresh _) ⟨none, biasFn.body⟩).2 rfl

example : ∃ w', (new ⟨some "<lambda>".toList, biasFn.body⟩ .none).run stackMach (entered fresh World.initial) = (.error .invalidName, w') ∧ Kept (entered fresh World.initial) w' :=
  lambda_raises (here_fresh _) (.inr ⟨rfl, rfl⟩) (by decide +kernel)

/-- After a call. -/
def called : World := ((newAndCall biasFn (.str "my_bias".toList) .unit).run stackMach (entered fresh World.initial)).2

theorem called_inside : InTransform called := by
  unfold called
  rw [Verif.Props.Transform.entered_run]
  exact ⟨_, _, _, _, rfl, rfl⟩

/-- `calls_share`: the second call, after another module has been used. -/
example : InTransform called ∧ Tidy called ∧ nameOf called 0 = some "my_bias".toList ∧ param called "my_bias".toList "b".toList = some ⟨[], .f32, [5]⟩ ∧
    Orderly (newAndCall biasFn .none .unit) ∧ ((newAndCall biasFn .none .unit).run stackMach called).1 = .ok (.arr ⟨[], .f32, [5]⟩) :=
  ⟨called_inside, tidy_run _ (w := entered fresh World.initial) ⟨_, _, _, _, rfl, rfl⟩ (fun F hF => by cases hF; exact tidy_start none none none World.initial _ rfl), by decide +kernel, by decide +kernel,
    .bind (.newModule fun _ _ => .now) fun m => by cases m <;> first | exact .callMethod bias_orderly | exact .raise _, by decide +kernel⟩

end Verif.Props.ToModule
