import Verif.Lemmas.Construct
import Verif.Lemmas.Dict2
import Verif.Props.Names

/-!
# A stack of layers through `hk.transform` (C191)
-/

set_option linter.unusedVariables false

namespace Verif.Props.Stack
open Verif Names Frame Verif.Props.Names

/-! ### The function that is transformed -/

/-- An initial value: the same always (as `jnp.zeros`), or drawn with one key. -/
inductive Start where
  | constant (f : List Nat → DType → Arr)
  | random (f : List Nat → DType → Key → Arr)

/-- The initializer. -/
def Start.init : Start → Initializer
  | .constant f => fun shape dtype => .ret (f shape dtype)
  | .random f => fun shape dtype => .draw fun k => .ret (f shape dtype k)

/-- A parameter of a layer. -/
structure Spec where
  name : Str
  shape : List Nat
  dtype : DType
  start : Start

/-- A layer: a module with a name (that of its class, or one given to it), its parameters, and what it computes of them and its input. -/
structure Layer where
  name : Str
  specs : List Spec
  forward : List Arr → Val → Val

/-- `hk.get_parameter` for each of them. -/
def getAll : List Spec → (List Arr → Prog) → Prog
  | [], k => k []
  | p :: ps, k => .bind (.op (.getParam p.name p.shape p.dtype (some p.start.init))) fun v =>
    match v with
    | .arr a => getAll ps fun as => k (a :: as)
    | _ => .raise .structureMismatch

/-- Each layer is made and called with the output of the one before: `for cls in …: x = cls()(x)`. -/
def stack : List Layer → Val → Prog
  | [], x => .ret x
  | l :: ls, x => .bind (.newModule .unit fun id _ => .op (.superInit id (some l.name) [])) fun v =>
    match v with
    | .mod id => .bind (.callMethod id sCall x fun x => getAll l.specs fun as => .ret (l.forward as x)) (stack ls)
    | _ => .raise .structureMismatch

/-! ### Specification -/

/-- The names: the second and later layers of a name get a number. -/
def named (before : List Str) : List Layer → List (Str × Layer)
  | [] => []
  | l :: ls => (if before.count l.name = 0 then l.name else l.name ++ '_' :: (toString (before.count l.name)).toList, l) :: named (before ++ [l.name]) ls

/-- What is left of the key after `n` splits. -/
def left (k : Key) : Nat → Key
  | 0 => k
  | n + 1 => .child (left k n) 2 0

/-- Key number `n`. -/
def keyNo (k : Key) (n : Nat) : Key := .child (left k n) 2 1

/-- How many keys a parameter needs. -/
def Spec.keys (p : Spec) : Nat := match p.start with | .constant _ => 0 | .random _ => 1

/-- The initial value, where `n` keys have been used. -/
def Spec.value (p : Spec) (k : Key) (n : Nat) : Arr := match p.start with | .constant f => f p.shape p.dtype | .random f => f p.shape p.dtype (keyNo k n)

/-- The initial values of the parameters of a layer. -/
def values (k : Key) : Nat → List Spec → List (Str × Arr)
  | _, [] => []
  | n, p :: ps => (p.name, p.value k n) :: values k (n + p.keys) ps

/-- How many keys they need. -/
def needs (ps : List Spec) : Nat := (ps.map Spec.keys).sum

/-- The parameters of a stack: those of each layer that has some, under its name. -/
def initial (k : Key) : Nat → List (Str × Layer) → PDict
  | _, [] => []
  | n, (q, l) :: ls => if l.specs = [] then initial k n ls else (q, values k n l.specs) :: initial k (n + needs l.specs) ls

/-- The layers one after the other with given parameters. -/
def compose (get : Str → Str → Arr) : List (Str × Layer) → Val → Val
  | [], x => x
  | (q, l) :: ls, x => compose get ls (l.forward (l.specs.map fun p => get q p.name) x)

/-- The layers one after the other with the initial values. -/
def composeInit (k : Key) : Nat → List (Str × Layer) → Val → Val
  | _, [], x => x
  | n, (q, l) :: ls, x => composeInit k (n + needs l.specs) ls (l.forward ((values k n l.specs).map Prod.snd) x)

/-- A proper layer: its name is an identifier without a number, its parameters have different names, and initial values have the shape asked for. -/
structure Layer.Ok (l : Layer) : Prop where
  ident : IsIdent l.name
  plain : ¬ EndsInNumber l.name
  names : (l.specs.map Spec.name).Nodup
  shapes : ∀ p ∈ l.specs, ∀ k n, (p.value k n).shape = p.shape

/-- A thread without hooks, as it starts. -/
def Bare (w : World) : Prop := w.hooks = Hooks.none ∧ w.namedCall = false

/-! ### Getting parameters -/

/-- Nothing but parameters, keys and ghosts differ. -/
structure Same (l l' : Loc) : Prop where
  state : l'.state = l.state
  scopes : l'.scopes = l.scopes
  heap : l'.heap = l.heap

theorem Same.refl (l : Loc) : Same l l := ⟨rfl, rfl, rfl⟩
theorem Same.trans {a b c : Loc} (h : Same a b) (k : Same b c) : Same a c := ⟨k.1.trans h.1, k.2.trans h.2, k.3.trans h.3⟩

/-- Inside a method of module `q`. -/
structure Inside (E : Env) (l : Loc) (q : Str) : Prop where
  hooks : E.hooks = Hooks.none
  bundle : ∃ id ms subs, E.modules = (id, sCall) :: ms ∧ l.heap[id]? = some ⟨some q, subs⟩

theorem Inside.name {E : Env} {l : Loc} {q : Str} (h : Inside E l q) : bundleName E l = (.ok q, l) := by
  obtain ⟨id, ms, subs, h1, h2⟩ := h.bundle
  simp [bundleName, currentModule, h1, moduleName, h2]

theorem Inside.same {E : Env} {l l' : Loc} {q : Str} (h : Inside E l q) (hs : Same l l') : Inside E l' q :=
  ⟨h.hooks, by obtain ⟨id, ms, subs, h1, h2⟩ := h.bundle; exact ⟨id, ms, subs, h1, by rw [hs.heap]; exact h2⟩⟩

theorem store2_setDefault {β : Type} (d : Dict Str (Dict Str β)) (b n : Str) (v : β) : store2 (d.setDefault b []) b n v = store2 d b n v := by
  unfold store2
  cases h : d.get? b with
  | some i => rw [Dict.setDefault_of_some h, h]
  | none =>
    rw [show d.setDefault b [] = d.set b [] by unfold Dict.setDefault; rw [h]]
    rw [Dict.get?_set_self, Dict.set_set]
    rfl

theorem start_run (p : Spec) (k : Key) (n : Nat) (l : Loc) (hr : l.rng = some ⟨left k n, []⟩) :
    ∃ l', runInit (p.start.init p.shape p.dtype) l = (.ok (p.value k n), l') ∧ l'.rng = some ⟨left k (n + p.keys), []⟩ ∧ l'.params = l.params ∧ Same l l' := by
  obtain ⟨name, shape, dtype, st⟩ := p
  cases st with
  | constant f => exact ⟨l, rfl, hr, rfl, .refl l⟩
  | random f =>
    refine ⟨{ l with rng := some ⟨left k (n + 1), []⟩, log := l.log ++ [keyNo k n] }, ?_, rfl, rfl, ⟨rfl, rfl, rfl⟩⟩
    obtain ⟨a, b, c, d, e, f', g⟩ := l
    cases hr
    rfl

theorem get_new {E : Env} {l : Loc} {q : Str} (h : Inside E l q) (hf : E.frozen = false) {p : Spec} (hp : ∀ k n, (p.value k n).shape = p.shape) {k : Key} {n : Nat}
    (hr : l.rng = some ⟨left k n, []⟩) (hn : lookup2 l.params q p.name = none) :
    ∃ l', (Op.getParam p.name p.shape p.dtype (some p.start.init)).run E l = (.ok (.arr (p.value k n)), l') ∧ l'.rng = some ⟨left k (n + p.keys), []⟩ ∧
      l'.params = store2 l.params q p.name (p.value k n) ∧ Same l l' := by
  obtain ⟨l1, h1, h2, h3, h4⟩ := start_run p k n { l with params := l.params.setDefault q [] } hr
  refine ⟨{ l1 with params := store2 l1.params q p.name (p.value k n), trace := l1.trace ++ [.paramNew q p.name (p.value k n)] }, ?_, h2, ?_, ⟨h4.state, h4.scopes, h4.heap⟩⟩
  · show ((Frame.getParameter p.name p.shape p.dtype (some p.start.init) E >>- fun a => M.pure (Val.arr a)) l) = _
    unfold Frame.getParameter
    simp only [M.bind, h.name, M.get, hf, Bool.false_and, Bool.false_eq_true, if_false, M.modify, hn, h.hooks, Hooks.none, runCreators, h1, record, runGetters, Frame.liftExcept, hp k n, if_true, M.pure]
  · show store2 l1.params q p.name _ = _
    rw [h3, store2_setDefault]

theorem get_old {E : Env} {l : Loc} {q : Str} (h : Inside E l q) (hf : E.frozen = true) {p : Spec} {a : Arr} (hn : lookup2 l.params q p.name = some a) (ha : a.shape = p.shape) :
    ∃ l', (Op.getParam p.name p.shape p.dtype (some p.start.init)).run E l = (.ok (.arr a), l') ∧ l'.params = l.params ∧ Same l l' := by
  refine ⟨{ l with trace := l.trace ++ [.paramRead q p.name a] }, ?_, rfl, ⟨rfl, rfl, rfl⟩⟩
  have hh : l.params.has q = true := by
    unfold Dict.has
    unfold lookup2 at hn
    cases h' : l.params.get? q with
    | none => rw [h'] at hn; cases hn
    | some _ => rfl
  show ((Frame.getParameter p.name p.shape p.dtype (some p.start.init) E >>- fun a => M.pure (Val.arr a)) l) = _
  unfold Frame.getParameter
  simp only [M.bind, h.name, M.get, hf, hh, Bool.not_true, Bool.and_false, Bool.false_eq_true, if_false, if_true, M.pure, hn, h.hooks, Hooks.none, record, M.modify, runGetters, Frame.liftExcept, ha]

/-- The dictionary of a module that gets parameters. -/
def storeAll (d : PDict) (q : Str) (vs : List (Str × Arr)) : PDict := vs.foldl (fun d v => store2 d q v.1 v.2) d

theorem getAll_new {q : Str} {k : Key} : ∀ (ps : List Spec) (K : List Arr → Prog) (E : Env) (l : Loc) (n : Nat), Inside E l q → E.frozen = false → (∀ p ∈ ps, ∀ k n, (p.value k n).shape = p.shape) →
    (ps.map Spec.name).Nodup → l.rng = some ⟨left k n, []⟩ → (∀ p ∈ ps, lookup2 l.params q p.name = none) →
    ∃ l', (getAll ps K).run localMach ⟨E, l⟩ = (K ((values k n ps).map Prod.snd)).run localMach ⟨E, l'⟩ ∧ l'.rng = some ⟨left k (n + needs ps), []⟩ ∧ l'.params = storeAll l.params q (values k n ps) ∧ Same l l'
  | [], K, E, l, n, h, hf, hs, hd, hr, hn => ⟨l, rfl, hr, rfl, .refl l⟩
  | p :: ps, K, E, l, n, h, hf, hs, hd, hr, hn => by
    obtain ⟨l1, h1, h2, h3, h4⟩ := get_new h hf (hs p List.mem_cons_self) hr (hn p List.mem_cons_self)
    rw [List.map_cons, List.nodup_cons] at hd
    obtain ⟨l2, k1, k2, k3, k4⟩ := getAll_new ps (fun as => K (p.value k n :: as)) E l1 (n + p.keys) (h.same h4) hf (fun r hr => hs r (List.mem_cons_of_mem _ hr)) hd.2 h2 (fun r hr => by
      rw [h3, lookup2_store2, if_neg (fun hc => hd.1 (by rw [hc.2]; exact List.mem_map_of_mem hr))]
      exact hn r (List.mem_cons_of_mem _ hr))
    refine ⟨l2, ?_, ?_, ?_, h4.trans k4⟩
    · rw [getAll, Prog.run, M.bind, Prog.run, top_eq, h1]
      exact k1
    · rw [k2, needs, needs, List.map_cons, List.sum_cons, Nat.add_assoc]
    · rw [k3, h3]; rfl

theorem getAll_old {q : Str} {get : Str → Arr} : ∀ (ps : List Spec) (K : List Arr → Prog) (E : Env) (l : Loc), Inside E l q → E.frozen = true →
    (∀ p ∈ ps, lookup2 l.params q p.name = some (get p.name) ∧ (get p.name).shape = p.shape) →
    ∃ l', (getAll ps K).run localMach ⟨E, l⟩ = (K (ps.map fun p => get p.name)).run localMach ⟨E, l'⟩ ∧ l'.params = l.params ∧ Same l l'
  | [], K, E, l, h, hf, hn => ⟨l, rfl, rfl, .refl l⟩
  | p :: ps, K, E, l, h, hf, hn => by
    obtain ⟨l1, h1, h3, h4⟩ := get_old h hf (hn p List.mem_cons_self).1 (hn p List.mem_cons_self).2
    obtain ⟨l2, k1, k3, k4⟩ := getAll_old ps (fun as => K (get p.name :: as)) E l1 (h.same h4) hf (fun r hr => by rw [h3]; exact hn r (List.mem_cons_of_mem _ hr))
    refine ⟨l2, ?_, k3.trans h3, h4.trans k4⟩
    rw [getAll, Prog.run, M.bind, Prog.run, top_eq, h1]
    exact k1

/-! ### One layer -/

/-- At the top level of a transform. -/
structure Outside (s : LW) (used : List Str) : Prop where
  hooks : s.env.hooks = Hooks.none
  namedCall : s.env.namedCall = false
  modules : s.env.modules = []
  scopes : ∃ rest, s.loc.scopes = (requests none .empty used).2 :: rest

theorem requests_snoc (c : Caller) : ∀ (ns : List Str) (sc : Scope) (n : Str), (requests c sc (ns ++ [n])).2 = (request c (requests c sc ns).2 n).2
  | [], sc, n => rfl
  | m :: ns, sc, n => by
    show (requests c (request c sc m).2 (ns ++ [n])).2 = _
    rw [requests_snoc c ns]
    rfl

/-- Making a module at the top level. -/
theorem new_layer {s : LW} {used : List Str} {n : Str} (h : Outside s used) (hid : IsIdent n) (hn : ¬ EndsInNumber n) (hu : ∀ m ∈ used, IsIdent m ∧ ¬ EndsInNumber m) :
    ∃ s', (Prog.newModule .unit fun id _ => .op (.superInit id (some n) [])).run localMach s = (.ok (.mod s.loc.heap.length), s') ∧ Outside s' (used ++ [n]) ∧ s'.env = s.env ∧
      s'.loc.params = s.loc.params ∧ s'.loc.state = s.loc.state ∧ s'.loc.rng = s.loc.rng ∧
      s'.loc.heap[s.loc.heap.length]? = some ⟨some (if used.count n = 0 then n else n ++ '_' :: (toString (used.count n)).toList), some []⟩ := by
  obtain ⟨rest, hs⟩ := h.scopes
  have hk := kth_name none used n hu hid hn
  have hq : request none (requests none .empty used).2 n = (.ok (if used.count n = 0 then n else n ++ '_' :: (toString (used.count n)).toList), (requests none .empty (used ++ [n])).2) := by
    rw [requests_snoc]
    exact Prod.ext hk rfl
  obtain ⟨h', e1, e2, e3, e4⟩ := plainModule_ok (s := s) (cls := []) (c := none) (by rw [h.hooks]; rfl) (by rw [h.modules]; intro p hp; cases hp) hs ((validIdentifier_iff n).2 (.inl hid))
    (by rw [h.modules]; rfl) hq
  refine ⟨{ s with loc := { s.loc with scopes := (requests none .empty (used ++ [n])).2 :: rest, heap := h' } }, ?_, ⟨h.hooks, h.namedCall, h.modules, rest, rfl⟩, rfl, rfl, rfl, rfl, e3⟩
  show ((plainModule localMach n [] >>- fun id => M.pure (Val.mod id)) s) = _
  rw [M.bind, e1]
  rfl

/-- The body of a call. -/
theorem call_body {E : Env} {l0 l : Loc} {id : ModId} {q : Str} {subs : Option (List Str)} {x y : Val} {body : Val → Prog} (hh : E.hooks = Hooks.none) (hn : E.namedCall = false)
    (hm : E.modules = [(id, sCall)]) (hq : l0.heap[id]? = some ⟨some q, subs⟩) (hb : (body x).run localMach ⟨E, l0⟩ = (.ok y, ⟨E, l⟩)) :
    (localMach.top (fun E => getModuleName id >>- fun nm => M.pure (nm, E.hooks.interceptors, E.namedCall)) >>- fun r =>
      let f := runInterceptors id sCall (fun a => (body a).run localMach) r.2.1 x
      (if r.2.2 && r.1.isSome && sCall = sCall then jitM localMach f else f) >>- fun v =>
      localMach.top (notify id r.1) >>- fun _ => M.pure v) ⟨E, l0⟩ = (.ok y, ⟨E, l⟩) := by
  have e1 : ∀ (E : Env) l, (getModuleName id >>- fun nm => M.pure (nm, E.hooks.interceptors, E.namedCall)) l =
    (.ok (l.heap[id]?.bind ModObj.name, E.hooks.interceptors, E.namedCall), l) := fun _ _ => rfl
  have e2 : notify id (some q) E l = (.ok (), l) := by
    show notifyLoop id q E.modules l = _
    rw [hm, notifyLoop, if_pos rfl, notifyLoop]
    rfl
  rw [M.bind, top_eq, e1]
  dsimp only
  rw [hh, hn, hq]
  dsimp only [Hooks.none, Option.bind_some]
  rw [if_neg (by simp), runInterceptors, M.bind, hb]
  dsimp only
  rw [M.bind, top_eq, e2]
  rfl

/-- Calling it. -/
theorem call_layer {s : LW} {used : List Str} {id : ModId} {q : Str} {subs : Option (List Str)} {x y : Val} {body : Val → Prog} {l : Loc} (h : Outside s used) (hq : s.loc.heap[id]? = some ⟨some q, subs⟩)
    (hb : (body x).run localMach ⟨{ s.env with modules := [(id, sCall)] }, { s.loc with scopes := Scope.empty :: s.loc.scopes }⟩ = (.ok y, ⟨{ s.env with modules := [(id, sCall)] }, l⟩))
    (hl : Same { s.loc with scopes := Scope.empty :: s.loc.scopes } l) :
    ∃ s', (Prog.callMethod id sCall x body).run localMach s = (.ok y, s') ∧ Outside s' used ∧ s'.env = s.env ∧ s'.loc.params = l.params ∧ s'.loc.rng = l.rng ∧ s'.loc.state = s.loc.state := by
  obtain ⟨rest, hs⟩ := h.scopes
  have key := call_body (E := { s.env with modules := [(id, sCall)] }) (subs := subs) h.hooks h.namedCall rfl (by exact hq) hb
  refine ⟨{ s with loc := { l with scopes := l.scopes.tail } }, ?_, ⟨h.hooks, h.namedCall, h.modules, rest, by show l.scopes.tail = _; rw [hl.scopes]; exact hs⟩, rfl, rfl, rfl, hl.state⟩
  show LW.inModule (id, sCall) _ s = _
  rw [LW.inModule, h.modules]
  erw [key]

/-! ### The dictionaries -/

theorem storeAll_in (q : Str) : ∀ (vs : List (Str × Arr)) (d : PDict) (i : Dict Str Arr), d.get? q = none → (i.keys ++ vs.map Prod.fst).Nodup →
    storeAll (d ++ [(q, i)]) q vs = d ++ [(q, i ++ vs)]
  | [], d, i, h, hn => by rw [List.append_nil]; rfl
  | v :: vs, d, i, h, hn => by
    have hg : (d ++ [(q, i)] : PDict).get? q = some i := by
      rw [Dict.get?_append, h]
      simp [Dict.get?]
    have hset : ∀ j : Dict Str Arr, Dict.set (d ++ [(q, i)] : PDict) q j = d ++ [(q, j)] := by
      intro j
      have hd : q ∉ d.keys := (Dict.get?_eq_none_iff _ _).1 h
      have h1 : (d ++ [(q, i)] : PDict) = d.set q i := (Dict.set_append hd).symm
      rw [h1, Dict.set_set, Dict.set_append hd]
    have hv : v.1 ∉ i.keys := by
      rw [List.map_cons, List.nodup_append] at hn
      exact fun hc => hn.2.2 _ hc _ List.mem_cons_self rfl
    show storeAll (store2 (d ++ [(q, i)]) q v.1 v.2) q vs = _
    unfold store2
    rw [hg, Option.getD_some, hset, Dict.set_append hv]
    rw [storeAll_in q vs d _ h (by
      show (List.map Prod.fst (i ++ [(v.1, v.2)]) ++ _).Nodup
      rw [List.map_append, List.append_assoc]
      exact hn)]
    rw [List.append_assoc]
    rfl

theorem storeAll_new (q : Str) {vs : List (Str × Arr)} {d : PDict} (h : d.get? q = none) (hv : vs ≠ []) (hn : (vs.map Prod.fst).Nodup) : storeAll d q vs = d ++ [(q, vs)] := by
  cases vs with
  | nil => exact absurd rfl hv
  | cons v vs =>
    show storeAll (store2 d q v.1 v.2) q vs = _
    unfold store2
    rw [h, Dict.set_append ((Dict.get?_eq_none_iff _ _).1 h)]
    exact storeAll_in q vs d [(v.1, v.2)] h hn

theorem values_names (k : Key) : ∀ (n : Nat) (ps : List Spec), (values k n ps).map Prod.fst = ps.map Spec.name
  | n, [] => rfl
  | n, p :: ps => by rw [values, List.map_cons, List.map_cons, values_names k _ ps]

theorem values_nil (k : Key) (n : Nat) {ps : List Spec} (h : ps ≠ []) : values k n ps ≠ [] := by
  cases ps with
  | nil => exact absurd rfl h
  | cons p ps => intro hc; cases hc

/-- A name that was not given before. -/
theorem name_fresh {used : List Str} {n : Str} (hu : ∀ m ∈ used, IsIdent m ∧ ¬ EndsInNumber m) (hid : IsIdent n) (hn : ¬ EndsInNumber n) :
    (if used.count n = 0 then n else n ++ '_' :: (toString (used.count n)).toList) ∉ successes (history none used) := by
  have h := names_unique none (used ++ [n])
  have happ : ∀ (ns : List Str) (sc : Scope), (requests none sc (ns ++ [n])).1 = (requests none sc ns).1 ++ [(request none (requests none sc ns).2 n).1] := by
    intro ns
    induction ns with
    | nil => exact fun _ => rfl
    | cons m ns ih => intro sc; simp only [List.cons_append, requests, ih]
  unfold history at h
  rw [happ, show (request none (requests none .empty used).2 n).1 = _ from kth_name none used n hu hid hn] at h
  unfold successes at h
  rw [List.filterMap_append, List.nodup_append] at h
  exact fun hc => h.2.2 _ hc _ (List.mem_singleton.2 rfl) rfl

theorem successes_snoc {used : List Str} {n : Str} (hu : ∀ m ∈ used, IsIdent m ∧ ¬ EndsInNumber m) (hid : IsIdent n) (hn : ¬ EndsInNumber n) :
    successes (history none (used ++ [n])) = successes (history none used) ++ [if used.count n = 0 then n else n ++ '_' :: (toString (used.count n)).toList] := by
  have happ : ∀ (ns : List Str) (sc : Scope), (requests none sc (ns ++ [n])).1 = (requests none sc ns).1 ++ [(request none (requests none sc ns).2 n).1] := by
    intro ns
    induction ns with
    | nil => exact fun _ => rfl
    | cons m ns ih => intro sc; simp only [List.cons_append, requests, ih]
  unfold history
  rw [happ, show (request none (requests none .empty used).2 n).1 = _ from kth_name none used n hu hid hn]
  unfold successes
  rw [List.filterMap_append]
  rfl

/-! ### The stack -/

theorem init_run {k : Key} : ∀ (ls : List Layer) (x : Val) (s : LW) (used : List Str) (n : Nat), (∀ l ∈ ls, l.Ok) → Outside s used → (∀ m ∈ used, IsIdent m ∧ ¬ EndsInNumber m) →
    s.env.frozen = false → s.loc.rng = some ⟨left k n, []⟩ → (∀ q ∈ s.loc.params.keys, q ∈ successes (history none used)) →
    ∃ s', (stack ls x).run localMach s = (.ok (composeInit k n (named used ls) x), s') ∧ s'.loc.params = s.loc.params ++ initial k n (named used ls) ∧ s'.loc.state = s.loc.state
  | [], x, s, used, n, hl, h, hu, hf, hr, hp => ⟨s, rfl, (List.append_nil _).symm, rfl⟩
  | l :: ls, x, s, used, n, hl, h, hu, hf, hr, hp => by
    have ok := hl l List.mem_cons_self
    set q : Str := if used.count l.name = 0 then l.name else l.name ++ '_' :: (toString (used.count l.name)).toList with hq
    obtain ⟨s1, e1, o1, v1, p1, t1, r1, m1⟩ := new_layer h ok.ident ok.plain hu
    rw [← hq] at m1
    have hfresh : s.loc.params.get? q = none := (Dict.get?_eq_none_iff _ _).2 fun hc => name_fresh hu ok.ident ok.plain (hp q hc)
    obtain ⟨l2, e2, r2, p2, sm⟩ := getAll_new (q := q) (k := k) l.specs (fun as => .ret (l.forward as x)) { s1.env with modules := [(s.loc.heap.length, sCall)] }
      { s1.loc with scopes := Scope.empty :: s1.loc.scopes } n ⟨o1.hooks, _, _, _, rfl, m1⟩ (by rw [v1]; exact hf) ok.shapes ok.names (by show s1.loc.rng = _; rw [r1]; exact hr) (fun p _ => by
        show lookup2 s1.loc.params q p.name = none
        rw [p1]
        unfold lookup2
        rw [hfresh]
        rfl)
    obtain ⟨s2, e3, o3, v3, p3, r3, t3⟩ := call_layer (y := l.forward ((values k n l.specs).map Prod.snd) x) (body := fun x => getAll l.specs fun as => .ret (l.forward as x)) o1 m1 e2 sm
    have hp3 : s2.loc.params = s.loc.params ++ (if l.specs = [] then [] else [(q, values k n l.specs)]) := by
      rw [p3, p2]
      show storeAll s1.loc.params q _ = _
      rw [p1]
      by_cases hz : l.specs = []
      · rw [if_pos hz, hz, List.append_nil]; rfl
      · rw [if_neg hz]
        exact storeAll_new q hfresh (values_nil k n hz) (by rw [values_names]; exact ok.names)
    have hu' : ∀ m ∈ used ++ [l.name], IsIdent m ∧ ¬ EndsInNumber m := fun m hm => by
      rcases List.mem_append.1 hm with hm | hm
      · exact hu m hm
      · rw [List.mem_singleton.1 hm]; exact ⟨ok.ident, ok.plain⟩
    obtain ⟨s4, e4, p4, t4⟩ := init_run ls (l.forward ((values k n l.specs).map Prod.snd) x) s2 (used ++ [l.name]) (n + needs l.specs) (fun r hr => hl r (List.mem_cons_of_mem _ hr)) o3 hu'
      (by rw [v3, v1]; exact hf) (by rw [r3, r2]) (fun r hr => by
        rw [successes_snoc hu ok.ident ok.plain]
        rw [hp3] at hr
        unfold Dict.keys at hr
        rw [List.map_append, List.mem_append] at hr
        rcases hr with hr | hr
        · exact List.mem_append_left _ (hp r hr)
        · refine List.mem_append_right _ ?_
          split at hr
          · cases hr
          · exact hr)
    refine ⟨s4, ?_, ?_, by rw [t4, t3, t1]⟩
    · rw [stack, Prog.run, M.bind, e1]
      show ((Prog.callMethod _ _ _ _).run localMach >>- fun v => (stack ls v).run localMach) s1 = _
      rw [M.bind, e3]
      exact e4
    · rw [p4, hp3, named, initial, ← hq, List.append_assoc]
      congr 1
      by_cases hz : l.specs = []
      · simp [hz, needs]
      · simp [hz]

theorem apply_run {get : Str → Str → Arr} : ∀ (ls : List Layer) (x : Val) (s : LW) (used : List Str), (∀ l ∈ ls, l.Ok) → Outside s used → (∀ m ∈ used, IsIdent m ∧ ¬ EndsInNumber m) →
    s.env.frozen = true → (∀ r ∈ named used ls, ∀ p ∈ r.2.specs, lookup2 s.loc.params r.1 p.name = some (get r.1 p.name) ∧ (get r.1 p.name).shape = p.shape) →
    ∃ s', (stack ls x).run localMach s = (.ok (compose get (named used ls) x), s') ∧ s'.loc.state = s.loc.state
  | [], x, s, used, hl, h, hu, hf, hp => ⟨s, rfl, rfl⟩
  | l :: ls, x, s, used, hl, h, hu, hf, hp => by
    have ok := hl l List.mem_cons_self
    obtain ⟨s1, e1, o1, v1, p1, t1, r1, m1⟩ := new_layer h ok.ident ok.plain hu
    rw [named] at hp
    obtain ⟨l2, e2, p2, sm⟩ := getAll_old (get := get _) l.specs (fun as => .ret (l.forward as x)) { s1.env with modules := [(s.loc.heap.length, sCall)] }
      { s1.loc with scopes := Scope.empty :: s1.loc.scopes } ⟨o1.hooks, _, _, _, rfl, m1⟩ (by rw [v1]; exact hf) (fun p hq => by
        have := hp _ List.mem_cons_self p hq
        rw [← p1] at this
        exact this)
    obtain ⟨s2, e3, o3, v3, p3, r3, t3⟩ := call_layer (body := fun x => getAll l.specs fun as => .ret (l.forward as x)) o1 m1 e2 sm
    have hu' : ∀ m ∈ used ++ [l.name], IsIdent m ∧ ¬ EndsInNumber m := fun m hm => by
      rcases List.mem_append.1 hm with hm | hm
      · exact hu m hm
      · rw [List.mem_singleton.1 hm]; exact ⟨ok.ident, ok.plain⟩
    obtain ⟨s4, e4, t4⟩ := apply_run ls _ s2 (used ++ [l.name]) (fun r hr => hl r (List.mem_cons_of_mem _ hr)) o3 hu' (by rw [v3, v1]; exact hf) (fun r hr => by
      have := hp r (List.mem_cons_of_mem _ hr)
      rw [p3, p2]
      show ∀ p ∈ r.2.specs, lookup2 s1.loc.params r.1 p.name = _ ∧ _
      rw [p1]
      exact this)
    refine ⟨s4, ?_, by rw [t4, t3, t1]⟩
    rw [stack, Prog.run, M.bind, e1]
    show ((Prog.callMethod _ _ _ _).run localMach >>- fun v => (stack ls v).run localMach) s1 = _
    rw [M.bind, e3]
    exact e4

/-! ### The initial values as parameters -/

theorem named_nodup : ∀ (ls : List Layer) (used : List Str), (∀ l ∈ ls, l.Ok) → (∀ m ∈ used, IsIdent m ∧ ¬ EndsInNumber m) → (successes (history none used) ++ (named used ls).map Prod.fst).Nodup
  | [], used, hl, hu => by
    rw [named, List.map_nil, List.append_nil]
    exact names_unique none used
  | l :: ls, used, hl, hu => by
    have ok := hl l List.mem_cons_self
    have ih := named_nodup ls (used ++ [l.name]) (fun r hr => hl r (List.mem_cons_of_mem _ hr)) (fun m hm => by
      rcases List.mem_append.1 hm with hm | hm
      · exact hu m hm
      · rw [List.mem_singleton.1 hm]; exact ⟨ok.ident, ok.plain⟩)
    rw [successes_snoc hu ok.ident ok.plain, List.append_assoc] at ih
    exact ih

theorem named_layer : ∀ (ls : List Layer) (used : List Str), ∀ r ∈ named used ls, r.2 ∈ ls
  | l :: ls, used, r, hr => by
    rcases List.mem_cons.1 hr with rfl | hr
    · exact List.mem_cons_self
    · exact List.mem_cons_of_mem _ (named_layer ls _ r hr)

theorem initial_keys (k : Key) : ∀ (nd : List (Str × Layer)) (n : Nat), (initial k n nd).keys.Sublist (nd.map Prod.fst)
  | [], n => List.Sublist.refl _
  | (q, l) :: nd, n => by
    rw [initial]
    split
    · exact (initial_keys k nd _).cons q
    · exact (initial_keys k nd _).cons_cons q

theorem values_get (k : Key) : ∀ (ps : List Spec) (n : Nat), (ps.map Spec.name).Nodup → ∀ p ∈ ps, ∃ m, Dict.get? (values k n ps) p.name = some (p.value k m)
  | r :: ps, n, hd, p, hp => by
    rw [List.map_cons, List.nodup_cons] at hd
    rw [values, Dict.get?_cons]
    rcases List.mem_cons.1 hp with rfl | hp
    · exact ⟨n, if_pos rfl⟩
    · rw [if_neg fun hc => hd.1 (by rw [hc]; exact List.mem_map_of_mem hp)]
      exact values_get k ps _ hd.2 p hp

theorem values_map (k : Key) (get : Str → Arr) : ∀ (ps : List Spec) (n : Nat), (ps.map Spec.name).Nodup → (∀ p ∈ ps, ∀ a, Dict.get? (values k n ps) p.name = some a → get p.name = a) →
    ps.map (fun p => get p.name) = (values k n ps).map Prod.snd
  | [], n, hd, h => rfl
  | r :: ps, n, hd, h => by
    rw [List.map_cons, List.nodup_cons] at hd
    rw [values, List.map_cons, List.map_cons, h r List.mem_cons_self _ (by rw [values, Dict.get?_cons, if_pos rfl])]
    congr 1
    refine values_map k get ps _ hd.2 fun p hp a ha => h p (List.mem_cons_of_mem _ hp) a ?_
    rw [values, Dict.get?_cons, if_neg fun hc => hd.1 (by rw [hc]; exact List.mem_map_of_mem hp)]
    exact ha

theorem compose_initial (k : Key) (get : Str → Str → Arr) : ∀ (nd : List (Str × Layer)) (n : Nat) (x : Val), (nd.map Prod.fst).Nodup → (∀ r ∈ nd, r.2.Ok) →
    (∀ r ∈ nd, ∀ p ∈ r.2.specs, ∀ a, lookup2 (initial k n nd) r.1 p.name = some a → get r.1 p.name = a) →
    compose get nd x = composeInit k n nd x ∧ ∀ r ∈ nd, ∀ p ∈ r.2.specs, lookup2 (initial k n nd) r.1 p.name = some (get r.1 p.name) ∧ (get r.1 p.name).shape = p.shape
  | [], n, x, hd, ho, h => ⟨rfl, fun r hr => by cases hr⟩
  | (q, l) :: nd, n, x, hd, ho, h => by
    have ok : l.Ok := ho _ List.mem_cons_self
    rw [List.map_cons, List.nodup_cons] at hd
    by_cases hz : l.specs = []
    · rw [initial, if_pos hz] at h ⊢
      obtain ⟨h1, h2⟩ := compose_initial k get nd n (l.forward [] x) hd.2 (fun r hr => ho r (List.mem_cons_of_mem _ hr)) (fun r hr => h r (List.mem_cons_of_mem _ hr))
      refine ⟨?_, ?_⟩
      · rw [compose, composeInit, hz]
        exact h1
      · intro r hr p hp
        rcases List.mem_cons.1 hr with rfl | hr
        · rw [hz] at hp; cases hp
        · exact h2 r hr p hp
    · rw [initial, if_neg hz] at h ⊢
      have hself : ∀ s, lookup2 ((q, values k n l.specs) :: initial k (n + needs l.specs) nd) q s = Dict.get? (values k n l.specs) s := fun s => by
        unfold lookup2
        rw [Dict.get?_cons, if_pos rfl]
        rfl
      have hother : ∀ r ∈ nd, ∀ s, lookup2 ((q, values k n l.specs) :: initial k (n + needs l.specs) nd) r.1 s = lookup2 (initial k (n + needs l.specs) nd) r.1 s := fun r hr s => by
        unfold lookup2
        rw [Dict.get?_cons, if_neg fun hc : q = r.1 => hd.1 (by show q ∈ _; rw [hc]; exact List.mem_map_of_mem hr)]
      have hv : l.specs.map (fun p => get q p.name) = (values k n l.specs).map Prod.snd :=
        values_map k (get q) l.specs n ok.names fun p hp a ha => h _ List.mem_cons_self p hp a (by rw [hself]; exact ha)
      obtain ⟨h1, h2⟩ := compose_initial k get nd (n + needs l.specs) (l.forward ((values k n l.specs).map Prod.snd) x) hd.2 (fun r hr => ho r (List.mem_cons_of_mem _ hr))
        (fun r hr p hp a ha => h r (List.mem_cons_of_mem _ hr) p hp a (by rw [hother r hr]; exact ha))
      refine ⟨?_, ?_⟩
      · rw [compose, composeInit, hv]
        exact h1
      · intro r hr p hp
        rcases List.mem_cons.1 hr with rfl | hr
        · obtain ⟨m, hm⟩ := values_get k l.specs n ok.names p hp
          have hg : get q p.name = p.value k m := h _ List.mem_cons_self p hp _ (by rw [hself]; exact hm)
          exact ⟨by rw [hself, hm, hg], by rw [hg]; exact ok.shapes p hp k m⟩
        · rw [hother r hr]
          exact h2 r hr p hp

theorem initial_wf (k : Key) : ∀ (nd : List (Str × Layer)) (n : Nat), (∀ r ∈ nd, r.2.Ok) → ∀ b ∈ initial k n nd, (Dict.keys b.2).Nodup
  | (q, l) :: nd, n, ho, b, hb => by
    rw [initial] at hb
    split at hb
    · exact initial_wf k nd _ (fun r hr => ho r (List.mem_cons_of_mem _ hr)) b hb
    · rcases List.mem_cons.1 hb with rfl | hb
      · show ((values k n l.specs).map Prod.fst).Nodup
        rw [values_names]
        exact (ho _ List.mem_cons_self).names
      · exact initial_wf k nd _ (fun r hr => ho r (List.mem_cons_of_mem _ hr)) b hb

/-! ### The theorems -/

/-- C191: `init` returns the parameters of the layers that have some, under the names of the layers (the second and later of a name numbered), in the order of the layers, and nothing else; the parameters
that need a key get the keys of the sequence in order, none twice.  There is no state. -/
theorem init_stack {w : World} (hw : Bare w) {ls : List Layer} (hl : ∀ l ∈ ls, l.Ok) (k : Key) (x : Val) :
    ((Prog.initT (.key k) (stack ls x)).run stackMach w).1 = .ok (.pair (.bundle (initial k 0 (named [] ls))) (.bundle [])) := by
  obtain ⟨s, h1, h2, h3⟩ := init_run (k := k) ls x (ctxStart (Ctx.new none none (some ⟨k, []⟩)) w) [] 0 hl ⟨hw.1, hw.2, rfl, _, rfl⟩ (fun m hm => by cases hm) rfl rfl (fun q hq => by cases hq)
  rw [initT_run]
  show (match (stack ls x).run localMach (ctxStart (Ctx.new none none (some ⟨k, []⟩)) w) with
    | (.error e, s) => (Except.error e, { w with heap := s.loc.heap })
    | (.ok _, s) => (.ok (Val.pair (.bundle s.loc.params) (.bundle (extractState true s.loc.state))), { w with heap := s.loc.heap })).1 = _
  rw [h1]
  dsimp only
  rw [h2, h3]
  rfl

/-- How often a key was split. -/
def depth : Key → Nat
  | .root _ => 0
  | .child k _ _ => depth k + 1

theorem left_depth (k : Key) : ∀ n, depth (left k n) = depth k + n
  | 0 => rfl
  | n + 1 => by rw [left, depth, left_depth k n]; rfl

/-- C191: no two parameters get the same key, and none gets the key given to `init`. -/
theorem keys_distinct (k : Key) : Function.Injective (keyNo k) ∧ ∀ n, keyNo k n ≠ k := by
  refine ⟨fun m n h => ?_, fun n h => ?_⟩
  · have := congrArg depth h
    simp only [keyNo, depth, left_depth] at this
    omega
  · have := congrArg depth h
    simp only [keyNo, depth, left_depth] at this
    omega

/-- C191: `apply` with parameters that have an array of the right shape for each parameter of each layer is the composition of the layers, each with its own arrays, whatever else there is among the
parameters; the random key is not used and may be missing. -/
theorem apply_stack {w : World} (hw : Bare w) {ls : List Layer} (hl : ∀ l ∈ ls, l.Ok) {rng : RngArg} {r : Option PRNGSeq} (hr : rng.toSeq = .ok r) {P : PDict} {get : Str → Str → Arr}
    (hp : ∀ b ∈ named [] ls, ∀ p ∈ b.2.specs, lookup2 (dict2 P) b.1 p.name = some (get b.1 p.name) ∧ (get b.1 p.name).shape = p.shape) (x : Val) :
    ((Prog.applyT (some P) none rng (stack ls x)).run stackMach w).1 = .ok (.pair (compose get (named [] ls) x) (.bundle [])) := by
  obtain ⟨s, h1, h2⟩ := apply_run (get := get) ls x (ctxStart (Ctx.new (some P) (some []) r) w) [] hl ⟨hw.1, hw.2, rfl, _, rfl⟩ (fun m hm => by cases hm) rfl hp
  rw [applyT_run, hr]
  dsimp only [Option.getD_some, Option.getD_none]
  rw [h1]
  dsimp only
  rw [h2]
  rfl

/-- C191: `apply` on what `init` returned is the composition of the layers with their initial values. -/
theorem apply_init {w w' : World} (hw : Bare w) (hw' : Bare w') {ls : List Layer} (hl : ∀ l ∈ ls, l.Ok) (k : Key) {rng : RngArg} {r : Option PRNGSeq} (hr : rng.toSeq = .ok r) (x x' : Val) :
    ∃ P, ((Prog.initT (.key k) (stack ls x)).run stackMach w).1 = .ok (.pair (.bundle P) (.bundle [])) ∧
      ((Prog.applyT (some P) none rng (stack ls x')).run stackMach w').1 = .ok (.pair (composeInit k 0 (named [] ls) x') (.bundle [])) := by
  refine ⟨_, init_stack hw hl k x, ?_⟩
  have hd : ((named [] ls).map Prod.fst).Nodup := named_nodup ls [] hl (fun m hm => by cases hm)
  have ho : ∀ r ∈ named [] ls, r.2.Ok := fun r hr => hl _ (named_layer ls [] r hr)
  have hwf : WF2 (initial k 0 (named [] ls)) := by
    refine ⟨(initial_keys k _ 0).nodup hd, fun b i hb => initial_wf k _ 0 ho (b, i) (Dict.mem_of_get? hb)⟩
  obtain ⟨h1, h2⟩ := compose_initial k (fun q s => (lookup2 (initial k 0 (named [] ls)) q s).getD ⟨[], .f32, []⟩) (named [] ls) 0 x' hd ho (fun r hr p hp a ha => by
    show (lookup2 _ _ _).getD _ = a
    rw [ha]
    rfl)
  rw [← h1]
  refine apply_stack hw' hl hr ?_ x'
  rw [dict2_of_wf hwf]
  exact h2

/-! ### A network -/

namespace Net

/-- A layer `x * w + b` on one number. -/
def dense : Layer where
  name := "linear".toList
  specs := [⟨['w'], [1], .f32, .random fun shape dtype k => ⟨shape, dtype, [match k with | .child _ _ i => i + 2 | .root s => s]⟩⟩, ⟨['b'], [1], .f32, .constant fun shape dtype => ⟨shape, dtype, [5]⟩⟩]
  forward as x := match as, x with
    | [⟨_, _, [w]⟩, ⟨_, _, [b]⟩], .arr ⟨s, d, [v]⟩ => .arr ⟨s, d, [v * w + b]⟩
    | _, v => v

/-- A layer without parameters. -/
def relu : Layer where
  name := "relu".toList
  specs := []
  forward _ x := match x with
    | .arr ⟨s, d, vs⟩ => .arr ⟨s, d, vs.map (max 0)⟩
    | v => v

theorem no_number {s : Str} (h : '_' ∉ s) : ¬ EndsInNumber s := by
  rintro ⟨b, ds, -, -, rfl⟩
  exact h (List.mem_append_right _ List.mem_cons_self)

theorem dense_ok : dense.Ok where
  ident := ((validIdentifier_iff _).1 (by decide : validIdentifier "linear".toList = true)).resolve_right (by rintro ⟨t, h, -⟩; exact absurd (h ▸ List.mem_append_right t (List.mem_singleton.2 rfl) : '\n' ∈ "linear".toList) (by decide))
  plain := no_number (by decide)
  names := by decide
  shapes := by
    intro p hp k n
    simp only [dense, List.mem_cons, List.not_mem_nil, or_false] at hp
    rcases hp with rfl | rfl <;> rfl

theorem relu_ok : relu.Ok where
  ident := ((validIdentifier_iff _).1 (by decide : validIdentifier "relu".toList = true)).resolve_right (by rintro ⟨t, h, -⟩; exact absurd (h ▸ List.mem_append_right t (List.mem_singleton.2 rfl) : '\n' ∈ "relu".toList) (by decide))
  plain := no_number (by decide)
  names := List.nodup_nil
  shapes := fun p hp => by cases hp

/-- Two linear layers with a relu between and one behind. -/
def net : List Layer := [dense, relu, dense, relu]

theorem net_ok : ∀ l ∈ net, l.Ok := by
  intro l hl
  simp only [net, List.mem_cons, List.not_mem_nil, or_false] at hl
  rcases hl with rfl | rfl | rfl | rfl
  exacts [dense_ok, relu_ok, dense_ok, relu_ok]

/-- A fresh thread. -/
def world : World := { frames := [], hooks := Hooks.none, namedCall := false, heap := [], log := [] }

example : (named [] net).map (fun r => String.ofList r.1) = ["linear", "relu", "linear_1", "relu_1"] := by decide

/-- The parameters: the weights have the first and the second key, the relus are not there. -/
example : initial (.root 7) 0 (named [] net) =
    [("linear".toList, [(['w'], ⟨[1], .f32, [3]⟩), (['b'], ⟨[1], .f32, [5]⟩)]), ("linear_1".toList, [(['w'], ⟨[1], .f32, [3]⟩), (['b'], ⟨[1], .f32, [5]⟩)])] := by decide

example : keyNo (.root 7) 0 = .child (.root 7) 2 1 ∧ keyNo (.root 7) 1 = .child (.child (.root 7) 2 0) 2 1 := ⟨rfl, rfl⟩

example : ((Prog.initT (.key (.root 7)) (stack net (.arr ⟨[1], .f32, [1]⟩))).run stackMach world).1 = .ok (.pair (.bundle (initial (.root 7) 0 (named [] net))) (.bundle [])) :=
  init_stack ⟨rfl, rfl⟩ net_ok _ _

/-- With the initial values: `relu (relu (1·3 + 5) · 3 + 5) = 29`. -/
example : ∃ P, ((Prog.initT (.key (.root 7)) (stack net (.arr ⟨[1], .f32, [1]⟩))).run stackMach world).1 = .ok (.pair (.bundle P) (.bundle [])) ∧
    ((Prog.applyT (some P) none .none (stack net (.arr ⟨[1], .f32, [1]⟩))).run stackMach world).1 = .ok (.pair (.arr ⟨[1], .f32, [29]⟩) (.bundle [])) :=
  apply_init ⟨rfl, rfl⟩ ⟨rfl, rfl⟩ net_ok (.root 7) (rng := .none) rfl _ _

/-- With other parameters, of which some are not used: `relu (relu (1·(-1) + 0) · 2 + 4) = 4`. -/
example : ((Prog.applyT (some [("linear_1".toList, [(['b'], ⟨[1], .f32, [4]⟩), (['w'], ⟨[1], .f32, [2]⟩)]), ("linear".toList, [(['w'], ⟨[1], .f32, [-1]⟩), (['b'], ⟨[1], .f32, [0]⟩)]), ("other".toList, [])]) none .none
      (stack net (.arr ⟨[1], .f32, [1]⟩))).run stackMach world).1 = .ok (.pair (.arr ⟨[1], .f32, [4]⟩) (.bundle [])) := by
  refine apply_stack (w := world) (get := fun q s => if q = "linear".toList then (if s = ['w'] then ⟨[1], .f32, [-1]⟩ else ⟨[1], .f32, [0]⟩) else (if s = ['w'] then ⟨[1], .f32, [2]⟩ else ⟨[1], .f32, [4]⟩))
    ⟨rfl, rfl⟩ net_ok (rng := .none) rfl ?_ _
  intro b hb p hp
  have hb' : b ∈ [("linear".toList, dense), ("relu".toList, relu), ("linear_1".toList, dense), ("relu_1".toList, relu)] := hb
  simp only [List.mem_cons, List.not_mem_nil, or_false] at hb'
  rcases hb' with rfl | rfl | rfl | rfl
  · simp only [dense, List.mem_cons, List.not_mem_nil, or_false] at hp
    rcases hp with rfl | rfl <;> exact ⟨rfl, rfl⟩
  · cases hp
  · simp only [dense, List.mem_cons, List.not_mem_nil, or_false] at hp
    rcases hp with rfl | rfl <;> exact ⟨rfl, rfl⟩
  · cases hp

end Net

end Verif.Props.Stack
