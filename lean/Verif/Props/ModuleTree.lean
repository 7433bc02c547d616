import Verif.Props.Stack

/-!
# A tree of modules through `hk.transform_with_state` (C192)
-/

set_option linter.unusedVariables false

namespace Verif.Props.ModuleTree
open Verif Names Frame Verif.Props.Names
open Verif.Props.Stack (Start Spec getAll left keyNo values needs Same Inside Bare get_new getAll_new storeAll storeAll_new values_names values_nil values_get left_depth requests_snoc start_run store2_setDefault)

/-! ### The function that is transformed -/

/-- What a module computes, from its parameters, its state and its input: what it gives to the first of the modules that it makes, what it returns, given also the output of the last of them, and the new
values of its state. -/
structure Fns where
  pre : List Arr → List Arr → Val → Val
  post : List Arr → List Arr → Val → Val → Val
  upd : List Arr → List Arr → Val → Val → List Arr

/-- A module: its name, its parameters, its state, the modules that its `__init__` makes and its `__call__` calls one after the other, the modules that its `__call__` makes and calls after those, and how
often more than once it is called. -/
inductive Tree where
  | node (name : Str) (specs vars : List Spec) (fns : Fns) (inits children : List Tree) (again : Nat)

/-- `hk.get_state` for each of them. -/
def getStates : List Spec → (List Arr → Prog) → Prog
  | [], k => k []
  | p :: ps, k => .bind (.op (.getState p.name (some p.shape) (some p.dtype) (some p.start.init))) fun v =>
    match v with
    | .arr a => getStates ps fun as => k (a :: as)
    | _ => .raise .structureMismatch

/-- `hk.set_state` for each of them. -/
def setStates : List (Str × Arr) → Prog → Prog
  | [], k => k
  | (n, v) :: vs, k => .bind (.op (.setState n v)) fun _ => setStates vs k

/-- `m(m(… m(x)))`, `n + 1` times. -/
def callTimes (id : ModId) (body : Val → Prog) : Nat → Val → Prog
  | 0, x => .callMethod id sCall x body
  | n + 1, x => .bind (.callMethod id sCall x body) (callTimes id body n)

/-- The body of `__call__`, where `inner` makes and calls the modules below. -/
def body (specs vars : List Spec) (fns : Fns) (inner : Val → Prog) (x : Val) : Prog :=
  getAll specs fun as => getStates vars fun ss => .bind (inner (fns.pre as ss x)) fun y => setStates ((vars.map Spec.name).zip (fns.upd as ss x y)) (.ret (fns.post as ss x y))

mutual
/-- Making a module: its `__init__` calls `super().__init__` and makes modules. -/
def newT : Tree → Prog
  | .node name _ _ _ inits _ _ => .newModule .unit fun id _ => .bind (.op (.superInit id (some name) [])) fun _ => newL inits
def newL : List Tree → Prog
  | [] => .ret .unit
  | t :: ts => .bind (newT t) fun _ => newL ts
end

mutual
/-- How many modules are made by making a module. -/
def sizeT : Tree → Nat
  | .node _ _ _ _ inits _ _ => 1 + sizeL inits
def sizeL : List Tree → Nat
  | [] => 0
  | t :: ts => sizeT t + sizeL ts
end

mutual
/-- Calling the module `id`.  The modules made in its `__init__` are attributes of it in python; module objects are numbered in the order in which they are made, so they are the next ones. -/
def callT (id : ModId) : Tree → Val → Prog
  | .node _ specs vars fns inits children again, x => callTimes id (body specs vars fns fun x => .bind (callL (id + 1) inits x) (progs children)) again x
/-- Calling modules one after the other. -/
def callL (id : ModId) : List Tree → Val → Prog
  | [], x => .ret x
  | t :: ts, x => .bind (callT id t x) (callL (id + sizeT t) ts)
/-- Making and calling modules one after the other. -/
def progs : List Tree → Val → Prog
  | [], x => .ret x
  | t :: ts, x => .bind (newT t) fun v =>
    match v with
    | .mod id => .bind (callT id t x) (progs ts)
    | _ => .raise .structureMismatch
end

/-! ### Specification -/

/-- A module with its full name, its parameters and its state. -/
structure Item where
  path : Str
  specs : List Spec
  vars : List Spec

def Tree.name : Tree → Str
  | .node name .. => name

/-- The name within the module that makes it: the second and later of a name get a number. -/
def numbered (used : List Str) (n : Str) : Str := if used.count n = 0 then n else n ++ '_' :: (toString (used.count n)).toList

mutual
/-- All modules with their full names, parameters and state: a module before the ones it makes; the name of a module is a directory for those, with `~` in between for the ones made in `__init__`. -/
def flatT (path : Str) (used : List Str) : Tree → List Item
  | .node name specs vars _ inits children _ => ⟨path ++ numbered used name, specs, vars⟩ :: (flatL (path ++ numbered used name ++ ['/', '~', '/']) [] inits ++ flatL (path ++ numbered used name ++ ['/']) [] children)
def flatL (path : Str) (used : List Str) : List Tree → List Item
  | [] => []
  | t :: ts => flatT path used t ++ flatL path (used ++ [t.name]) ts
end

/-- Applying a function once and `n` times more. -/
def times {α : Type} (f : α → α) : Nat → α → α
  | 0, x => f x
  | n + 1, x => times f n (f x)

/-- An array of a dictionary that has it. -/
def at2 (d : PDict) (q s : Str) : Arr := (lookup2 d q s).getD ⟨[], .f32, []⟩

/-- New values. -/
def write (d : PDict) (q : Str) (vs : List (Str × Arr)) : PDict := vs.foldl (fun d v => store2 d q v.1 v.2) d

/-- What one call of a module does to its input and the state of all modules, where `inner` is what the modules below do. -/
def once (get : Str → Str → Arr) (q : Str) (specs vars : List Spec) (fns : Fns) (inner : Val × PDict → Val × PDict) (x : Val × PDict) : Val × PDict :=
  let as := specs.map fun p => get q p.name
  let ss := vars.map fun p => at2 x.2 q p.name
  let r := inner (fns.pre as ss x.1, x.2)
  (fns.post as ss x.1 r.1, write r.2 q ((vars.map Spec.name).zip (fns.upd as ss x.1 r.1)))

mutual
/-- What the modules compute with given parameters, from input and state to output and state. -/
def composeT (get : Str → Str → Arr) (path : Str) (used : List Str) : Tree → Val × PDict → Val × PDict
  | .node name specs vars fns inits children again, x =>
    times (once get (path ++ numbered used name) specs vars fns fun x => composeL get (path ++ numbered used name ++ ['/']) [] children (composeL get (path ++ numbered used name ++ ['/', '~', '/']) [] inits x))
      again x
def composeL (get : Str → Str → Arr) (path : Str) (used : List Str) : List Tree → Val × PDict → Val × PDict
  | [], x => x
  | t :: ts, x => composeL get path (used ++ [t.name]) ts (composeT get path used t x)
end

/-- How many keys modules need. -/
def total (ls : List Item) : Nat := (ls.map fun b => needs b.specs + needs b.vars).sum

/-- The initial values of the parameters of each module. -/
def startP (k : Key) : Nat → List Item → PDict
  | _, [] => []
  | n, b :: ls => (b.path, values k n b.specs) :: startP k (n + (needs b.specs + needs b.vars)) ls

/-- The initial values of the state of each module: its keys come after those of its parameters. -/
def startS (k : Key) : Nat → List Item → PDict
  | _, [] => []
  | n, b :: ls => (b.path, values k (n + needs b.specs) b.vars) :: startS k (n + (needs b.specs + needs b.vars)) ls

/-- Only modules that have some. -/
def some' (d : PDict) : PDict := d.filter fun b => !b.2.isEmpty

/-- Parameters of one module, or its state: names differ, and initial values have the shape asked for. -/
def Proper (ps : List Spec) : Prop := (ps.map Spec.name).Nodup ∧ ∀ p ∈ ps, ∀ k n, (p.value k n).shape = p.shape

/-- The names are identifiers without a number, and parameters and state are proper. -/
inductive Ok : Tree → Prop
  | node {name specs vars fns inits children again} (ident : IsIdent name) (plain : ¬ EndsInNumber name) (params : Proper specs) (state : (vars.map Spec.name).Nodup) (above : ∀ t ∈ inits, Ok t) (below : ∀ t ∈ children, Ok t) :
    Ok (.node name specs vars fns inits children again)

theorem Ok.named {t : Tree} (h : Ok t) : IsIdent t.name ∧ ¬ EndsInNumber t.name := by
  cases h with
  | node a b c d e => exact ⟨a, b⟩

/-- Names that modules can have. -/
def Plain (used : List Str) : Prop := ∀ m ∈ used, IsIdent m ∧ ¬ EndsInNumber m

theorem Plain.snoc {used : List Str} (h : Plain used) {n : Str} (hn : IsIdent n ∧ ¬ EndsInNumber n) : Plain (used ++ [n]) := fun m hm => by
  rcases List.mem_append.1 hm with hm | hm
  · exact h m hm
  · rw [List.mem_singleton.1 hm]; exact hn

theorem Plain.nil : Plain [] := fun m hm => by cases hm

/-! ### Where a program runs -/

/-- In a method: `c` is the module and method, `used` are the names asked for so far in this call. -/
structure Here (s : LW) (c : Caller) (used : List Str) : Prop where
  hooks : s.env.hooks = Hooks.none
  namedCall : s.env.namedCall = false
  ready : Ready s.env.modules s.loc.heap
  caller : CallerIs s.env.modules s.loc.heap c
  scope : s.loc.scopes.head? = some (requests c .empty used).2

/-- What running modules does not touch. -/
structure Kept (s s' : LW) : Prop where
  env : s'.env = s.env
  heap : HeapLe s.loc.heap s'.loc.heap
  below : s'.loc.scopes.tail = s.loc.scopes.tail

theorem Kept.refl (s : LW) : Kept s s := ⟨rfl, .refl _, rfl⟩
theorem Kept.trans {a b c : LW} (h : Kept a b) (k : Kept b c) : Kept a c := ⟨k.1.trans h.1, h.2.trans k.2, k.3.trans h.3⟩

/-- The directory of a caller. -/
def Dir (c : Caller) (path : Str) : Prop := ∀ n, withPrefix c n = path ++ n

theorem dir_top : Dir none [] := fun n => rfl
theorem dir_call (q : Str) : Dir (some (q, sCall)) (q ++ ['/']) := fun n => by
  show q ++ '/' :: (if sCall = sInit then _ else if sCall ≠ sCall then _ else n) = _
  rw [if_neg (by decide), if_neg (by decide), List.append_assoc]
  rfl

theorem dir_init (q : Str) : Dir (some (q, sInit)) (q ++ ['/', '~', '/']) := fun n => by
  show q ++ '/' :: (if sInit = sInit then _ else _) = _
  rw [if_pos rfl, List.append_assoc]
  rfl

/-- A constructor that calls `super().__init__` and then does something else. -/
theorem construct_body {s s3 : LW} {n cls q : Str} {c : Caller} {sc sc' : Scope} {rest : List Scope} {p : Prog} {v : Val} (hi : s.env.hooks.interceptors = [])
    (hr : Ready s.env.modules s.loc.heap) (hs : s.loc.scopes = sc :: rest) (hv : validIdentifier n = true)
    (hc : CallerIs s.env.modules s.loc.heap c) (hq : request c sc n = (.ok q, sc')) {h2 : List ModObj} 
    (hh : h2 = ((s.loc.heap ++ [(⟨none, none⟩ : ModObj)]).modify s.loc.heap.length fun o => { o with subs := some [] }).modify s.loc.heap.length (fun o => { o with name := some q }))
    (hp : p.run localMach ⟨{ s.env with modules := (s.loc.heap.length, sInit) :: s.env.modules }, { s.loc with scopes := Scope.empty :: sc' :: rest, heap := h2 }⟩ = (.ok v, s3))
    (he : s3.env = { s.env with modules := (s.loc.heap.length, sInit) :: s.env.modules }) (hle : HeapLe h2 s3.loc.heap) :
    ∃ h', (Prog.newModule .unit fun id _ => .bind (.op (.superInit id (some n) cls)) fun _ => p).run localMach s =
        (.ok (.mod s.loc.heap.length), { s with loc := { s3.loc with scopes := s3.loc.scopes.tail, heap := h' } }) ∧
      h'.length = s3.loc.heap.length ∧ HeapLe s.loc.heap h' ∧ HeapLe s3.loc.heap h' := by
  have hne : ∀ p ∈ s.env.modules, p.1 ≠ s.loc.heap.length := fun p hp => Nat.ne_of_lt (hr.lt hp)
  have hsup := superInit_run (E := { s.env with modules := (s.loc.heap.length, sInit) :: s.env.modules })
    (l := { s.loc with scopes := Scope.empty :: s.loc.scopes, heap := s.loc.heap ++ [⟨none, none⟩] }) (id := s.loc.heap.length) (n := n) (cls := cls)
    (own := Scope.empty) (sc := sc) (rest := rest) rfl (by dsimp only; rw [hs]) hne hv ((HeapLe.append _ _).callerIs hc)
  rw [hq] at hsup
  dsimp only at hsup
  rw [← hh] at hsup
  have hself : h2[s.loc.heap.length]? = some ⟨some q, some []⟩ := by
    rw [hh, heap_modify', if_pos rfl, heap_modify', if_pos rfl]
    simp
  have hle0 : HeapLe s.loc.heap h2 := by
    intro m o e
    have hm : s.loc.heap.length ≠ m := fun h => by
      have := (List.getElem?_eq_some_iff.1 e).1
      omega
    refine ⟨o, ?_, rfl, id⟩
    rw [hh, heap_modify', if_neg hm, heap_modify', if_neg hm]
    rw [List.getElem?_append_left (List.getElem?_eq_some_iff.1 e).1]; exact e
  obtain ⟨subs3, hself3⟩ := hle.named hself
  have hr3 : Ready s.env.modules s3.loc.heap := (hle0.trans hle).ready hr
  obtain ⟨h3, e1, e2, e3, e4⟩ := notifyLoop_ready s.loc.heap.length q ((s.loc.heap.length, sInit) :: s.env.modules) s3.loc (by
      intro p hp hne'
      rcases List.mem_cons.1 hp with rfl | hp
      · exact absurd rfl hne'
      · exact hr3 p hp)
  refine ⟨h3, ?_, e2, (hle0.trans hle).trans e4, e4⟩
  show ((construct localMach .unit fun id _ => (Prog.bind (.op (.superInit id (some n) cls)) fun _ => p).run localMach) >>- fun id => M.pure (Val.mod id)) s = _
  unfold construct
  rw [M.bind, M.bind, top_eq]
  dsimp only [allocModule]
  rw [M.bind]
  unfold wrapMethod
  have key : ∀ (m : M LW Val) (s' : LW), localMach.inModule (s.loc.heap.length, sInit) m s' = LW.inModule (s.loc.heap.length, sInit) m s' := fun _ _ => rfl
  rw [key, LW.inModule]
  rw [M.bind, top_eq]
  have k1 : ∀ E l, (getModuleName s.loc.heap.length >>- fun nm => M.pure (nm, Env.hooks E |>.interceptors, Env.namedCall E)) l =
    (.ok (l.heap[s.loc.heap.length]?.bind ModObj.name, E.hooks.interceptors, E.namedCall), l) := fun _ _ => rfl
  rw [k1]
  dsimp only
  rw [hi]
  have k2 : (s.loc.heap ++ [(⟨none, none⟩ : ModObj)])[s.loc.heap.length]? = some ⟨none, none⟩ := by simp
  rw [k2]
  dsimp only [Option.bind_some]
  rw [if_neg (by simp)]
  unfold runInterceptors
  rw [M.bind, Prog.run, M.bind, Prog.run, top_eq, hsup]
  dsimp only
  rw [hp]
  dsimp only
  rw [M.bind, top_eq]
  have name : ∀ (l : Loc) subs, l.heap[s.loc.heap.length]? = some ⟨some q, subs⟩ → getModuleName s.loc.heap.length l = (.ok (some q), l) := by
    intro l subs hl
    unfold getModuleName
    rw [hl]
    rfl
  have k3 : ∀ E l subs, l.heap[s.loc.heap.length]? = some ⟨some q, subs⟩ → Frame.notify s.loc.heap.length none E l = notifyLoop s.loc.heap.length q E.modules l := by
    intro E l subs hl
    unfold Frame.notify
    dsimp only
    rw [M.bind, name _ _ hl]
  rw [k3 _ _ _ hself3, he]
  rw [e1]
  dsimp only [M.pure]
  rw [M.bind, top_eq]
  have k4 : ∀ (l : Loc) subs, l.heap[s.loc.heap.length]? = some ⟨some q, subs⟩ → checkCtor s.loc.heap.length l = (.ok (), l) := by
    intro l subs hl
    unfold checkCtor
    rw [M.bind, name _ _ hl]
    rfl
  rw [k4 _ _ (by rw [e3]; exact hself3)]
  rfl
mutual
/-- The module `id` and the ones made in its `__init__` are there. -/
def BuiltT (h : List ModObj) (path : Str) (used : List Str) (id : ModId) : Tree → Prop
  | .node name _ _ _ inits _ _ => (∃ subs, h[id]? = some ⟨some (path ++ numbered used name), some subs⟩) ∧ BuiltL h (path ++ numbered used name ++ ['/', '~', '/']) [] (id + 1) inits
def BuiltL (h : List ModObj) (path : Str) (used : List Str) (id : ModId) : List Tree → Prop
  | [] => True
  | t :: ts => BuiltT h path used id t ∧ BuiltL h path (used ++ [t.name]) (id + sizeT t) ts
end

mutual
theorem BuiltT.mono {h h' : List ModObj} (k : HeapLe h h') : ∀ {t : Tree} {path : Str} {used : List Str} {id : ModId}, BuiltT h path used id t → BuiltT h' path used id t
  | .node name specs vars fns inits children again, path, used, id, b => by
    rw [BuiltT] at b ⊢
    obtain ⟨⟨subs, h1⟩, h2⟩ := b
    exact ⟨k.named h1, BuiltL.mono k h2⟩
theorem BuiltL.mono {h h' : List ModObj} (k : HeapLe h h') : ∀ {ts : List Tree} {path : Str} {used : List Str} {id : ModId}, BuiltL h path used id ts → BuiltL h' path used id ts
  | [], path, used, id, b => by rw [BuiltL]; exact True.intro
  | t :: ts, path, used, id, b => by
    rw [BuiltL] at b ⊢
    exact ⟨BuiltT.mono k b.1, BuiltL.mono k b.2⟩
end

/-- What making modules does. -/
structure New (s s' : LW) : Prop where
  kept : Kept s s'
  params : s'.loc.params = s.loc.params
  rng : s'.loc.rng = s.loc.rng
  state : s'.loc.state = s.loc.state

mutual
theorem new_tree : ∀ (t : Tree) {s : LW} {c : Caller} {used : List Str} {path : Str}, Ok t → Here s c used → Dir c path → Plain used →
    ∃ s', (newT t).run localMach s = (.ok (.mod s.loc.heap.length), s') ∧ Here s' c (used ++ [t.name]) ∧ New s s' ∧ BuiltT s'.loc.heap path used s.loc.heap.length t ∧
      s'.loc.heap.length = s.loc.heap.length + sizeT t
  | .node n specs vars fns inits children again, s, c, used, path, ok, h, hd, hu => by
    cases ok with
    | node ident plain params state above below =>
    obtain ⟨rest, hs⟩ : ∃ rest, s.loc.scopes = (requests c .empty used).2 :: rest := by
      have := h.scope
      cases hc : s.loc.scopes with
      | nil => rw [hc] at this; cases this
      | cons a b => rw [hc] at this; injection this with this; exact ⟨b, by rw [this]⟩
    have hk := kth_name c used n hu ident plain
    have hq : request c (requests c .empty used).2 n = (.ok (path ++ numbered used n), (requests c .empty (used ++ [n])).2) := by
      rw [requests_snoc]
      refine Prod.ext (hk.trans ?_) rfl
      show Except.ok _ = Except.ok _
      congr 1
      unfold numbered
      rw [hd n]
      split
      · rfl
      · rw [List.append_assoc]
    generalize hqq : path ++ numbered used n = q at hq
    generalize hsc : (requests c .empty (used ++ [n])).2 = sc' at hq
    generalize hh : ((s.loc.heap ++ [(⟨none, none⟩ : ModObj)]).modify s.loc.heap.length fun o => { o with subs := some [] }).modify s.loc.heap.length (fun o => { o with name := some q }) = h2
    have hself : h2[s.loc.heap.length]? = some ⟨some q, some []⟩ := by
      rw [← hh, heap_modify', if_pos rfl, heap_modify', if_pos rfl]
      simp
    have hlen : h2.length = s.loc.heap.length + 1 := by rw [← hh]; simp
    have hle0 : HeapLe s.loc.heap h2 := by
      intro m o e
      have hm : s.loc.heap.length ≠ m := fun h => by
        have := (List.getElem?_eq_some_iff.1 e).1
        omega
      refine ⟨o, ?_, rfl, id⟩
      rw [← hh, heap_modify', if_neg hm, heap_modify', if_neg hm]
      rw [List.getElem?_append_left (List.getElem?_eq_some_iff.1 e).1]; exact e
    have h0 : Here ⟨{ s.env with modules := (s.loc.heap.length, sInit) :: s.env.modules }, { s.loc with scopes := Scope.empty :: sc' :: rest, heap := h2 }⟩ (some (q, sInit)) [] := by
      refine ⟨h.hooks, h.namedCall, ?_, ⟨q, some [], hself, rfl⟩, rfl⟩
      intro p hp
      rcases List.mem_cons.1 hp with rfl | hp
      · exact ⟨q, [], hself⟩
      · exact hle0.ready h.ready p hp
    obtain ⟨s3, e1, o1, k1, b1, z1⟩ := new_list inits above h0 (dir_init q) Plain.nil
    obtain ⟨h', f1, f2, f3, f4⟩ := construct_body (cls := []) (c := c) (by rw [h.hooks]; rfl) h.ready hs ((validIdentifier_iff n).2 (.inl ident)) h.caller hq hh.symm e1 k1.kept.env k1.kept.heap
    have hsc3 : s3.loc.scopes.tail = sc' :: rest := k1.kept.below
    refine ⟨{ s with loc := { s3.loc with scopes := s3.loc.scopes.tail, heap := h' } }, ?_, ⟨h.hooks, h.namedCall, f3.ready h.ready, f3.callerIs h.caller, ?_⟩, ⟨⟨rfl, f3, ?_⟩, k1.params, k1.rng, k1.state⟩, ?_, ?_⟩
    · rw [newT]
      exact f1
    · show s3.loc.scopes.tail.head? = _
      rw [hsc3, ← hsc]
      rfl
    · show s3.loc.scopes.tail.tail = _
      rw [hsc3, hs]
      rfl
    · rw [BuiltT, hqq]
      refine ⟨(k1.kept.heap.trans f4).named hself, BuiltL.mono f4 ?_⟩
      have : (s.loc.heap.length + 1 : Nat) = h2.length := hlen.symm
      rw [this]
      exact b1
    · show h'.length = _
      rw [f2, z1, sizeT]
      show h2.length + _ = _
      omega
theorem new_list : ∀ (ts : List Tree) {s : LW} {c : Caller} {used : List Str} {path : Str}, (∀ t ∈ ts, Ok t) → Here s c used → Dir c path → Plain used →
    ∃ s', (newL ts).run localMach s = (.ok .unit, s') ∧ Here s' c (used ++ ts.map Tree.name) ∧ New s s' ∧ BuiltL s'.loc.heap path used s.loc.heap.length ts ∧
      s'.loc.heap.length = s.loc.heap.length + sizeL ts
  | [], s, c, used, path, ok, h, hd, hu => ⟨s, by rw [newL]; rfl, by rw [List.map_nil, List.append_nil]; exact h, ⟨.refl s, rfl, rfl, rfl⟩, by rw [BuiltL]; exact True.intro, by rw [sizeL]; rfl⟩
  | t :: ts, s, c, used, path, ok, h, hd, hu => by
    have okt := ok t List.mem_cons_self
    obtain ⟨s1, e1, o1, k1, b1, z1⟩ := new_tree t okt h hd hu
    obtain ⟨s2, e2, o2, k2, b2, z2⟩ := new_list ts (fun r hr => ok r (List.mem_cons_of_mem _ hr)) o1 hd (hu.snoc okt.named)
    refine ⟨s2, ?_, by rw [List.map_cons, List.append_cons]; exact o2, ⟨k1.kept.trans k2.kept, k2.params.trans k1.params, k2.rng.trans k1.rng, k2.state.trans k1.state⟩, ?_, ?_⟩
    · rw [newL, Prog.run, M.bind, e1]
      exact e2
    · rw [BuiltL, ← z1]
      exact ⟨BuiltT.mono k2.kept.heap b1, b2⟩
    · rw [z2, z1, sizeL, Nat.add_assoc]
end

/-- The state in which the body of `__call__` starts. -/
def enter (s : LW) (id : ModId) : LW := ⟨{ s.env with modules := (id, sCall) :: s.env.modules }, { s.loc with scopes := Scope.empty :: s.loc.scopes }⟩

theorem enter_here {s : LW} {c : Caller} {used : List Str} {id : ModId} {q : Str} {subs : List Str} (h : Here s c used) (hq : s.loc.heap[id]? = some ⟨some q, some subs⟩) :
    Here (enter s id) (some (q, sCall)) [] := by
  refine ⟨h.hooks, h.namedCall, ?_, ⟨q, some subs, hq, rfl⟩, rfl⟩
  intro p hp
  rcases List.mem_cons.1 hp with rfl | hp
  · exact ⟨q, subs, hq⟩
  · exact h.ready p hp

theorem call_node {s s1 : LW} {c : Caller} {used : List Str} {id : ModId} {q : Str} {subs : List Str} {x y : Val} {body : Val → Prog} (h : Here s c used) (hq : s.loc.heap[id]? = some ⟨some q, some subs⟩)
    (hb : (body x).run localMach (enter s id) = (.ok y, s1)) (hk : Kept (enter s id) s1) :
    ∃ s' subs', (Prog.callMethod id sCall x body).run localMach s = (.ok y, s') ∧ Here s' c used ∧ Kept s s' ∧ s'.loc.params = s1.loc.params ∧ s'.loc.rng = s1.loc.rng ∧ s'.loc.state = s1.loc.state ∧
      s'.loc.heap[id]? = some ⟨some q, some subs'⟩ := by
  have hr : Ready ((id, sCall) :: s.env.modules) s1.loc.heap := hk.heap.ready (enter_here h hq).ready
  obtain ⟨h', e1, e2, e3, e4⟩ := notifyLoop_ready id q ((id, sCall) :: s.env.modules) s1.loc (fun p hp _ => hr p hp)
  have hle : HeapLe s.loc.heap h' := HeapLe.trans (show HeapLe s.loc.heap s1.loc.heap from hk.heap) e4
  obtain ⟨subs', hs'⟩ := hle.named hq
  refine ⟨⟨s.env, { s1.loc with heap := h', scopes := s1.loc.scopes.tail }⟩, subs', ?_, ⟨h.hooks, h.namedCall, hle.ready h.ready, hle.callerIs h.caller, ?_⟩, ⟨rfl, hle, ?_⟩, rfl, rfl, rfl, hs'⟩
  · have k1 : ∀ (E : Env) l, (getModuleName id >>- fun nm => M.pure (nm, E.hooks.interceptors, E.namedCall)) l =
      (.ok (l.heap[id]?.bind ModObj.name, E.hooks.interceptors, E.namedCall), l) := fun _ _ => rfl
    have key : (localMach.top (fun E => getModuleName id >>- fun nm => M.pure (nm, E.hooks.interceptors, E.namedCall)) >>- fun r =>
      let f := runInterceptors id sCall (fun a => (body a).run localMach) r.2.1 x
      (if r.2.2 && r.1.isSome && sCall = sCall then jitM localMach f else f) >>- fun v =>
      localMach.top (notify id r.1) >>- fun _ => M.pure v) (enter s id) = (.ok y, { s1 with loc := { s1.loc with heap := h' } }) := by
      have g1 : (enter s id).env.hooks = Hooks.none := h.hooks
      have g2 : (enter s id).env.namedCall = false := h.namedCall
      have g3 : (enter s id).loc.heap[id]? = some ⟨some q, some subs⟩ := hq
      rw [M.bind, top_eq, k1]
      dsimp only
      rw [g1, g2, g3]
      dsimp only [Hooks.none, Option.bind_some]
      rw [if_neg (by simp), runInterceptors, M.bind, hb]
      dsimp only
      have e5 : notify id (some q) s1.env s1.loc = (.ok (), { s1.loc with heap := h' }) := by
        rw [hk.env]
        exact e1
      rw [M.bind, top_eq, e5]
      rfl
    show LW.inModule (id, sCall) _ s = _
    rw [LW.inModule]
    erw [key]
  · show s1.loc.scopes.tail.head? = _
    rw [hk.below]
    exact h.scope
  · show s1.loc.scopes.tail.tail = _
    rw [hk.below]
    rfl

/-! ### State -/

theorem mapVals_set {κ ν μ : Type} [DecidableEq κ] (f : κ → ν → μ) (k : κ) (v : ν) : ∀ d : Dict κ ν, (d.set k v).mapVals f = (d.mapVals f).set k (f k v)
  | [] => rfl
  | (k', v') :: d => by
    rw [Dict.set]
    by_cases h : k' = k
    · rw [if_pos h]
      show _ = Dict.set ((k', f k' v') :: _) k _
      rw [Dict.set, if_pos h]
      subst h
      rfl
    · rw [if_neg h]
      show _ :: (Dict.set d k v).mapVals f = Dict.set ((k', f k' v') :: _) k _
      rw [Dict.set, if_neg h, mapVals_set f k v d]
      rfl

theorem extract_store2 (b : Bool) (st : SDict) (q n : Str) (p : StatePair) : extractState b (store2 st q n p) = store2 (extractState b st) q n (if b then p.initial else p.current) := by
  unfold extractState store2
  rw [mapVals_set, mapVals_set, Dict.get?_mapVals]
  cases st.get? q with
  | none => rfl
  | some i => rfl

theorem extract_lookup (b : Bool) (st : SDict) (q n : Str) : lookup2 (extractState b st) q n = (lookup2 st q n).map fun p => if b then p.initial else p.current := by
  unfold extractState
  rw [lookup2_mapVals]

theorem set_same {κ ν : Type} [DecidableEq κ] {k : κ} {v : ν} : ∀ {d : Dict κ ν}, d.get? k = some v → d.set k v = d
  | (k', v') :: d, h => by
    rw [Dict.get?_cons] at h
    rw [Dict.set]
    by_cases e : k' = k
    · rw [if_pos e] at h ⊢
      cases h
      rfl
    · rw [if_neg e] at h ⊢
      rw [set_same h]

theorem store2_same {β : Type} {d : Dict Str (Dict Str β)} {q n : Str} {v : β} (h : lookup2 d q n = some v) : store2 d q n v = d := by
  unfold lookup2 at h
  unfold store2
  cases hq : d.get? q with
  | none => rw [hq] at h; cases h
  | some i =>
    rw [hq] at h
    show d.set q (i.set n v) = d
    rw [set_same (show i.get? n = some v from h), set_same hq]

/-- There are as many entries as before. -/
def Grows (a b : SDict) : Prop := ∀ q n, (lookup2 a q n).isSome → (lookup2 b q n).isSome

theorem Grows.refl (a : SDict) : Grows a a := fun _ _ h => h
theorem Grows.trans {a b c : SDict} (h : Grows a b) (k : Grows b c) : Grows a c := fun q n x => k q n (h q n x)

/-- Nothing of the frame but what is listed elsewhere. -/
structure Quiet (l l' : Loc) : Prop where
  scopes : l'.scopes = l.scopes
  heap : l'.heap = l.heap

theorem Quiet.refl (l : Loc) : Quiet l l := ⟨rfl, rfl⟩
theorem Quiet.trans {a b c : Loc} (h : Quiet a b) (k : Quiet b c) : Quiet a c := ⟨k.1.trans h.1, k.2.trans h.2⟩
theorem Quiet.of {l l' : Loc} (h : Same l l') : Quiet l l' := ⟨h.scopes, h.heap⟩

theorem Quiet.inside {E : Env} {l l' : Loc} {q : Str} (hs : Quiet l l') (h : Inside E l q) : Inside E l' q :=
  ⟨h.hooks, by obtain ⟨id, ms, subs, h1, h2⟩ := h.bundle; exact ⟨id, ms, subs, h1, by rw [hs.heap]; exact h2⟩⟩

theorem Quiet.here {s : LW} {c : Caller} {used : List Str} {l : Loc} (hs : Quiet s.loc l) (h : Here s c used) : Here ⟨s.env, l⟩ c used :=
  ⟨h.hooks, h.namedCall, by show Ready _ l.heap; rw [hs.heap]; exact h.ready, by show CallerIs _ l.heap _; rw [hs.heap]; exact h.caller, by show l.scopes.head? = _; rw [hs.scopes]; exact h.scope⟩

theorem Quiet.kept {s : LW} {l : Loc} (hs : Quiet s.loc l) : Kept s ⟨s.env, l⟩ :=
  ⟨rfl, by show HeapLe _ l.heap; rw [hs.heap]; exact .refl _, by show l.scopes.tail = _; rw [hs.scopes]⟩

theorem has_bundle {β : Type} {d : Dict Str (Dict Str β)} {q n : Str} {v : β} (h : lookup2 d q n = some v) : d.setDefault q [] = d := by
  unfold lookup2 at h
  cases hq : d.get? q with
  | none => rw [hq] at h; cases h
  | some i => exact Dict.setDefault_of_some hq

theorem state_read {E : Env} {l : Loc} {q : Str} (h : Inside E l q) {p : Spec} {a : StatePair} (hn : lookup2 l.state q p.name = some a) :
    (Op.getState p.name (some p.shape) (some p.dtype) (some p.start.init)).run E l = (.ok (.arr a.current), { l with trace := l.trace ++ [.stateRead q p.name a.current] }) := by
  have hd := has_bundle hn
  show ((Frame.getState p.name (some p.shape) (some p.dtype) (some p.start.init) E >>- fun a => M.pure (Val.arr a)) l) = _
  unfold Frame.getState
  simp only [M.bind, h.name, M.get, hd, M.pure, hn, h.hooks, Hooks.none, record, M.modify, runGetters, Frame.liftExcept]

theorem state_new {E : Env} {l : Loc} {q : Str} (h : Inside E l q) {p : Spec} {k : Key} {n : Nat} (hr : l.rng = some ⟨left k n, []⟩) (hn : lookup2 l.state q p.name = none) :
    ∃ l', (Op.getState p.name (some p.shape) (some p.dtype) (some p.start.init)).run E l = (.ok (.arr (p.value k n)), l') ∧ l'.rng = some ⟨left k (n + p.keys), []⟩ ∧
      l'.state = store2 l.state q p.name ⟨p.value k n, p.value k n⟩ ∧ l'.params = l.params ∧ Quiet l l' := by
  obtain ⟨l1, h1, h2, h3, h4⟩ := start_run p k n { l with state := l.state.setDefault q [] } hr
  have hn' : lookup2 (l.state.setDefault q []) q p.name = none := by
    unfold lookup2 at hn ⊢
    unfold Dict.setDefault
    cases hq : l.state.get? q with
    | none => dsimp only; rw [Dict.get?_set_self]; rfl
    | some i => rw [hq] at hn; dsimp only; rw [hq]; exact hn
  refine ⟨{ l1 with state := store2 l1.state q p.name ⟨p.value k n, p.value k n⟩, trace := l1.trace ++ [.stateNew q p.name (p.value k n)] }, ?_, h2, ?_, h3, ⟨h4.scopes, h4.heap⟩⟩
  · show ((Frame.getState p.name (some p.shape) (some p.dtype) (some p.start.init) E >>- fun a => M.pure (Val.arr a)) l) = _
    unfold Frame.getState
    simp only [M.bind, h.name, M.get, M.modify, hn', h.hooks, Hooks.none, runCreators, h1, record, runGetters, Frame.liftExcept, M.pure]
  · show store2 l1.state q p.name _ = _
    rw [h4.state]
    exact store2_setDefault _ _ _ _

theorem state_set {E : Env} {l : Loc} {q n : Str} (h : Inside E l q) (v : Arr) {a : StatePair} (hn : lookup2 l.state q n = some a) :
    (Op.setState n v).run E l = (.ok .unit, { l with state := store2 l.state q n ⟨a.initial, v⟩, trace := l.trace ++ [.stateSet q n v] }) := by
  have hd := has_bundle hn
  show ((Frame.setState n v E >>- fun _ => M.pure Val.unit) l) = _
  unfold Frame.setState
  simp only [M.bind, h.name, M.get, hd, M.pure, hn, record, M.modify]

theorem getStates_read {q : Str} : ∀ (ps : List Spec) (K : List Arr → Prog) (E : Env) (l : Loc), Inside E l q → (∀ p ∈ ps, (lookup2 l.state q p.name).isSome) →
    ∃ l', (getStates ps K).run localMach ⟨E, l⟩ = (K (ps.map fun p => at2 (extractState false l.state) q p.name)).run localMach ⟨E, l'⟩ ∧ l'.state = l.state ∧ l'.params = l.params ∧ l'.rng = l.rng ∧ Quiet l l'
  | [], K, E, l, h, hn => ⟨l, rfl, rfl, rfl, rfl, .refl l⟩
  | p :: ps, K, E, l, h, hn => by
    obtain ⟨a, ha⟩ := Option.isSome_iff_exists.1 (hn p List.mem_cons_self)
    have h1 := state_read h ha
    obtain ⟨l2, k1, k2, k3, k5, k4⟩ := getStates_read ps (fun as => K (a.current :: as)) E { l with trace := l.trace ++ [.stateRead q p.name a.current] } (Quiet.inside (l := l) ⟨rfl, rfl⟩ h) (fun r hr => hn r (List.mem_cons_of_mem _ hr))
    refine ⟨l2, ?_, k2, k3, k5, ⟨k4.1, k4.2⟩⟩
    rw [getStates, Prog.run, M.bind, Prog.run, top_eq, h1, List.map_cons, show at2 (extractState false l.state) q p.name = a.current by unfold at2; rw [extract_lookup, ha]; rfl]
    exact k1

theorem getStates_new {q : Str} {k : Key} : ∀ (ps : List Spec) (K : List Arr → Prog) (E : Env) (l : Loc) (n : Nat), Inside E l q → (ps.map Spec.name).Nodup → l.rng = some ⟨left k n, []⟩ →
    (∀ p ∈ ps, lookup2 l.state q p.name = none) →
    ∃ l', (getStates ps K).run localMach ⟨E, l⟩ = (K ((values k n ps).map Prod.snd)).run localMach ⟨E, l'⟩ ∧ l'.rng = some ⟨left k (n + needs ps), []⟩ ∧
      extractState true l'.state = storeAll (extractState true l.state) q (values k n ps) ∧ l'.params = l.params ∧ Quiet l l'
  | [], K, E, l, n, h, hd, hr, hn => ⟨l, rfl, hr, rfl, rfl, .refl l⟩
  | p :: ps, K, E, l, n, h, hd, hr, hn => by
    obtain ⟨l1, h1, h2, h3, h5, h4⟩ := state_new h hr (hn p List.mem_cons_self)
    rw [List.map_cons, List.nodup_cons] at hd
    obtain ⟨l2, k1, k2, k3, k5, k4⟩ := getStates_new ps (fun as => K (p.value k n :: as)) E l1 (n + p.keys) (h4.inside h) hd.2 h2 (fun r hr => by
      rw [h3, lookup2_store2, if_neg (fun hc => hd.1 (by rw [hc.2]; exact List.mem_map_of_mem hr))]
      exact hn r (List.mem_cons_of_mem _ hr))
    refine ⟨l2, ?_, ?_, ?_, k5.trans h5, h4.trans k4⟩
    · rw [getStates, Prog.run, M.bind, Prog.run, top_eq, h1]
      exact k1
    · rw [k2, needs, needs, List.map_cons, List.sum_cons, Nat.add_assoc]
    · rw [k3, h3, extract_store2]; rfl

theorem setStates_run {q : Str} : ∀ (vs : List (Str × Arr)) (K : Prog) (E : Env) (l : Loc), Inside E l q → (∀ p ∈ vs, (lookup2 l.state q p.1).isSome) →
    ∃ l', (setStates vs K).run localMach ⟨E, l⟩ = K.run localMach ⟨E, l'⟩ ∧ extractState false l'.state = write (extractState false l.state) q vs ∧ extractState true l'.state = extractState true l.state ∧
      Grows l.state l'.state ∧ l'.params = l.params ∧ l'.rng = l.rng ∧ Quiet l l'
  | [], K, E, l, h, hn => ⟨l, rfl, rfl, rfl, .refl _, rfl, rfl, .refl l⟩
  | (n, v) :: vs, K, E, l, h, hn => by
    obtain ⟨a, ha⟩ := Option.isSome_iff_exists.1 (hn _ List.mem_cons_self)
    have h1 := state_set h v ha
    have hg : Grows l.state (store2 l.state q n ⟨a.initial, v⟩) := fun q' n' hs => by
      rw [lookup2_store2]
      split
      · rfl
      · exact hs
    obtain ⟨l2, k1, k2, k6, k7, k3, k5, k4⟩ := setStates_run vs K E { l with state := store2 l.state q n ⟨a.initial, v⟩, trace := l.trace ++ [.stateSet q n v] } (Quiet.inside (l := l) ⟨rfl, rfl⟩ h)
      (fun r hr => hg _ _ (hn r (List.mem_cons_of_mem _ hr)))
    refine ⟨l2, ?_, ?_, ?_, hg.trans k7, k3, k5, ⟨k4.1, k4.2⟩⟩
    · rw [setStates, Prog.run, M.bind, Prog.run, top_eq, h1]
      exact k1
    · rw [k2]
      show write (extractState false (store2 l.state q n _)) q vs = _
      rw [extract_store2]
      rfl
    · rw [k6]
      show extractState true (store2 l.state q n _) = _
      rw [extract_store2]
      refine store2_same ?_
      rw [extract_lookup, ha]
      rfl

/-! ### Reading -/

theorem get_read {E : Env} {l : Loc} {q : Str} (h : Inside E l q) {p : Spec} {a : Arr} (hn : lookup2 l.params q p.name = some a) (ha : a.shape = p.shape) :
    ∃ l', (Op.getParam p.name p.shape p.dtype (some p.start.init)).run E l = (.ok (.arr a), l') ∧ l'.params = l.params ∧ l'.rng = l.rng ∧ Same l l' := by
  refine ⟨{ l with trace := l.trace ++ [.paramRead q p.name a] }, ?_, rfl, rfl, ⟨rfl, rfl, rfl⟩⟩
  obtain ⟨i, hi⟩ : ∃ i, l.params.get? q = some i := by
    unfold lookup2 at hn
    cases h' : l.params.get? q with
    | none => rw [h'] at hn; cases hn
    | some i => exact ⟨i, rfl⟩
  have hh : l.params.has q = true := by
    unfold Dict.has
    rw [hi]
    rfl
  have hd : l.params.setDefault q [] = l.params := Dict.setDefault_of_some hi
  show ((Frame.getParameter p.name p.shape p.dtype (some p.start.init) E >>- fun a => M.pure (Val.arr a)) l) = _
  unfold Frame.getParameter
  cases hf : E.frozen with
  | true =>
    simp only [M.bind, h.name, M.get, hh, Bool.not_true, Bool.and_false, Bool.false_eq_true, if_false, if_true, M.pure, hn, h.hooks, Hooks.none, record, M.modify, runGetters, Frame.liftExcept, ha]
  | false =>
    simp only [M.bind, h.name, M.get, hh, hd, Bool.not_true, Bool.and_false, Bool.false_eq_true, if_false, if_true, M.pure, hn, h.hooks, Hooks.none, record, M.modify, runGetters, Frame.liftExcept, ha]

theorem getAll_read {q : Str} {get : Str → Arr} : ∀ (ps : List Spec) (K : List Arr → Prog) (E : Env) (l : Loc), Inside E l q →
    (∀ p ∈ ps, lookup2 l.params q p.name = some (get p.name) ∧ (get p.name).shape = p.shape) →
    ∃ l', (getAll ps K).run localMach ⟨E, l⟩ = (K (ps.map fun p => get p.name)).run localMach ⟨E, l'⟩ ∧ l'.params = l.params ∧ l'.rng = l.rng ∧ Same l l'
  | [], K, E, l, h, hn => ⟨l, rfl, rfl, rfl, .refl l⟩
  | p :: ps, K, E, l, h, hn => by
    obtain ⟨l1, h1, h3, h5, h4⟩ := get_read h (hn p List.mem_cons_self).1 (hn p List.mem_cons_self).2
    obtain ⟨l2, k1, k3, k5, k4⟩ := getAll_read ps (fun as => K (get p.name :: as)) E l1 (h.same h4) (fun r hr => by rw [h3]; exact hn r (List.mem_cons_of_mem _ hr))
    refine ⟨l2, ?_, k3.trans h3, k5.trans h5, h4.trans k4⟩
    rw [getAll, Prog.run, M.bind, Prog.run, top_eq, h1]
    exact k1

theorem Here.inside {s : LW} {q : Str} {used : List Str} (h : Here s (some (q, sCall)) used) : Inside s.env s.loc q := by
  refine ⟨h.hooks, ?_⟩
  have := h.caller
  unfold CallerIs at this
  split at this
  · cases this
  · rename_i m method ms hm
    obtain ⟨n, subs, e1, e2⟩ := this
    injection e2 with e2
    injection e2 with e2 e3
    subst e2
    subst e3
    exact ⟨m, ms, subs, hm, e1⟩

/-- What reading needs: an array of the right shape for each parameter, a value for each state. -/
def Fits (s : LW) (get : Str → Str → Arr) (its : List Item) : Prop :=
  ∀ b ∈ its, (∀ p ∈ b.specs, lookup2 s.loc.params b.path p.name = some (get b.path p.name) ∧ (get b.path p.name).shape = p.shape) ∧ ∀ p ∈ b.vars, (lookup2 s.loc.state b.path p.name).isSome

theorem Fits.mono {s s' : LW} {get : Str → Str → Arr} {its its' : List Item} (h : Fits s get its) (hp : s'.loc.params = s.loc.params) (hg : Grows s.loc.state s'.loc.state) (hs : ∀ b ∈ its', b ∈ its) :
    Fits s' get its' := fun b hb => ⟨by rw [hp]; exact (h b (hs b hb)).1, fun p hq => hg _ _ ((h b (hs b hb)).2 p hq)⟩

/-- What reading does: the state is the given one, nothing else changes. -/
structure Read (s s' : LW) (S : PDict) : Prop where
  kept : Kept s s'
  params : s'.loc.params = s.loc.params
  rng : s'.loc.rng = s.loc.rng
  grows : Grows s.loc.state s'.loc.state
  first : extractState true s'.loc.state = extractState true s.loc.state
  state : extractState false s'.loc.state = S

theorem Read.trans {a b c : LW} {S T : PDict} (h : Read a b S) (k : Read b c T) : Read a c T :=
  ⟨h.1.trans k.1, k.2.trans h.2, k.3.trans h.3, h.4.trans k.4, k.5.trans h.5, k.6⟩

/-- The state as modules see it. -/
abbrev now (s : LW) : PDict := extractState false s.loc.state

/-- The body of a call, if the modules below only read. -/
theorem body_read {get : Str → Str → Arr} {q : Str} {specs vars : List Spec} {fns : Fns} {inner : Val → Prog} {f : Val × PDict → Val × PDict} {its : List Item} {I : List ModObj → Prop}
    (hi : ∀ (x : Val) (s : LW), Here s (some (q, sCall)) [] → I s.loc.heap → Fits s get its → ∃ s' used, (inner x).run localMach s = (.ok (f (x, now s)).1, s') ∧ Here s' (some (q, sCall)) used ∧ Read s s' (f (x, now s)).2)
    (x : Val) {s : LW} (h : Here s (some (q, sCall)) []) (hI : I s.loc.heap) (hf : Fits s get (⟨q, specs, vars⟩ :: its)) :
    ∃ s', (body specs vars fns inner x).run localMach s = (.ok (once get q specs vars fns f (x, now s)).1, s') ∧ Read s s' (once get q specs vars fns f (x, now s)).2 := by
  obtain ⟨l1, a1, a2, a3, a4⟩ := getAll_read (get := get q) specs (fun as => getStates vars fun ss => .bind (inner (fns.pre as ss x)) fun y =>
    setStates ((vars.map Spec.name).zip (fns.upd as ss x y)) (.ret (fns.post as ss x y))) s.env s.loc h.inside (hf _ List.mem_cons_self).1
  obtain ⟨l2, b1, b2, b3, b4, b5⟩ := getStates_read vars (fun ss => .bind (inner (fns.pre (specs.map fun p => get q p.name) ss x)) fun y =>
    setStates ((vars.map Spec.name).zip (fns.upd (specs.map fun p => get q p.name) ss x y)) (.ret (fns.post (specs.map fun p => get q p.name) ss x y))) s.env l1 ((Quiet.of a4).inside h.inside)
    (fun p hp => by rw [a4.state]; exact (hf _ List.mem_cons_self).2 p hp)
  have q2 : Quiet s.loc l2 := (Quiet.of a4).trans b5
  have st2 : l2.state = s.loc.state := b2.trans a4.state
  have f2 : Fits ⟨s.env, l2⟩ get (⟨q, specs, vars⟩ :: its) := hf.mono (b3.trans a2) (by show Grows _ l2.state; rw [st2]; exact .refl _) fun b hb => hb
  rw [a4.state] at b1
  obtain ⟨s3, u3, c1, c2, c3⟩ := hi (fns.pre (specs.map fun p => get q p.name) (vars.map fun p => at2 (now s) q p.name) x) ⟨s.env, l2⟩ (q2.here h) (by show I l2.heap; rw [q2.heap]; exact hI) fun b hb => f2 b (List.mem_cons_of_mem _ hb)
  have n2 : now ⟨s.env, l2⟩ = now s := by show extractState false l2.state = _; rw [st2]
  rw [n2] at c1 c3
  obtain ⟨l4, d1, d2, d3, d4, d5, d6, d7⟩ := setStates_run (q := q) ((vars.map Spec.name).zip (fns.upd (specs.map fun p => get q p.name) (vars.map fun p => at2 (now s) q p.name) x
      (f (fns.pre (specs.map fun p => get q p.name) (vars.map fun p => at2 (now s) q p.name) x, now s)).1))
    (.ret (fns.post (specs.map fun p => get q p.name) (vars.map fun p => at2 (now s) q p.name) x (f (fns.pre (specs.map fun p => get q p.name) (vars.map fun p => at2 (now s) q p.name) x, now s)).1))
    s3.env s3.loc c2.inside (fun p hp => by
      obtain ⟨v, hv, e⟩ := List.mem_map.1 (List.of_mem_zip (show (p.1, p.2) ∈ _ from hp)).1
      rw [← e]
      exact c3.grows _ _ ((f2 _ List.mem_cons_self).2 v hv))
  refine ⟨⟨s3.env, l4⟩, ?_, ⟨q2.kept.trans (c3.kept.trans d7.kept), d5.trans (c3.params.trans (b3.trans a2)), d6.trans (c3.rng.trans (b4.trans a3)), ?_, ?_, ?_⟩⟩
  · show (getAll _ _).run localMach ⟨s.env, s.loc⟩ = _
    rw [a1, b1, Prog.run, M.bind, c1]
    exact d1
  · have := c3.grows.trans d4
    rw [show (⟨s.env, l2⟩ : LW).loc.state = s.loc.state from st2] at this
    exact this
  · refine d3.trans (c3.first.trans ?_)
    rw [show (⟨s.env, l2⟩ : LW).loc.state = s.loc.state from st2]
  · show extractState false l4.state = _
    rw [d2, c3.state]
    rfl

/-- Calls of a module that only reads. -/
theorem calls_read {get : Str → Str → Arr} {c : Caller} {used : List Str} {id : ModId} {q : Str} {its : List Item} {body : Val → Prog} {f : Val × PDict → Val × PDict} {I : List ModObj → Prop} (hI : ∀ h h', HeapLe h h' → I h → I h')
    (hb : ∀ (x : Val) (s : LW), Here s (some (q, sCall)) [] → I s.loc.heap → Fits s get its → ∃ s', (body x).run localMach s = (.ok (f (x, now s)).1, s') ∧ Read s s' (f (x, now s)).2) :
    ∀ (n : Nat) (s : LW) (subs : List Str) (x : Val), Here s c used → s.loc.heap[id]? = some ⟨some q, some subs⟩ → I s.loc.heap → Fits s get its →
    ∃ s', (callTimes id body n x).run localMach s = (.ok (times f n (x, now s)).1, s') ∧ Here s' c used ∧ Read s s' (times f n (x, now s)).2
  | 0, s, subs, x, h, hq, hi, hf => by
    obtain ⟨s1, b1, b2⟩ := hb x (enter s id) (enter_here h hq) hi hf
    obtain ⟨s', subs', e1, e2, e3, e4, e5, e7, e6⟩ := call_node h hq b1 b2.kept
    exact ⟨s', e1, e2, ⟨e3, e4.trans b2.params, e5.trans b2.rng, by rw [e7]; exact b2.grows, by rw [e7]; exact b2.first, by rw [e7]; exact b2.state⟩⟩
  | n + 1, s, subs, x, h, hq, hi, hf => by
    obtain ⟨s1, b1, b2⟩ := hb x (enter s id) (enter_here h hq) hi hf
    obtain ⟨s', subs', e1, e2, e3, e4, e5, e7, e6⟩ := call_node h hq b1 b2.kept
    have r1 : Read s s' (f (x, now s)).2 := ⟨e3, e4.trans b2.params, e5.trans b2.rng, by rw [e7]; exact b2.grows, by rw [e7]; exact b2.first, by rw [e7]; exact b2.state⟩
    obtain ⟨s'', g1, g2, g3⟩ := calls_read hI hb n s' subs' (f (x, now s)).1 e2 e6 (hI _ _ e3.heap hi) (hf.mono r1.params r1.grows fun b hb => hb)
    rw [show now s' = (f (x, now s)).2 from r1.state] at g1 g3
    refine ⟨s'', ?_, g2, r1.trans g3⟩
    rw [callTimes, Prog.run, M.bind]
    erw [e1]
    exact g1

mutual
theorem read_call {get : Str → Str → Arr} : ∀ (t : Tree) (x : Val) (s : LW) (c : Caller) (path : Str) (used used' : List Str) (id : ModId), Ok t → Here s c used' → BuiltT s.loc.heap path used id t →
    Fits s get (flatT path used t) →
    ∃ s', (callT id t x).run localMach s = (.ok (composeT get path used t (x, now s)).1, s') ∧ Here s' c used' ∧ Read s s' (composeT get path used t (x, now s)).2
  | .node name specs vars fns inits children again, x, s, c, path, used, used', id, ok, h, hb, hf => by
    cases ok with
    | node ident plain params state above below =>
    rw [BuiltT] at hb
    obtain ⟨⟨subs, hb1⟩, hb2⟩ := hb
    rw [flatT] at hf
    rw [callT, composeT]
    exact calls_read (I := fun h => BuiltL h (path ++ numbered used name ++ ['/', '~', '/']) [] (id + 1) inits) (fun h h' k b => BuiltL.mono k b) (fun x0 s0 h0 hi0 hf0 => body_read (I := fun h => BuiltL h (path ++ numbered used name ++ ['/', '~', '/']) [] (id + 1) inits) (fun x s h hi hf => by
        obtain ⟨s1, a1, a2, a3⟩ := read_calls inits x s _ (path ++ numbered used name ++ ['/', '~', '/']) [] [] (id + 1) above h hi fun b hb => hf b (List.mem_append_left _ hb)
        obtain ⟨s2, b1, b2, b3⟩ := read_list children (composeL get (path ++ numbered used name ++ ['/', '~', '/']) [] inits (x, now s)).1 s1 _ _ [] below a2 (dir_call _) Plain.nil
          (hf.mono a3.params a3.grows fun b hb => List.mem_append_right _ hb)
        rw [show now s1 = (composeL get (path ++ numbered used name ++ ['/', '~', '/']) [] inits (x, now s)).2 from a3.state] at b1 b3
        refine ⟨s2, _, ?_, b2, a3.trans b3⟩
        rw [Prog.run, M.bind, a1]
        exact b1) x0 h0 hi0 hf0) again s subs x h hb1 hb2 hf
theorem read_calls {get : Str → Str → Arr} : ∀ (ts : List Tree) (x : Val) (s : LW) (c : Caller) (path : Str) (used used' : List Str) (id : ModId), (∀ t ∈ ts, Ok t) → Here s c used' →
    BuiltL s.loc.heap path used id ts → Fits s get (flatL path used ts) →
    ∃ s', (callL id ts x).run localMach s = (.ok (composeL get path used ts (x, now s)).1, s') ∧ Here s' c used' ∧ Read s s' (composeL get path used ts (x, now s)).2
  | [], x, s, c, path, used, used', id, ok, h, hb, hf => ⟨s, by rw [callL, composeL]; rfl, h, ⟨.refl s, rfl, rfl, .refl _, rfl, by rw [composeL]⟩⟩
  | t :: ts, x, s, c, path, used, used', id, ok, h, hb, hf => by
    rw [flatL] at hf
    rw [BuiltL] at hb
    obtain ⟨s1, e1, o1, r1⟩ := read_call t x s c path used used' id (ok t List.mem_cons_self) h hb.1 (fun b hb => hf b (List.mem_append_left _ hb))
    obtain ⟨s2, e2, o2, r2⟩ := read_calls ts (composeT get path used t (x, now s)).1 s1 c path (used ++ [t.name]) used' (id + sizeT t) (fun r hr => ok r (List.mem_cons_of_mem _ hr)) o1
      (BuiltL.mono r1.kept.heap hb.2) (hf.mono r1.params r1.grows fun b hb => List.mem_append_right _ hb)
    rw [show now s1 = (composeT get path used t (x, now s)).2 from r1.state] at e2 r2
    refine ⟨s2, ?_, o2, by rw [composeL]; exact r1.trans r2⟩
    rw [callL, Prog.run, M.bind, e1, composeL]
    exact e2
theorem read_list {get : Str → Str → Arr} : ∀ (ts : List Tree) (x : Val) (s : LW) (c : Caller) (path : Str) (used : List Str), (∀ t ∈ ts, Ok t) → Here s c used → Dir c path → Plain used →
    Fits s get (flatL path used ts) →
    ∃ s', (progs ts x).run localMach s = (.ok (composeL get path used ts (x, now s)).1, s') ∧ Here s' c (used ++ ts.map Tree.name) ∧ Read s s' (composeL get path used ts (x, now s)).2
  | [], x, s, c, path, used, ok, h, hd, hu, hf =>
    ⟨s, by rw [progs, composeL]; rfl, by rw [List.map_nil, List.append_nil]; exact h, ⟨.refl s, rfl, rfl, .refl _, rfl, by rw [composeL]⟩⟩
  | t :: ts, x, s, c, path, used, ok, h, hd, hu, hf => by
    rw [flatL] at hf
    have okt := ok t List.mem_cons_self
    obtain ⟨s0, e0, o0, k0, b0, z0⟩ := new_tree t okt h hd hu
    have n0 : now s0 = now s := by show extractState false s0.loc.state = _; rw [k0.state]
    have r0 : Read s s0 (now s) := ⟨k0.kept, k0.params, k0.rng, by rw [k0.state]; exact .refl _, by rw [k0.state], n0⟩
    obtain ⟨s1, e1, o1, r1⟩ := read_call t x s0 c path used (used ++ [t.name]) s.loc.heap.length okt o0 b0 (hf.mono r0.params r0.grows fun b hb => List.mem_append_left _ hb)
    rw [n0] at e1 r1
    have r01 := r0.trans r1
    obtain ⟨s2, e2, o2, r2⟩ := read_list ts (composeT get path used t (x, now s)).1 s1 c path (used ++ [t.name]) (fun r hr => ok r (List.mem_cons_of_mem _ hr)) o1 hd (hu.snoc okt.named)
      (hf.mono r01.params r01.grows fun b hb => List.mem_append_right _ hb)
    rw [show now s1 = (composeT get path used t (x, now s)).2 from r1.state] at e2 r2
    refine ⟨s2, ?_, by rw [List.map_cons, List.append_cons]; exact o2, by rw [composeL]; exact r01.trans r2⟩
    rw [progs, Prog.run, M.bind, e0]
    dsimp only
    rw [Prog.run, M.bind, e1, composeL]
    exact e2
end

/-! ### The names -/

/-- `x` is the module `comp` in the directory, or one below it. -/
def Under (path comp x : Str) : Prop := x = path ++ comp ∨ ∃ r, x = path ++ comp ++ '/' :: r

theorem slash_split : ∀ {a b u v : Str}, '/' ∉ a → '/' ∉ b → (u = [] ∨ ∃ r, u = '/' :: r) → (v = [] ∨ ∃ r, v = '/' :: r) → a ++ u = b ++ v → a = b
  | [], [], u, v, ha, hb, hu, hv, h => rfl
  | [], y :: b, u, v, ha, hb, hu, hv, h => by
    rcases hu with rfl | ⟨r, rfl⟩
    · cases h
    · injection h with h1 h2
      exact absurd (List.mem_cons.2 (.inl h1)) hb
  | x :: a, [], u, v, ha, hb, hu, hv, h => by
    rcases hv with rfl | ⟨r, rfl⟩
    · cases h
    · injection h with h1 h2
      exact absurd (List.mem_cons.2 (.inl h1.symm)) ha
  | x :: a, y :: b, u, v, ha, hb, hu, hv, h => by
    injection h with h1 h2
    rw [h1, slash_split (fun hc => ha (List.mem_cons_of_mem _ hc)) (fun hc => hb (List.mem_cons_of_mem _ hc)) hu hv h2]

theorem Under.unique {path a b x : Str} (ha : Under path a x) (hb : Under path b x) (sa : '/' ∉ a) (sb : '/' ∉ b) : a = b := by
  obtain ⟨u, hu, eu⟩ : ∃ u, (u = [] ∨ ∃ r, u = '/' :: r) ∧ x = path ++ (a ++ u) := by
    rcases ha with rfl | ⟨r, rfl⟩
    · exact ⟨[], .inl rfl, by rw [List.append_nil]⟩
    · exact ⟨'/' :: r, .inr ⟨r, rfl⟩, by rw [List.append_assoc]⟩
  obtain ⟨v, hv, ev⟩ : ∃ v, (v = [] ∨ ∃ r, v = '/' :: r) ∧ x = path ++ (b ++ v) := by
    rcases hb with rfl | ⟨r, rfl⟩
    · exact ⟨[], .inl rfl, by rw [List.append_nil]⟩
    · exact ⟨'/' :: r, .inr ⟨r, rfl⟩, by rw [List.append_assoc]⟩
  exact slash_split sa sb hu hv (List.append_cancel_left (eu.symm.trans ev))

theorem numbered_slash {used : List Str} {n : Str} (h : IsIdent n) : '/' ∉ numbered used n := by
  have hn : '/' ∉ n := fun hc => absurd (h.2.1 _ hc) (by unfold IdChar; decide)
  unfold numbered
  split
  · exact hn
  · intro hc
    rcases List.mem_append.1 hc with hc | hc
    · exact hn hc
    · rcases List.mem_cons.1 hc with hc | hc
      · exact absurd hc (by decide)
      · rw [show (toString (used.count n)).toList = Nat.toDigits 10 (used.count n) from by simp] at hc
        exact absurd (Nat.isDigit_of_mem_toDigits (by decide) (by decide) hc) (by decide)

/-- The names within the directory. -/
def comps (used : List Str) : List Tree → List Str
  | [] => []
  | t :: ts => numbered used t.name :: comps (used ++ [t.name]) ts

/-- Only the name. -/
def bare (n : Str) : Stack.Layer := ⟨n, [], fun _ x => x⟩

theorem comps_named : ∀ (ts : List Tree) (used : List Str), (Stack.named used (ts.map fun t => bare t.name)).map Prod.fst = comps used ts
  | [], used => rfl
  | t :: ts, used => by
    show _ :: (Stack.named (used ++ [t.name]) _).map Prod.fst = _
    rw [comps_named ts]
    rfl

theorem comps_nodup {ts : List Tree} {used : List Str} (ok : ∀ t ∈ ts, Ok t) (hu : Plain used) : (comps used ts).Nodup := by
  rw [← comps_named]
  refine (List.nodup_append.1 (Stack.named_nodup _ used (fun l hl => ?_) hu)).2.1
  obtain ⟨t, ht, rfl⟩ := List.mem_map.1 hl
  exact ⟨(ok t ht).named.1, (ok t ht).named.2, List.nodup_nil, fun p hp => by cases hp⟩

theorem comps_slash : ∀ {ts : List Tree} {used : List Str}, (∀ t ∈ ts, Ok t) → ∀ a ∈ comps used ts, '/' ∉ a
  | t :: ts, used, ok, a, ha => by
    rcases List.mem_cons.1 ha with rfl | ha
    · exact numbered_slash (ok t List.mem_cons_self).named.1
    · exact comps_slash (fun r hr => ok r (List.mem_cons_of_mem _ hr)) a ha

mutual
theorem flatT_under : ∀ (t : Tree) (path : Str) (used : List Str), ∀ b ∈ flatT path used t, Under path (numbered used t.name) b.path
  | .node name specs vars fns inits children again, path, used, b, hb => by
    rw [flatT] at hb
    rcases List.mem_cons.1 hb with rfl | hb
    · exact .inl rfl
    · refine .inr ?_
      rcases List.mem_append.1 hb with hb | hb
      · obtain ⟨a, _, h⟩ := flatL_under inits _ _ b hb
        rcases h with h | ⟨r, h⟩
        · exact ⟨'~' :: '/' :: a, by rw [h]; simp [Tree.name]⟩
        · exact ⟨'~' :: '/' :: (a ++ '/' :: r), by rw [h]; simp [Tree.name]⟩
      · obtain ⟨a, _, h⟩ := flatL_under children _ _ b hb
        rcases h with h | ⟨r, h⟩
        · exact ⟨a, by rw [h, List.append_assoc]; rfl⟩
        · exact ⟨a ++ '/' :: r, by rw [h]; simp [Tree.name]⟩
theorem flatL_under : ∀ (ts : List Tree) (path : Str) (used : List Str), ∀ b ∈ flatL path used ts, ∃ a ∈ comps used ts, Under path a b.path
  | [], path, used, b, hb => by rw [flatL] at hb; cases hb
  | t :: ts, path, used, b, hb => by
    rw [flatL] at hb
    rcases List.mem_append.1 hb with hb | hb
    · exact ⟨_, List.mem_cons_self, flatT_under t path used b hb⟩
    · obtain ⟨a, ha, h⟩ := flatL_under ts path _ b hb
      exact ⟨a, List.mem_cons_of_mem _ ha, h⟩
end

/-- The name of a module is shorter than those of modules below it. -/
theorem longer {p a x : Str} (h : Under p a x) : p.length ≤ x.length := by
  rcases h with rfl | ⟨r, rfl⟩ <;> simp only [List.length_append] <;> omega

/-- No name starts with `~`. -/
theorem comps_tilde : ∀ {ts : List Tree} {used : List Str}, (∀ t ∈ ts, Ok t) → ['~'] ∉ comps used ts
  | t :: ts, used, ok, hm => by
    rcases List.mem_cons.1 hm with h | h
    · have hi := (ok t List.mem_cons_self).named.1
      have : '~' ∈ t.name := by
        unfold numbered at h
        split at h
        · rw [← h]; exact List.mem_singleton.2 rfl
        · have hl := congrArg List.length h
          have hne : t.name ≠ [] := hi.1
          have : 0 < t.name.length := List.length_pos_iff.2 hne
          simp only [List.length_append, List.length_cons, List.length_nil] at hl
          omega
      exact absurd (hi.2.1 _ this) (by unfold IdChar; decide)
    · exact comps_tilde (fun r hr => ok r (List.mem_cons_of_mem _ hr)) h

mutual
theorem flatT_nodup : ∀ (t : Tree) (path : Str) (used : List Str), Ok t → ((flatT path used t).map Item.path).Nodup
  | .node name specs vars fns inits children again, path, used, ok => by
    cases ok with
    | node ident plain params state above below =>
    rw [flatT, List.map_cons, List.nodup_cons]
    generalize path ++ numbered used name = q
    constructor
    · intro hc
      obtain ⟨b, hb, e⟩ := List.mem_map.1 hc
      have hl : q.length < b.path.length := by
        rcases List.mem_append.1 hb with hb | hb
        · obtain ⟨a, _, h⟩ := flatL_under inits _ _ b hb
          have := longer h
          simp only [List.length_append, List.length_cons, List.length_nil] at this
          omega
        · obtain ⟨a, _, h⟩ := flatL_under children _ _ b hb
          have := longer h
          simp only [List.length_append, List.length_cons, List.length_nil] at this
          omega
      rw [e] at hl
      exact Nat.lt_irrefl _ hl
    · rw [List.map_append, List.nodup_append]
      refine ⟨flatL_nodup inits _ [] above Plain.nil, flatL_nodup children _ [] below Plain.nil, ?_⟩
      rintro x hx y hy rfl
      obtain ⟨b, hb, rfl⟩ := List.mem_map.1 hx
      obtain ⟨b', hb', e⟩ := List.mem_map.1 hy
      obtain ⟨a, ha, h⟩ := flatL_under inits _ _ b hb
      obtain ⟨a', ha', h'⟩ := flatL_under children _ _ b' hb'
      rw [e] at h'
      have ht : Under (q ++ ['/']) ['~'] b.path := by
        rcases h with h | ⟨r, h⟩
        · exact .inr ⟨a, by rw [h]; simp⟩
        · exact .inr ⟨a ++ '/' :: r, by rw [h]; simp⟩
      have := ht.unique h' (by decide) (comps_slash below a' ha')
      exact comps_tilde below (by rw [this]; exact ha')
theorem flatL_nodup : ∀ (ts : List Tree) (path : Str) (used : List Str), (∀ t ∈ ts, Ok t) → Plain used → ((flatL path used ts).map Item.path).Nodup
  | [], path, used, ok, hu => by rw [flatL]; exact List.nodup_nil
  | t :: ts, path, used, ok, hu => by
    have okt := ok t List.mem_cons_self
    have okr : ∀ r ∈ ts, Ok r := fun r hr => ok r (List.mem_cons_of_mem _ hr)
    rw [flatL, List.map_append, List.nodup_append]
    refine ⟨flatT_nodup t path used okt, flatL_nodup ts path _ okr (hu.snoc okt.named), ?_⟩
    rintro x hx y hy rfl
    obtain ⟨b, hb, rfl⟩ := List.mem_map.1 hx
    obtain ⟨b', hb', e⟩ := List.mem_map.1 hy
    obtain ⟨a, ha, h⟩ := flatL_under ts path _ b' hb'
    rw [e] at h
    have hd := comps_nodup ok hu
    rw [comps, List.nodup_cons] at hd
    rw [(flatT_under t path used b hb).unique h (numbered_slash okt.named.1) (comps_slash okr a ha)] at hd
    exact hd.1 ha
end

mutual
theorem flatT_proper : ∀ (t : Tree) (path : Str) (used : List Str), Ok t → ∀ b ∈ flatT path used t, Proper b.specs ∧ (b.vars.map Spec.name).Nodup
  | .node name specs vars fns inits children again, path, used, ok, b, hb => by
    cases ok with
    | node ident plain params state above below =>
    rw [flatT] at hb
    rcases List.mem_cons.1 hb with rfl | hb
    · exact ⟨params, state⟩
    · rcases List.mem_append.1 hb with hb | hb
      · exact flatL_proper inits _ _ above b hb
      · exact flatL_proper children _ _ below b hb
theorem flatL_proper : ∀ (ts : List Tree) (path : Str) (used : List Str), (∀ t ∈ ts, Ok t) → ∀ b ∈ flatL path used ts, Proper b.specs ∧ (b.vars.map Spec.name).Nodup
  | [], path, used, ok, b, hb => by rw [flatL] at hb; cases hb
  | t :: ts, path, used, ok, b, hb => by
    rw [flatL] at hb
    rcases List.mem_append.1 hb with hb | hb
    · exact flatT_proper t path used (ok t List.mem_cons_self) b hb
    · exact flatL_proper ts path _ (fun r hr => ok r (List.mem_cons_of_mem _ hr)) b hb
end

/-! ### The initial values -/

theorem total_cons (b : Item) (ls : List Item) : total (b :: ls) = needs b.specs + needs b.vars + total ls := by
  unfold total
  rw [List.map_cons, List.sum_cons]

theorem total_append (a b : List Item) : total (a ++ b) = total a + total b := by
  unfold total
  rw [List.map_append, List.sum_append]

theorem startP_append (k : Key) : ∀ (a b : List Item) (n : Nat), startP k n (a ++ b) = startP k n a ++ startP k (n + total a) b
  | [], b, n => rfl
  | i :: a, b, n => by
    rw [List.cons_append, startP, startP, total_cons, startP_append k a b, Nat.add_assoc n]
    rfl

theorem startS_append (k : Key) : ∀ (a b : List Item) (n : Nat), startS k n (a ++ b) = startS k n a ++ startS k (n + total a) b
  | [], b, n => rfl
  | i :: a, b, n => by
    rw [List.cons_append, startS, startS, total_cons, startS_append k a b, Nat.add_assoc n]
    rfl

theorem startP_keys (k : Key) : ∀ (its : List Item) (n : Nat), (startP k n its).keys = its.map Item.path
  | [], n => rfl
  | b :: its, n => congrArg (b.path :: ·) (startP_keys k its _)

theorem startS_keys (k : Key) : ∀ (its : List Item) (n : Nat), (startS k n its).keys = its.map Item.path
  | [], n => rfl
  | b :: its, n => congrArg (b.path :: ·) (startS_keys k its _)

theorem startP_mem (k : Key) : ∀ (its : List Item) (n : Nat), ∀ b ∈ its, ∃ m, (b.path, values k m b.specs) ∈ startP k n its
  | c :: its, n, b, hb => by
    rcases List.mem_cons.1 hb with rfl | hb
    · exact ⟨n, List.mem_cons_self⟩
    · obtain ⟨m, h⟩ := startP_mem k its _ b hb
      exact ⟨m, List.mem_cons_of_mem _ h⟩

theorem startS_mem (k : Key) : ∀ (its : List Item) (n : Nat), ∀ b ∈ its, ∃ m, (b.path, values k m b.vars) ∈ startS k n its
  | c :: its, n, b, hb => by
    rcases List.mem_cons.1 hb with rfl | hb
    · exact ⟨n + needs b.specs, List.mem_cons_self⟩
    · obtain ⟨m, h⟩ := startS_mem k its _ b hb
      exact ⟨m, List.mem_cons_of_mem _ h⟩

theorem startP_mem_inv (k : Key) : ∀ (its : List Item) (n : Nat), ∀ e ∈ startP k n its, ∃ b ∈ its, ∃ m, e = (b.path, values k m b.specs)
  | c :: its, n, e, he => by
    rcases List.mem_cons.1 he with rfl | he
    · exact ⟨c, List.mem_cons_self, n, rfl⟩
    · obtain ⟨b, hb, m, h⟩ := startP_mem_inv k its _ e he
      exact ⟨b, List.mem_cons_of_mem _ hb, m, h⟩

theorem startS_mem_inv (k : Key) : ∀ (its : List Item) (n : Nat), ∀ e ∈ startS k n its, ∃ b ∈ its, ∃ m, e = (b.path, values k m b.vars)
  | c :: its, n, e, he => by
    rcases List.mem_cons.1 he with rfl | he
    · exact ⟨c, List.mem_cons_self, n + needs c.specs, rfl⟩
    · obtain ⟨b, hb, m, h⟩ := startS_mem_inv k its _ e he
      exact ⟨b, List.mem_cons_of_mem _ hb, m, h⟩

theorem some_append (a b : PDict) : some' (a ++ b) = some' a ++ some' b := List.filter_append ..

theorem some_keys (d : PDict) : (some' d).keys.Sublist d.keys := List.Sublist.map _ List.filter_sublist

theorem lookup_some {d : PDict} (hd : d.keys.Nodup) {q : Str} {i : Dict Str Arr} (hm : (q, i) ∈ d) {s : Str} {v : Arr} (h : i.get? s = some v) : lookup2 (some' d) q s = some v := by
  have : (some' d).get? q = some i := Dict.get?_of_mem ((some_keys d).nodup hd) (List.mem_filter.2 ⟨hm, by cases i with | nil => cases h | cons _ _ => rfl⟩)
  unfold lookup2
  rw [this]
  exact h

theorem lookup_append {d e : PDict} {q : Str} (h : d.get? q = none) (s : Str) : lookup2 (d ++ e : PDict) q s = lookup2 e q s := by
  unfold lookup2
  rw [Dict.get?_append, h]
  rfl

theorem storeAll_some {d : PDict} {q : Str} (h : d.get? q = none) (k : Key) (n : Nat) {ps : List Spec} (hn : (ps.map Spec.name).Nodup) : storeAll d q (values k n ps) = d ++ some' [(q, values k n ps)] := by
  by_cases hz : ps = []
  · rw [hz]
    exact (List.append_nil d).symm
  · have hv := values_nil k n hz
    rw [storeAll_new q h hv (by rw [values_names]; exact hn)]
    congr 1
    unfold some'
    rw [List.filter_cons_of_pos (by cases h : values k n ps with | nil => exact absurd h hv | cons _ _ => rfl)]
    rfl

theorem get_some_one {q q' : Str} {i : Dict Str Arr} (h : q ≠ q') : Dict.get? (some' [(q, i)]) q' = none :=
  (Dict.get?_eq_none_iff _ _).2 fun hc => by
    have := (some_keys [(q, i)]).subset hc
    exact h (List.mem_singleton.1 this).symm

theorem none_iff {st : SDict} {q : Str} (h : (extractState true st).get? q = none) (s : Str) : lookup2 st q s = none := by
  have : lookup2 (extractState true st) q s = none := by unfold lookup2; rw [h]; rfl
  rw [extract_lookup] at this
  exact Option.map_eq_none_iff.1 this

theorem some_iff {st : SDict} {q s : Str} (h : (lookup2 (extractState true st) q s).isSome) : (lookup2 st q s).isSome := by
  rw [extract_lookup, Option.isSome_map] at h
  exact h

/-! ### Making -/

/-- What making does: it adds the initial values and takes the keys. -/
structure Made (k : Key) (n : Nat) (its : List Item) (s s' : LW) : Prop where
  kept : Kept s s'
  params : s'.loc.params = s.loc.params ++ some' (startP k n its)
  first : extractState true s'.loc.state = extractState true s.loc.state ++ some' (startS k n its)
  rng : s'.loc.rng = some ⟨left k (n + total its), []⟩

/-- There are no entries yet. -/
def Fresh (s : LW) (its : List Item) : Prop := ∀ b ∈ its, s.loc.params.get? b.path = none ∧ (extractState true s.loc.state).get? b.path = none

theorem Made.fits {k : Key} {n : Nat} {its : List Item} {s s' : LW} (h : Made k n its s s') (hf : Fresh s its) (hd : (its.map Item.path).Nodup) (hp : ∀ b ∈ its, Proper b.specs ∧ (b.vars.map Spec.name).Nodup) :
    Fits s' (at2 s'.loc.params) its := fun b hb => ⟨fun p hpb => by
    obtain ⟨m, hm⟩ := startP_mem k its n b hb
    obtain ⟨m', hv⟩ := values_get k b.specs m (hp b hb).1.1 p hpb
    have hl : lookup2 s'.loc.params b.path p.name = some (p.value k m') := by
      rw [h.params, lookup_append (hf b hb).1]
      exact lookup_some (by rw [startP_keys]; exact hd) hm hv
    unfold at2
    rw [hl]
    exact ⟨rfl, (hp b hb).1.2 p hpb k m'⟩,
  fun p hpb => by
    obtain ⟨m, hm⟩ := startS_mem k its n b hb
    obtain ⟨m', hv⟩ := values_get k b.vars m (hp b hb).2 p hpb
    refine some_iff ?_
    rw [h.first, lookup_append (hf b hb).2, lookup_some (by rw [startS_keys]; exact hd) hm hv]
    rfl⟩

theorem Made.trans {k : Key} {n : Nat} {a b : List Item} {s s' s'' : LW} (h : Made k n a s s') (h' : Made k (n + total a) b s' s'') : Made k n (a ++ b) s s'' :=
  ⟨h.kept.trans h'.kept, by rw [h'.params, h.params, startP_append, some_append, List.append_assoc], by rw [h'.first, h.first, startS_append, some_append, List.append_assoc],
    by rw [h'.rng, total_append, Nat.add_assoc]⟩

/-- What comes later is not there yet. -/
theorem Made.fresh {k : Key} {n : Nat} {a b : List Item} {s s' : LW} (h : Made k n a s s') (hf : Fresh s (a ++ b)) (hd : ((a ++ b).map Item.path).Nodup) : Fresh s' b := fun i hi => by
  obtain ⟨b1, b2⟩ := hf i (List.mem_append_right _ hi)
  rw [List.map_append, List.nodup_append] at hd
  constructor
  · rw [h.params, Dict.get?_append, b1]
    show Dict.get? _ _ = none
    exact (Dict.get?_eq_none_iff _ _).2 fun hc => hd.2.2 _ (by rw [← startP_keys k _ n]; exact (some_keys _).subset hc) _ (List.mem_map_of_mem hi) rfl
  · rw [h.first, Dict.get?_append, b2]
    show Dict.get? _ _ = none
    exact (Dict.get?_eq_none_iff _ _).2 fun hc => hd.2.2 _ (by rw [← startS_keys k _ n]; exact (some_keys _).subset hc) _ (List.mem_map_of_mem hi) rfl

mutual
theorem init_call {k : Key} : ∀ (t : Tree) (x : Val) (s : LW) (c : Caller) (path : Str) (used used' : List Str) (id : ModId) (n : Nat), Ok t → Here s c used' → BuiltT s.loc.heap path used id t →
    s.env.frozen = false → s.loc.rng = some ⟨left k n, []⟩ → Fresh s (flatT path used t) →
    ∃ v s', (callT id t x).run localMach s = (.ok v, s') ∧ Here s' c used' ∧ Made k n (flatT path used t) s s'
  | .node name specs vars fns inits children again, x, s, c, path, used, used', id, n, ok, h, hb, hf, hr, hp => by
    have hnd := flatT_nodup _ path used ok
    have hpr := flatT_proper _ path used ok
    cases ok with
    | node ident plain params state above below =>
    rw [BuiltT] at hb
    obtain ⟨⟨subs, m1⟩, hbi⟩ := hb
    rw [flatT] at hp hnd hpr ⊢
    rw [callT]
    generalize hq : path ++ numbered used name = q at *
    obtain ⟨fp, fs⟩ := hp _ List.mem_cons_self
    have h0 : Here (enter s id) (some (q, sCall)) [] := enter_here h m1
    have hf1 : s.env.frozen = false := hf
    obtain ⟨l2, e2, r2, p2, sm⟩ := getAll_new (q := q) (k := k) specs (fun as => getStates vars fun ss => .bind (.bind (callL (id + 1) inits (fns.pre as ss x)) (progs children)) fun y =>
      setStates ((vars.map Spec.name).zip (fns.upd as ss x y)) (.ret (fns.post as ss x y))) (enter s id).env
      (enter s id).loc n h0.inside hf1 params.2 params.1 (by show s.loc.rng = _; exact hr) (fun p _ => by
        show lookup2 s.loc.params q p.name = none
        unfold lookup2
        rw [fp]
        rfl)
    generalize (values k n specs).map Prod.snd = as at e2
    have hp2 : l2.params = s.loc.params ++ some' [(q, values k n specs)] := by
      rw [p2]
      show storeAll s.loc.params q _ = _
      exact storeAll_some fp k n params.1
    have hs2 : l2.state = s.loc.state := sm.state
    obtain ⟨l3, e3, r3, p3, pp3, sm3⟩ := getStates_new (q := q) (k := k) vars (fun ss => .bind (.bind (callL (id + 1) inits (fns.pre as ss x)) (progs children)) fun y =>
      setStates ((vars.map Spec.name).zip (fns.upd as ss x y)) (.ret (fns.post as ss x y))) (enter s id).env l2 (n + needs specs) ((Quiet.of sm).inside h0.inside) state r2
      (fun p _ => by rw [hs2]; exact none_iff fs p.name)
    generalize (values k (n + needs specs) vars).map Prod.snd = ss at e3
    have hp3 : extractState true l3.state = extractState true s.loc.state ++ some' [(q, values k (n + needs specs) vars)] := by
      rw [p3, hs2]
      exact storeAll_some fs k _ state
    have q3 : Quiet (enter s id).loc l3 := (Quiet.of sm).trans sm3
    rw [List.map_cons, List.nodup_cons] at hnd
    have hf3 : Fresh ⟨(enter s id).env, l3⟩ (flatL (q ++ ['/', '~', '/']) [] inits ++ flatL (q ++ ['/']) [] children) := fun b hb => by
      obtain ⟨b1, b2⟩ := hp b (List.mem_cons_of_mem _ hb)
      have hne : q ≠ b.path := fun hc => hnd.1 (List.mem_map.2 ⟨b, hb, hc.symm⟩)
      constructor
      · show l3.params.get? b.path = none
        rw [pp3, hp2, Dict.get?_append, b1]
        exact get_some_one hne
      · show (extractState true l3.state).get? b.path = none
        rw [hp3, Dict.get?_append, b2]
        exact get_some_one hne
    obtain ⟨y', s4', e4', o4', m4'⟩ := init_calls (k := k) inits (fns.pre as ss x) ⟨(enter s id).env, l3⟩ _ (q ++ ['/', '~', '/']) [] [] (id + 1) (n + needs specs + needs vars) above Plain.nil (q3.here h0)
      (by show BuiltL l3.heap _ _ _ _; rw [q3.heap]; exact hbi) hf1 r3 fun b hb => hf3 b (List.mem_append_left _ hb)
    obtain ⟨y, s4, e4'', o4, m4''⟩ := init_list (k := k) children y' s4' _ _ [] (n + needs specs + needs vars + total (flatL (q ++ ['/', '~', '/']) [] inits)) below o4' (dir_call q) Plain.nil
      (by rw [m4'.kept.env]; exact hf1) m4'.rng (m4'.fresh hf3 hnd.2)
    have m4 := m4'.trans m4''
    have e4 : (Prog.bind (callL (id + 1) inits (fns.pre as ss x)) (progs children)).run localMach ⟨(enter s id).env, l3⟩ = (.ok y, s4) := by
      rw [Prog.run, M.bind, e4']
      exact e4''
    have hm4 : Made k n (⟨q, specs, vars⟩ :: (flatL (q ++ ['/', '~', '/']) [] inits ++ flatL (q ++ ['/']) [] children)) (enter s id) s4 := by
      refine ⟨q3.kept.trans m4.kept, ?_, ?_, ?_⟩
      · rw [m4.params, startP]
        show l3.params ++ _ = s.loc.params ++ some' ([_] ++ _)
        rw [pp3, hp2, some_append, List.append_assoc, Nat.add_assoc]
      · rw [m4.first, startS]
        show extractState true l3.state ++ _ = extractState true s.loc.state ++ some' ([_] ++ _)
        rw [hp3, some_append, List.append_assoc, Nat.add_assoc]
      · rw [m4.rng, total_cons, Nat.add_assoc, Nat.add_assoc, Nat.add_assoc]
    have hfr : Fresh (enter s id) (⟨q, specs, vars⟩ :: (flatL (q ++ ['/', '~', '/']) [] inits ++ flatL (q ++ ['/']) [] children)) := fun b hb => by
      show s.loc.params.get? b.path = none ∧ (extractState true s.loc.state).get? b.path = none
      exact hp b hb
    have hfit := hm4.fits hfr (by rw [List.map_cons, List.nodup_cons]; exact hnd) hpr
    obtain ⟨l5, d1, d2, d3, d4, d5, d6, d7⟩ := setStates_run (q := q) ((vars.map Spec.name).zip (fns.upd as ss x y)) (.ret (fns.post as ss x y)) s4.env s4.loc o4.inside (fun p hp => by
      obtain ⟨v, hv, e⟩ := List.mem_map.1 (List.of_mem_zip (show (p.1, p.2) ∈ _ from hp)).1
      rw [← e]
      exact (hfit _ List.mem_cons_self).2 v hv)
    have hb1 : (body specs vars fns (fun x => .bind (callL (id + 1) inits x) (progs children)) x).run localMach (enter s id) = (.ok (fns.post as ss x y), ⟨s4.env, l5⟩) := by
      show (getAll _ _).run localMach ⟨(enter s id).env, (enter s id).loc⟩ = _
      rw [e2, e3, Prog.run, M.bind]
      erw [e4]
      exact d1
    obtain ⟨s6, subs6, e6, o6, k6, p6, r6, t6, m6⟩ := call_node (body := body specs vars fns fun x => .bind (callL (id + 1) inits x) (progs children)) h m1 hb1 (hm4.kept.trans d7.kept)
    have hm6 : Made k n (⟨q, specs, vars⟩ :: (flatL (q ++ ['/', '~', '/']) [] inits ++ flatL (q ++ ['/']) [] children)) s s6 := by
      refine ⟨k6, ?_, ?_, ?_⟩
      · rw [p6]
        exact d5.trans hm4.params
      · rw [t6]
        exact d3.trans hm4.first
      · rw [r6]
        exact d6.trans hm4.rng
    cases again with
    | zero => exact ⟨_, s6, e6, o6, hm6⟩
    | succ a =>
      obtain ⟨s7, e7, o7, r7⟩ := calls_read (get := at2 s6.loc.params) (c := c) (used := used') (id := id) (q := q) (body := body specs vars fns fun x => .bind (callL (id + 1) inits x) (progs children))
        (f := once (at2 s6.loc.params) q specs vars fns fun x => composeL (at2 s6.loc.params) (q ++ ['/']) [] children (composeL (at2 s6.loc.params) (q ++ ['/', '~', '/']) [] inits x))
        (I := fun h => BuiltL h (q ++ ['/', '~', '/']) [] (id + 1) inits) (fun h h' k b => BuiltL.mono k b) (fun x0 s0 h0 hi0 hf0 => body_read (I := fun h => BuiltL h (q ++ ['/', '~', '/']) [] (id + 1) inits) (fun x s h hi hf => by
          obtain ⟨s1, a1, a2, a3⟩ := read_calls inits x s _ (q ++ ['/', '~', '/']) [] [] (id + 1) above h hi fun b hb => hf b (List.mem_append_left _ hb)
          obtain ⟨s2, b1, b2, b3⟩ := read_list children (composeL (at2 s6.loc.params) (q ++ ['/', '~', '/']) [] inits (x, now s)).1 s1 _ _ [] below a2 (dir_call _) Plain.nil
            (hf.mono a3.params a3.grows fun b hb => List.mem_append_right _ hb)
          rw [show now s1 = (composeL (at2 s6.loc.params) (q ++ ['/', '~', '/']) [] inits (x, now s)).2 from a3.state] at b1 b3
          refine ⟨s2, _, ?_, b2, a3.trans b3⟩
          rw [Prog.run, M.bind, a1]
          exact b1) x0 h0 hi0 hf0) a s6 subs6 (fns.post as ss x y) o6 m6 (BuiltL.mono k6.heap hbi) (hm6.fits hp (by rw [List.map_cons, List.nodup_cons]; exact hnd) hpr)
      have fin : ∃ v, (callTimes id (body specs vars fns fun x => .bind (callL (id + 1) inits x) (progs children)) (a + 1) x).run localMach s = (.ok v, s7) := by
        rw [callTimes, Prog.run, M.bind, e6]
        exact ⟨_, e7⟩
      obtain ⟨v, fin⟩ := fin
      exact ⟨v, s7, fin, o7, ⟨hm6.kept.trans r7.kept, r7.params.trans hm6.params, r7.first.trans hm6.first, r7.rng.trans hm6.rng⟩⟩
theorem init_calls {k : Key} : ∀ (ts : List Tree) (x : Val) (s : LW) (c : Caller) (path : Str) (used used' : List Str) (id : ModId) (n : Nat), (∀ t ∈ ts, Ok t) → Plain used → Here s c used' →
    BuiltL s.loc.heap path used id ts → s.env.frozen = false → s.loc.rng = some ⟨left k n, []⟩ → Fresh s (flatL path used ts) →
    ∃ v s', (callL id ts x).run localMach s = (.ok v, s') ∧ Here s' c used' ∧ Made k n (flatL path used ts) s s'
  | [], x, s, c, path, used, used', id, n, ok, hu, h, hb, hf, hr, hp =>
    ⟨x, s, by rw [callL]; rfl, h, .refl s, by rw [flatL]; exact (List.append_nil _).symm, by rw [flatL]; exact (List.append_nil _).symm, by rw [flatL]; exact hr⟩
  | t :: ts, x, s, c, path, used, used', id, n, ok, hu, h, hb, hf, hr, hp => by
    have hnd := flatL_nodup _ path used ok hu
    rw [flatL] at hp hnd ⊢
    rw [BuiltL] at hb
    obtain ⟨v, s1, e1, o1, m1⟩ := init_call t x s c path used used' id n (ok t List.mem_cons_self) h hb.1 hf hr (fun b hb => hp b (List.mem_append_left _ hb))
    obtain ⟨v2, s2, e2, o2, m2⟩ := init_calls ts v s1 c path (used ++ [t.name]) used' (id + sizeT t) (n + total (flatT path used t)) (fun r hr => ok r (List.mem_cons_of_mem _ hr))
      (hu.snoc (ok t List.mem_cons_self).named) o1 (BuiltL.mono m1.kept.heap hb.2) (by rw [m1.kept.env]; exact hf) m1.rng (m1.fresh hp hnd)
    refine ⟨v2, s2, ?_, o2, m1.trans m2⟩
    rw [callL, Prog.run, M.bind, e1]
    exact e2
theorem init_list {k : Key} : ∀ (ts : List Tree) (x : Val) (s : LW) (c : Caller) (path : Str) (used : List Str) (n : Nat), (∀ t ∈ ts, Ok t) → Here s c used → Dir c path → Plain used →
    s.env.frozen = false → s.loc.rng = some ⟨left k n, []⟩ → Fresh s (flatL path used ts) →
    ∃ v s', (progs ts x).run localMach s = (.ok v, s') ∧ Here s' c (used ++ ts.map Tree.name) ∧ Made k n (flatL path used ts) s s'
  | [], x, s, c, path, used, n, ok, h, hd, hu, hf, hr, hp =>
    ⟨x, s, by rw [progs]; rfl, by rw [List.map_nil, List.append_nil]; exact h, .refl s, by rw [flatL]; exact (List.append_nil _).symm, by rw [flatL]; exact (List.append_nil _).symm, by rw [flatL]; exact hr⟩
  | t :: ts, x, s, c, path, used, n, ok, h, hd, hu, hf, hr, hp => by
    have hnd := flatL_nodup _ path used ok hu
    rw [flatL] at hp hnd ⊢
    have okt := ok t List.mem_cons_self
    obtain ⟨s0, e0, o0, k0, b0, z0⟩ := new_tree t okt h hd hu
    obtain ⟨v, s1, e1, o1, m1⟩ := init_call t x s0 c path used (used ++ [t.name]) s.loc.heap.length n okt o0 b0 (by rw [k0.kept.env]; exact hf) (by rw [k0.rng]; exact hr)
      (fun b hb => by rw [k0.params, k0.state]; exact hp b (List.mem_append_left _ hb))
    have m01 : Made k n (flatT path used t) s s1 := ⟨k0.kept.trans m1.kept, by rw [m1.params, k0.params], by rw [m1.first, k0.state], m1.rng⟩
    obtain ⟨v2, s2, e2, o2, m2⟩ := init_list ts v s1 c path (used ++ [t.name]) (n + total (flatT path used t)) (fun r hr => ok r (List.mem_cons_of_mem _ hr)) o1 hd (hu.snoc okt.named)
      (by rw [m01.kept.env]; exact hf) m1.rng (m01.fresh hp hnd)
    refine ⟨v2, s2, ?_, by rw [List.map_cons, List.append_cons]; exact o2, m01.trans m2⟩
    rw [progs, Prog.run, M.bind, e0]
    dsimp only
    rw [Prog.run, M.bind, e1]
    exact e2
end

/-! ### The theorems -/

theorem here_start (c : Ctx) {w : World} (hw : Bare w) (hc : c.scope = Scope.empty) : Here (ctxStart c w) none [] :=
  ⟨hw.1, hw.2, fun p hp => (by cases hp), rfl, by show some c.scope = _; rw [hc]; rfl⟩

/-- C192: `init` returns exactly the parameters of the modules that have some, and the initial state of those that have state, whatever the depth of the tree: each module has its own entry, under the
path of the modules that made it, a module before those it makes; the parameters and state that need a key get the keys in this order.  Calling a module again adds nothing and takes no key, and setting
state changes nothing of what is returned. -/
theorem init_trees {w : World} (hw : Bare w) {ts : List Tree} (hl : ∀ t ∈ ts, Ok t) (k : Key) (x : Val) :
    ((Prog.initT (.key k) (progs ts x)).run stackMach w).1 = .ok (.pair (.bundle (some' (startP k 0 (flatL [] [] ts)))) (.bundle (some' (startS k 0 (flatL [] [] ts))))) := by
  obtain ⟨v, s, h1, h2, h3⟩ := init_list (k := k) ts x (ctxStart (Ctx.new none none (some ⟨k, []⟩)) w) none [] [] 0 hl (here_start _ hw rfl) dir_top Plain.nil rfl rfl (fun b hb => ⟨rfl, rfl⟩)
  rw [initT_run]
  show (match (progs ts x).run localMach (ctxStart (Ctx.new none none (some ⟨k, []⟩)) w) with
    | (.error e, s) => (Except.error e, { w with heap := s.loc.heap })
    | (.ok _, s) => (.ok (Val.pair (.bundle s.loc.params) (.bundle (extractState true s.loc.state))), { w with heap := s.loc.heap })).1 = _
  rw [h1]
  dsimp only
  rw [h3.params, h3.first]
  rfl

/-- C192: no two modules have the same name. -/
theorem names_distinct {ts : List Tree} (hl : ∀ t ∈ ts, Ok t) : ((flatL [] [] ts).map Item.path).Nodup := flatL_nodup ts [] [] hl Plain.nil

theorem extract_new (P S : PDict) (r : Option PRNGSeq) (w : World) : extractState false (ctxStart (Ctx.new (some P) (some S) r) w).loc.state = dict2 S := by
  show extractState false ((dict2 S).mapVals fun _ b => b.mapVals fun _ v => (⟨v, v⟩ : StatePair)) = _
  unfold extractState Dict.mapVals
  rw [List.map_map]
  refine (List.map_congr_left fun b _ => ?_).trans (List.map_id _)
  show (b.1, List.map _ (List.map _ b.2)) = b
  rw [List.map_map]
  exact congrArg (Prod.mk b.1) (List.map_id _)

/-- C192: `apply` with an array of the right shape for each parameter of each module, and a value for each state, is the composition of the modules, each with its own arrays and its own state, in every
call of it; the state that it returns is the given one with the new values. -/
theorem apply_trees {w : World} (hw : Bare w) {ts : List Tree} (hl : ∀ t ∈ ts, Ok t) {rng : RngArg} {r : Option PRNGSeq} (hr : rng.toSeq = .ok r) {P S : PDict} {get : Str → Str → Arr}
    (hp : ∀ b ∈ flatL [] [] ts, ∀ p ∈ b.specs, lookup2 (dict2 P) b.path p.name = some (get b.path p.name) ∧ (get b.path p.name).shape = p.shape)
    (hs : ∀ b ∈ flatL [] [] ts, ∀ p ∈ b.vars, (lookup2 (dict2 S) b.path p.name).isSome) (x : Val) :
    ((Prog.applyT (some P) (some S) rng (progs ts x)).run stackMach w).1 = .ok (.pair (composeL get [] [] ts (x, dict2 S)).1 (.bundle (composeL get [] [] ts (x, dict2 S)).2)) := by
  have hx := extract_new P S r w
  obtain ⟨s, h1, h2, h3⟩ := read_list (get := get) ts x (ctxStart (Ctx.new (some P) (some S) r) w) none [] [] hl (here_start _ hw rfl) dir_top Plain.nil (fun b hb => ⟨hp b hb, fun p hpb => by
    have := hs b hb p hpb
    rw [← hx, extract_lookup, Option.isSome_map] at this
    exact this⟩)
  rw [show now (ctxStart (Ctx.new (some P) (some S) r) w) = dict2 S from hx] at h1 h3
  rw [applyT_run, hr]
  dsimp only [Option.getD_some, Option.getD_none]
  rw [h1]
  dsimp only
  rw [h3.state]

theorem some_wf {d : PDict} (h : d.keys.Nodup) (hi : ∀ e ∈ d, (Dict.keys e.2).Nodup) : dict2 (some' d) = some' d :=
  dict2_of_wf ⟨(some_keys d).nodup h, fun b i hb => hi (b, i) (List.mem_filter.1 (Dict.mem_of_get? hb)).1⟩

/-- What `init` returned has an array of the right shape for each parameter and a value for each state. -/
theorem initial_fits {ts : List Tree} (hl : ∀ t ∈ ts, Ok t) (k : Key) :
    (∀ b ∈ flatL [] [] ts, ∀ p ∈ b.specs, lookup2 (dict2 (some' (startP k 0 (flatL [] [] ts)))) b.path p.name = some (at2 (some' (startP k 0 (flatL [] [] ts))) b.path p.name) ∧
      (at2 (some' (startP k 0 (flatL [] [] ts))) b.path p.name).shape = p.shape) ∧
    (∀ b ∈ flatL [] [] ts, ∀ p ∈ b.vars, (lookup2 (dict2 (some' (startS k 0 (flatL [] [] ts)))) b.path p.name).isSome) ∧ dict2 (some' (startS k 0 (flatL [] [] ts))) = some' (startS k 0 (flatL [] [] ts)) := by
  have hd := names_distinct hl
  have ho := flatL_proper ts [] [] hl
  have wp := some_wf (d := startP k 0 (flatL [] [] ts)) (by rw [startP_keys]; exact hd) (fun e he => by
    obtain ⟨b, hb, m, rfl⟩ := startP_mem_inv k _ _ e he
    show ((values k m b.specs).map Prod.fst).Nodup
    rw [values_names]
    exact (ho b hb).1.1)
  have ws := some_wf (d := startS k 0 (flatL [] [] ts)) (by rw [startS_keys]; exact hd) (fun e he => by
    obtain ⟨b, hb, m, rfl⟩ := startS_mem_inv k _ _ e he
    show ((values k m b.vars).map Prod.fst).Nodup
    rw [values_names]
    exact (ho b hb).2)
  refine ⟨fun b hb p hp => ?_, fun b hb p hp => ?_, ws⟩
  · obtain ⟨m, hm⟩ := startP_mem k _ 0 b hb
    obtain ⟨m', hv⟩ := values_get k b.specs m (ho b hb).1.1 p hp
    have := lookup_some (by rw [startP_keys]; exact hd) hm hv
    unfold at2
    rw [wp, this]
    exact ⟨rfl, (ho b hb).1.2 p hp k m'⟩
  · obtain ⟨m, hm⟩ := startS_mem k _ 0 b hb
    obtain ⟨m', hv⟩ := values_get k b.vars m (ho b hb).2 p hp
    rw [ws, lookup_some (by rw [startS_keys]; exact hd) hm hv]
    rfl

/-- C192: `apply` on what `init` returned never fails; it is the composition with the initial values, from the initial state. -/
theorem apply_init {w w' : World} (hw : Bare w) (hw' : Bare w') {ts : List Tree} (hl : ∀ t ∈ ts, Ok t) (k : Key) {rng : RngArg} {r : Option PRNGSeq} (hr : rng.toSeq = .ok r) (x x' : Val) :
    ∃ P S, ((Prog.initT (.key k) (progs ts x)).run stackMach w).1 = .ok (.pair (.bundle P) (.bundle S)) ∧
      ((Prog.applyT (some P) (some S) rng (progs ts x')).run stackMach w').1 = .ok (.pair (composeL (at2 P) [] [] ts (x', S)).1 (.bundle (composeL (at2 P) [] [] ts (x', S)).2)) := by
  obtain ⟨h1, h2, h3⟩ := initial_fits hl k
  refine ⟨_, _, init_trees hw hl k x, ?_⟩
  rw [apply_trees hw' hl hr h1 h2, h3]

/-! ### A network -/

namespace Net
open Verif.Props.Stack.Net (no_number world)

/-- The number in an array of one. -/
def num : Arr → Int
  | ⟨_, _, [v]⟩ => v
  | _ => 0

/-- A function of numbers on values. -/
def lift (f : Int → Int) : Val → Val
  | .arr a => .arr ⟨[1], .f32, [f (num a)]⟩
  | v => v

/-- A layer `x * w + b` on one number. -/
def dense : Tree := .node "linear".toList
  [⟨['w'], [1], .f32, .random fun shape dtype k => ⟨shape, dtype, [match k with | .child (.child (.child _ _ _) _ _) _ _ => 3 | .child (.child _ _ _) _ _ => 2 | _ => 1]⟩⟩,
    ⟨['b'], [1], .f32, .constant fun shape dtype => ⟨shape, dtype, [5]⟩⟩] []
  ⟨fun as _ x => match as with | [w, b] => lift (fun v => v * num w + num b) x | _ => x, fun _ _ _ y => y, fun _ _ _ _ => []⟩ [] [] 0

/-- A residual block of two of them, the first made in `__init__`, scaled by a parameter of its own and called twice.  It counts its calls, adds the count to its output, and keeps the sum of its inputs. -/
def block : Tree := .node "block".toList [⟨"scale".toList, [1], .f32, .constant fun shape dtype => ⟨shape, dtype, [10]⟩⟩]
  [⟨"count".toList, [1], .f32, .constant fun shape dtype => ⟨shape, dtype, [0]⟩⟩, ⟨"sum".toList, [1], .f32, .constant fun shape dtype => ⟨shape, dtype, [1000]⟩⟩]
  ⟨fun _ _ x => x, fun as ss x y => match as, ss, x, y with | [s], [c, _], .arr a, .arr b => .arr ⟨[1], .f32, [num a + num s * num b + num c]⟩ | _, _, _, _ => y,
    fun _ ss x _ => match ss, x with | [c, t], .arr a => [⟨[1], .f32, [num c + 1]⟩, ⟨[1], .f32, [num t + num a]⟩] | _, _ => []⟩ [dense] [dense] 1

def net : List Tree := [dense, block, dense]

theorem ident {s : Str} (h : validIdentifier s = true) (hn : '\n' ∉ s) : IsIdent s :=
  ((validIdentifier_iff _).1 h).resolve_right (by rintro ⟨t, rfl, -⟩; exact hn (List.mem_append_right t (List.mem_singleton.2 rfl)))

theorem dense_ok : Ok dense := .node (ident (by decide) (by decide)) (no_number (by decide)) ⟨by decide, fun p hp k n => by
  simp only [List.mem_cons, List.not_mem_nil, or_false] at hp
  rcases hp with rfl | rfl <;> rfl⟩ (by decide) (fun t ht => by cases ht) (fun t ht => by cases ht)

theorem block_ok : Ok block := .node (ident (by decide) (by decide)) (no_number (by decide)) ⟨by decide, fun p hp k n => by
  simp only [List.mem_cons, List.not_mem_nil, or_false] at hp
  rcases hp with rfl
  rfl⟩ (by decide) (fun t ht => by
  rw [List.mem_singleton.1 ht]
  exact dense_ok) (fun t ht => by
  rw [List.mem_singleton.1 ht]
  exact dense_ok)

theorem net_ok : ∀ t ∈ net, Ok t := fun t ht => by
  simp only [net, List.mem_cons, List.not_mem_nil, or_false] at ht
  rcases ht with rfl | rfl | rfl
  exacts [dense_ok, block_ok, dense_ok]

example : (flatL [] [] net).map (fun b => String.ofList b.path) = ["linear", "block", "block/~/linear", "block/linear", "linear_1"] := by decide

/-- The parameters that `init` returns. -/
def startParams : PDict := some' (startP (.root 7) 0 (flatL [] [] net))

/-- The state that `init` returns. -/
def startState : PDict := some' (startS (.root 7) 0 (flatL [] [] net))

/-- The four weights have the first four keys (of depth 1, 2, 3, 4), in the order in which they are made, though the block is called twice. -/
example : startParams =
    [("linear".toList, [(['w'], ⟨[1], .f32, [1]⟩), (['b'], ⟨[1], .f32, [5]⟩)]), ("block".toList, [("scale".toList, ⟨[1], .f32, [10]⟩)]),
      ("block/~/linear".toList, [(['w'], ⟨[1], .f32, [2]⟩), (['b'], ⟨[1], .f32, [5]⟩)]), ("block/linear".toList, [(['w'], ⟨[1], .f32, [3]⟩), (['b'], ⟨[1], .f32, [5]⟩)]),
      ("linear_1".toList, [(['w'], ⟨[1], .f32, [3]⟩), (['b'], ⟨[1], .f32, [5]⟩)])] := by decide

/-- Only the block has state, and it is the initial one though `init` called the block twice. -/
example : startState = [("block".toList, [("count".toList, ⟨[1], .f32, [0]⟩), ("sum".toList, ⟨[1], .f32, [1000]⟩)])] := by decide

example : ((Prog.initT (.key (.root 7)) (progs net (.arr ⟨[1], .f32, [1]⟩))).run stackMach world).1 = .ok (.pair (.bundle startParams) (.bundle startState)) := init_trees ⟨rfl, rfl⟩ net_ok _ _

/-- `1 · 1 + 5 = 6`; the block makes `6 + 10 · ((6 · 2 + 5) · 3 + 5) + 0 = 566` and `566 + 10 · ((566 · 2 + 5) · 3 + 5) + 1 = 34727` of it; the last layer `34727 · 3 + 5`.  The block has counted two calls
and added 6 and 566. -/
theorem net_value : composeL (at2 startParams) [] [] net (.arr ⟨[1], .f32, [1]⟩, startState) =
    (.arr ⟨[1], .f32, [104186]⟩, [("block".toList, [("count".toList, ⟨[1], .f32, [2]⟩), ("sum".toList, ⟨[1], .f32, [1572]⟩)])]) := by rfl

example : ((Prog.applyT (some startParams) (some startState) .none (progs net (.arr ⟨[1], .f32, [1]⟩))).run stackMach world).1 =
    .ok (.pair (.arr ⟨[1], .f32, [104186]⟩) (.bundle [("block".toList, [("count".toList, ⟨[1], .f32, [2]⟩), ("sum".toList, ⟨[1], .f32, [1572]⟩)])])) := by
  obtain ⟨h1, h2, h3⟩ := initial_fits net_ok (.root 7)
  refine (apply_trees (w := world) (get := at2 startParams) ⟨rfl, rfl⟩ net_ok (rng := .none) rfl (S := startState) h1 h2 _).trans ?_
  rw [show dict2 startState = startState from h3, net_value]

end Net

end Verif.Props.ModuleTree
