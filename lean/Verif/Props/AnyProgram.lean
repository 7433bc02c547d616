import Verif.Props.StraightLine

/-!
# Programs with parameters, state, keys, modules and any control flow, on a memory without frames (C197)
-/

set_option linter.unusedVariables false

namespace Verif.Props.AnyProgram
open Verif Names Frame Verif.Props.Names Verif.Props.ModuleTree
open Verif.Props.Stack (Bare store2_setDefault requests_snoc)
open Verif.Props.StraightLine (bundle dir who who_dir here_bundle Tidy Fresh fresh_name get_snoc fresh_plain letter letter_plain)

/-! ### The programs -/

/-- What can be asked for: `hk.get_parameter` (haiku/_src/base.py 239-338), `hk.get_state` and `hk.set_state` (657-757), `hk.next_rng_key`, `hk.next_rng_keys`, `hk.maybe_next_rng_key` and `hk.reserve_rng_keys`
(579-647), `hk.running_init` (haiku/_src/transform.py 334-361). -/
inductive Ask where
  | param (name : Str) (shape : List Nat) (dtype : DType) (init : Option Initializer)
  | getState (name : Str) (shape : Option (List Nat)) (dtype : Option DType) (init : Option Initializer)
  | setState (name : Str) (v : Arr)
  | key
  | keys (n : Int)
  | maybeKey
  | reserve (n : Int)
  | runningInit

/-- As operations of the model (haiku/_src/base.py 239-338, 579-757, haiku/_src/transform.py 334-361). -/
def Ask.op : Ask → Op
  | .param n sh dt i => .getParam n sh dt i
  | .getState n sh dt i => .getState n sh dt i
  | .setState n v => .setState n v
  | .key => .nextKey
  | .keys n => .nextKeys n
  | .maybeKey => .maybeNextKey
  | .reserve n => .reserve n
  | .runningInit => .runningInit

/-- What `__init__` makes: a module with a name, the label of its class, and the modules made in its `__init__`, in order (haiku/_src/module.py 474-500). -/
inductive Obj where
  | node (name : Str) (label : Nat) (kids : List Obj)

/-- Its name. -/
def Obj.name : Obj → Str
  | .node n _ _ => n

mutual
/-- Making a module (haiku/_src/module.py 474-500). -/
def newO : Obj → Prog
  | .node name _ kids => .newModule .unit fun id _ => .bind (.op (.superInit id (some name) [])) fun _ => newOs kids
/-- Making modules one after the other (haiku/_src/module.py 474-500). -/
def newOs : List Obj → Prog
  | [] => .ret .unit
  | t :: ts => .bind (newO t) fun _ => newOs ts
end

mutual
/-- How many modules are made. -/
def sizeO : Obj → Nat
  | .node _ _ kids => 1 + sizeOs kids
def sizeOs : List Obj → Nat
  | [] => 0
  | t :: ts => sizeO t + sizeOs ts
end

mutual
/-- The module `id` and its `__call__` (haiku/_src/module.py 383-445), given the `__call__` for each label and the modules made in `__init__`.  In python these are attributes of the module; module objects are
numbered in the order in which they are made, so they are the next ones. -/
def objs (g : Nat → List (ModId × (Val → Prog)) → Val → Prog) (id : ModId) : Obj → ModId × (Val → Prog)
  | .node _ l kids => (id, g l (objss g (id + 1) kids))
/-- All of them (haiku/_src/module.py 383-445). -/
def objss (g : Nat → List (ModId × (Val → Prog)) → Val → Prog) (id : ModId) : List Obj → List (ModId × (Val → Prog))
  | [] => []
  | t :: ts => objs g id t :: objss g (id + sizeO t) ts
end

/-- Programs.  What is done next may depend on all values so far, so `if` and loops are in here, and errors may be raised.  `make`: a module is made (haiku/_src/module.py 474-500), with the modules
made in its `__init__`, and so on; the `__call__` of each of them can call the modules made in its own `__init__`, and the modules that are in scope where `make` is; the body of the `__call__` is found by its
label.  `call`: one of the modules in scope is called (haiku/_src/module.py 383-445).  Not in here: `__init__` that does anything else than making modules, methods other than `__call__`, and `try`. -/
inductive Code where
  | ret (v : Val)
  | raise (e : Exc)
  | ask (a : Ask) (k : Val → Code)
  | make (t : Obj) (body : Nat → Val → Code) (rest : Code)
  | call (i : Nat) (x : Val) (k : Val → Code)

/-- As programs of the model (haiku/_src/base.py 239-338, 579-757, haiku/_src/module.py 383-445, 474-500). -/
def exec : Code → List (ModId × (Val → Prog)) → Prog
  | .ret v, _ => .ret v
  | .raise e, _ => .raise e
  | .ask a k, ms => .bind (.op a.op) fun v => exec (k v) ms
  | .make t c r, ms => .bind (newO t) fun v =>
    match v with
    | .mod id => exec r (ms ++ [objs (fun l ks x => exec (c l x) (ms ++ ks)) id t])
    | _ => .raise .structureMismatch
  | .call i x k, ms =>
    match ms[i]? with
    | none => .raise .structureMismatch
    | some m => .bind (.callMethod m.1 sCall x m.2) fun v => exec (k v) ms

/-! ### Specification -/

/-- All there is to remember: no frames, no module objects, no counters of names. -/
structure Mem where
  params : PDict
  state : SDict
  rng : Option PRNGSeq

/-- An initializer draws the keys it wants. -/
def draws : KeyProg → Option PRNGSeq → Except Exc (Arr × Option PRNGSeq)
  | .ret a, r => .ok (a, r)
  | .raise e, _ => .error e
  | .draw _, none => .error .noRng
  | .draw k, some q =>
    match q.next with
    | (some key, q') => draws (k key) (some q')
    | (none, _) => .error .indexError

/-- The answer to what is asked in module `q`. -/
def answer (frozen : Bool) (q : Str) : Ask → Mem → Except Exc (Val × Mem)
  | .param _ _ _ none, _ => .error .initMissing
  | .param n sh dt (some init), m =>
    match lookup2 m.params q n with
    | some a => if a.shape = sh then .ok (.arr a, m) else .error .shapeMismatch
    | none =>
      if frozen then .error .paramMissing
      else match draws (init sh dt) m.rng with
        | .error e => .error e
        | .ok (a, r) => if a.shape = sh then .ok (.arr a, { m with params := store2 m.params q n a, rng := r }) else .error .shapeMismatch
  | .getState n sh dt init, m =>
    match lookup2 m.state q n with
    | some p => .ok (.arr p.current, m)
    | none =>
      match init, sh, dt with
      | none, _, _ => .error .stateMissing
      | some init, some sh, some dt =>
        match draws (init sh dt) m.rng with
        | .error e => .error e
        | .ok (a, r) => .ok (.arr a, { m with state := store2 m.state q n ⟨a, a⟩, rng := r })
      | some _, _, _ => .error .stateShapeMissing
  | .setState n v, m => .ok (.unit, { m with state := store2 m.state q n ⟨((lookup2 m.state q n).map StatePair.initial).getD v, v⟩ })
  | .key, m =>
    match m.rng with
    | none => .error .noRng
    | some s =>
      match s.next with
      | (some k, s') => .ok (.key k, { m with rng := some s' })
      | (none, _) => .error .indexError
  | .keys n, m =>
    match m.rng with
    | none => .error .noRng
    | some s => .ok (Val.ofList ((s.take n).1.map .key), { m with rng := some (s.take n).2 })
  | .maybeKey, m =>
    match m.rng with
    | none => .ok (.none, m)
    | some s =>
      match s.next with
      | (some k, s') => .ok (.key k, { m with rng := some s' })
      | (none, _) => .error .indexError
  | .reserve n, m =>
    match m.rng with
    | none => .error .noRng
    | some s => .ok (.unit, { m with rng := some (s.reserve n) })
  | .runningInit, m => .ok (.bool (!frozen), m)

/-- What a call does to the memory. -/
abbrev Den : Type := Val → Mem → Except Exc (Val × Mem)

mutual
/-- Calls of a module made where the names `used` were asked for below `path`; the modules made in its `__init__` are named below it with `~`. -/
def denO (f : Nat → Str → List Den → Den) (path : Str) (used : List Str) : Obj → Den
  | .node n l kids => f l (path ++ numbered used n) (denOs f (path ++ numbered used n ++ ['/', '~', '/']) [] kids)
def denOs (f : Nat → Str → List Den → Den) (path : Str) (used : List Str) : List Obj → List Den
  | [] => []
  | t :: ts => denO f path used t :: denOs f path (used ++ [t.name]) ts
end

/-- A program in module `w`, where modules named `used` were made before: names are worked out from the text of the program, where modules are made. -/
def flat (frozen : Bool) : Code → Option Str → List Str → List Den → Mem → Except Exc (Val × Mem)
  | .ret v, _, _, _, m => .ok (v, m)
  | .raise e, _, _, _, _ => .error e
  | .ask a k, w, used, ds, m =>
    match answer frozen (bundle w) a m with
    | .error e => .error e
    | .ok (v, m') => flat frozen (k v) w used ds m'
  | .make t c r, w, used, ds, m => flat frozen r w (used ++ [t.name]) (ds ++ [denO (fun l q ks x m => flat frozen (c l x) (some q) [] (ds ++ ks) m) (dir w) used t]) m
  | .call i x k, w, used, ds, m =>
    match ds[i]? with
    | none => .error .structureMismatch
    | some d =>
      match d x m with
      | .error e => .error e
      | .ok (v, m') => flat frozen (k v) w used ds m'

mutual
/-- Names can be asked for, and the bodies are fine with as many modules made in `__init__`. -/
def okO (f : Nat → Nat → Prop) (used : List Str) : Obj → Prop
  | .node n l kids => Fresh used n ∧ f l kids.length ∧ okOs f [] kids
def okOs (f : Nat → Nat → Prop) (used : List Str) : List Obj → Prop
  | [] => True
  | t :: ts => okO f used t ∧ okOs f (used ++ [t.name]) ts
end

/-- Names can be asked for where they are (see C195), and modules are in scope where they are called, whatever the values. -/
def Ok : Code → Nat → List Str → Prop
  | .ret _, _, _ => True
  | .raise _, _, _ => True
  | .ask _ k, m, used => ∀ v, Ok (k v) m used
  | .make t c r, m, used => okO (fun l k => ∀ x, Ok (c l x) (m + k) []) used t ∧ Ok r (m + 1) (used ++ [t.name])
  | .call i _ k, m, used => i < m ∧ ∀ v, Ok (k v) m used

/-! ### Single steps -/

/-- What there is to remember. -/
def mem (l : Loc) : Mem := ⟨l.params, l.state, l.rng⟩

theorem runInit_draws : ∀ (p : KeyProg) (l : Loc),
    match draws p l.rng with
    | .error e => ∃ l', runInit p l = (.error e, l')
    | .ok (a, r) => ∃ l', runInit p l = (.ok a, l') ∧ l'.rng = r ∧ l'.params = l.params ∧ l'.state = l.state ∧ Quiet l l'
  | .ret a, l => ⟨l, rfl, rfl, rfl, rfl, .refl l⟩
  | .raise e, l => ⟨l, rfl⟩
  | .draw k, l => by
    obtain ⟨a, b, c, d, e, f, g⟩ := l
    cases c with
    | none => exact ⟨_, rfl⟩
    | some q =>
      rw [draws]
      cases hq : q.next with
      | mk o q' =>
        cases o with
        | none =>
          refine ⟨⟨a, b, some q', d, e, f, g⟩, ?_⟩
          show ((rngSeqOrFail >>- drawKey) >>- fun key => runInit (k key)) _ = _
          simp only [M.bind, rngSeqOrFail, drawKey, hq]
        | some key =>
          have ih := runInit_draws (k key) ⟨a, b, some q', d, e, f ++ [key], g⟩
          have e1 : runInit (.draw k) ⟨a, b, some q, d, e, f, g⟩ = runInit (k key) ⟨a, b, some q', d, e, f ++ [key], g⟩ := by
            show ((rngSeqOrFail >>- drawKey) >>- fun key => runInit (k key)) _ = _
            simp only [M.bind, rngSeqOrFail, drawKey, hq]
          rw [e1]
          dsimp only at ih ⊢
          cases hd : draws (k key) (some q') with
          | error e => rw [hd] at ih; exact ih
          | ok r =>
            rw [hd] at ih
            obtain ⟨l', i1, i2, i3, i4, i5⟩ := ih
            exact ⟨l', i1, i2, i3, i4, ⟨i5.scopes, i5.heap⟩⟩

/-- A step gives this answer. -/
def Gives (l : Loc) (o : Except Exc Val × Loc) : Except Exc (Val × Mem) → Prop
  | .error e => ∃ l', o = (.error e, l')
  | .ok (v, m) => ∃ l', o = (.ok v, l') ∧ mem l' = m ∧ Quiet l l'

theorem op_answer {E : Env} {l : Loc} {q : Str} (hb : bundleName E l = (.ok q, l)) (hh : E.hooks = Hooks.none) (a : Ask) : Gives l (a.op.run E l) (answer E.frozen q a (mem l)) := by
  cases a with
  | param n sh dt init =>
    cases init with
    | none => exact ⟨l, rfl⟩
    | some init =>
      show Gives l ((Frame.getParameter n sh dt (some init) E >>- fun a => M.pure (Val.arr a)) l) _
      unfold answer
      dsimp only [mem]
      unfold Frame.getParameter
      cases hl : lookup2 l.params q n with
      | some a =>
        have hd := has_bundle hl
        have hq : l.params.has q = true := by
          unfold lookup2 at hl
          unfold Dict.has
          cases h' : l.params.get? q with
          | none => rw [h'] at hl; cases hl
          | some i => rfl
        dsimp only
        by_cases hs : a.shape = sh
        · rw [if_pos hs]
          refine ⟨{ l with trace := l.trace ++ [.paramRead q n a] }, ?_, rfl, ⟨rfl, rfl⟩⟩
          cases hf : E.frozen <;>
            simp only [M.bind, hb, M.get, hq, hd, Bool.not_true, Bool.and_false, Bool.false_eq_true, if_false, if_true, M.pure, hl, hh, Hooks.none, record, M.modify, runGetters, Frame.liftExcept, hs]
        · rw [if_neg hs]
          refine ⟨{ l with trace := l.trace ++ [.paramRead q n a] }, ?_⟩
          cases hf : E.frozen <;>
            simp only [M.bind, hb, M.get, hq, hd, Bool.not_true, Bool.and_false, Bool.false_eq_true, if_false, if_true, M.pure, hl, hh, Hooks.none, record, M.modify, runGetters, Frame.liftExcept, hs, M.throw]
      | none =>
        dsimp only
        cases hf : E.frozen with
        | true =>
          rw [if_pos rfl]
          cases hq : l.params.has q with
          | true => exact ⟨l, by simp only [M.bind, hb, M.get, hq, Bool.not_true, Bool.and_false, Bool.false_eq_true, if_false, if_true, M.pure, hl, M.throw]⟩
          | false => exact ⟨l, by simp only [M.bind, hb, M.get, hq, Bool.not_false, Bool.and_true, if_true, M.throw]⟩
        | false =>
          rw [if_neg (by simp)]
          have hi := runInit_draws (init sh dt) { l with params := l.params.setDefault q [] }
          dsimp only at hi
          cases hd : draws (init sh dt) l.rng with
          | error e =>
            rw [hd] at hi
            obtain ⟨l', i1⟩ := hi
            exact ⟨l', by simp only [M.bind, hb, M.get, Bool.false_and, Bool.false_eq_true, if_false, M.modify, hl, hh, Hooks.none, runCreators, i1]⟩
          | ok r =>
            rw [hd] at hi
            obtain ⟨a, r⟩ := r
            obtain ⟨l1, i1, i2, i3, i4, i5⟩ := hi
            dsimp only
            by_cases hs : a.shape = sh
            · rw [if_pos hs]
              refine ⟨{ l1 with params := store2 l1.params q n a, trace := l1.trace ++ [.paramNew q n a] }, ?_, ?_, ⟨i5.scopes, i5.heap⟩⟩
              · simp only [M.bind, hb, M.get, Bool.false_and, Bool.false_eq_true, if_false, M.modify, hl, hh, Hooks.none, runCreators, i1, record, runGetters, Frame.liftExcept, hs, if_true, M.pure]
              · show Mem.mk (store2 l1.params q n a) l1.state l1.rng = _
                rw [i2, i3, i4, store2_setDefault]
            · rw [if_neg hs]
              refine ⟨{ l1 with params := store2 l1.params q n a, trace := l1.trace ++ [.paramNew q n a] }, ?_⟩
              simp only [M.bind, hb, M.get, Bool.false_and, Bool.false_eq_true, if_false, M.modify, hl, hh, Hooks.none, runCreators, i1, record, runGetters, Frame.liftExcept, hs, M.pure, M.throw]
  | getState n sh dt init =>
    have hl' : lookup2 (l.state.setDefault q []) q n = lookup2 l.state q n := lookup2_setDefault _ _ _ _
    show Gives l ((Frame.getState n sh dt init E >>- fun a => M.pure (Val.arr a)) l) _
    unfold answer
    dsimp only [mem]
    unfold Frame.getState
    cases hl : lookup2 l.state q n with
    | some p =>
      have hd := has_bundle hl
      refine ⟨{ l with trace := l.trace ++ [.stateRead q n p.current] }, ?_, rfl, ⟨rfl, rfl⟩⟩
      simp only [M.bind, hb, M.get, hd, M.pure, hl, hh, Hooks.none, record, M.modify, runGetters, Frame.liftExcept]
    | none =>
      rw [hl] at hl'
      cases init with
      | none => exact ⟨{ l with state := l.state.setDefault q [] }, by simp only [M.bind, hb, M.get, M.modify, hl', M.throw]⟩
      | some init =>
        cases sh with
        | none => exact ⟨{ l with state := l.state.setDefault q [] }, by simp only [M.bind, hb, M.get, M.modify, hl', M.throw]⟩
        | some sh =>
          cases dt with
          | none => exact ⟨{ l with state := l.state.setDefault q [] }, by simp only [M.bind, hb, M.get, M.modify, hl', M.throw]⟩
          | some dt =>
            have hi := runInit_draws (init sh dt) { l with state := l.state.setDefault q [] }
            dsimp only at hi ⊢
            cases hd : draws (init sh dt) l.rng with
            | error e =>
              rw [hd] at hi
              obtain ⟨l', i1⟩ := hi
              exact ⟨l', by simp only [M.bind, hb, M.get, M.modify, hl', hh, Hooks.none, runCreators, i1]⟩
            | ok r =>
              rw [hd] at hi
              obtain ⟨a, r⟩ := r
              obtain ⟨l1, i1, i2, i3, i4, i5⟩ := hi
              refine ⟨{ l1 with state := store2 l1.state q n ⟨a, a⟩, trace := l1.trace ++ [.stateNew q n a] }, ?_, ?_, ⟨i5.scopes, i5.heap⟩⟩
              · simp only [M.bind, hb, M.get, M.modify, hl', hh, Hooks.none, runCreators, i1, record, runGetters, Frame.liftExcept, M.pure]
              · show Mem.mk l1.params (store2 l1.state q n ⟨a, a⟩) l1.rng = _
                rw [i2, i3, i4, store2_setDefault]
  | setState n v =>
    have hl' : lookup2 (l.state.setDefault q []) q n = lookup2 l.state q n := lookup2_setDefault _ _ _ _
    refine ⟨{ l with state := store2 l.state q n ⟨((lookup2 l.state q n).map StatePair.initial).getD v, v⟩, trace := l.trace ++ [.stateSet q n v] }, ?_, rfl, ⟨rfl, rfl⟩⟩
    show (Frame.setState n v E >>- fun _ => M.pure Val.unit) l = _
    unfold Frame.setState
    cases hl : lookup2 l.state q n with
    | none => 
      rw [hl] at hl'
      simp only [M.bind, hb, M.get, M.modify, hl', record, M.pure, store2_setDefault, Option.map_none, Option.getD_none]
    | some p => 
      rw [hl] at hl'
      simp only [M.bind, hb, M.get, M.modify, hl', record, M.pure, store2_setDefault, Option.map_some, Option.getD_some]
  | key =>
    obtain ⟨a, b, c, d, e, f, g⟩ := l
    cases c with
    | none => exact ⟨_, rfl⟩
    | some s =>
      show Gives _ (((rngSeqOrFail >>- drawKey) >>- fun k => M.pure (Val.key k)) ⟨a, b, some s, d, e, f, g⟩) _
      unfold answer
      dsimp only [mem]
      rcases hq : s.next with ⟨_ | k, q'⟩
      · exact ⟨⟨a, b, some q', d, e, f, g⟩, by simp only [M.bind, rngSeqOrFail, drawKey, hq]⟩
      · exact ⟨⟨a, b, some q', d, e, f ++ [k], g⟩, by simp only [M.bind, rngSeqOrFail, drawKey, hq, M.pure], rfl, ⟨rfl, rfl⟩⟩
  | keys n =>
    obtain ⟨a, b, c, d, e, f, g⟩ := l
    cases c with
    | none => exact ⟨_, rfl⟩
    | some s => exact ⟨⟨a, b, some (s.take n).2, d, e, f ++ (s.take n).1, g⟩, rfl, rfl, ⟨rfl, rfl⟩⟩
  | maybeKey =>
    obtain ⟨a, b, c, d, e, f, g⟩ := l
    cases c with
    | none => exact ⟨_, rfl, rfl, .refl _⟩
    | some s =>
      show Gives _ ((maybeNextRngKey >>- fun k => M.pure (match k with | some k => Val.key k | none => .none)) ⟨a, b, some s, d, e, f, g⟩) _
      unfold answer
      dsimp only [mem]
      rcases hq : s.next with ⟨_ | k, q'⟩
      · exact ⟨⟨a, b, some q', d, e, f, g⟩, by simp only [M.bind, maybeNextRngKey, drawKey, hq]⟩
      · exact ⟨⟨a, b, some q', d, e, f ++ [k], g⟩, by simp only [M.bind, maybeNextRngKey, drawKey, hq, M.pure], rfl, ⟨rfl, rfl⟩⟩
  | reserve n =>
    obtain ⟨a, b, c, d, e, f, g⟩ := l
    cases c with
    | none => exact ⟨_, rfl⟩
    | some s => exact ⟨_, rfl, rfl, ⟨rfl, rfl⟩⟩
  | runningInit => exact ⟨l, rfl, rfl, .refl l⟩

/-- An error in a module is an error of the call. -/
theorem call_error {s s1 : LW} {c : Caller} {used : List Str} {id : ModId} {q : Str} {subs : List Str} {x : Val} {e : Exc} {body : Val → Prog} (h : Here s c used) (hq : s.loc.heap[id]? = some ⟨some q, some subs⟩)
    (hb : (body x).run localMach (enter s id) = (.error e, s1)) : ∃ s', (Prog.callMethod id sCall x body).run localMach s = (.error e, s') := by
  have k1 : ∀ (E : Env) l, (getModuleName id >>- fun nm => M.pure (nm, E.hooks.interceptors, E.namedCall)) l =
    (.ok (l.heap[id]?.bind ModObj.name, E.hooks.interceptors, E.namedCall), l) := fun _ _ => rfl
  have key : (localMach.top (fun E => getModuleName id >>- fun nm => M.pure (nm, E.hooks.interceptors, E.namedCall)) >>- fun r =>
    let f := runInterceptors id sCall (fun a => (body a).run localMach) r.2.1 x
    (if r.2.2 && r.1.isSome && sCall = sCall then jitM localMach f else f) >>- fun v =>
    localMach.top (notify id r.1) >>- fun _ => M.pure v) (enter s id) = (.error e, s1) := by
    have g1 : (enter s id).env.hooks = Hooks.none := h.hooks
    have g2 : (enter s id).env.namedCall = false := h.namedCall
    have g3 : (enter s id).loc.heap[id]? = some ⟨some q, some subs⟩ := hq
    rw [M.bind, top_eq, k1]
    dsimp only
    rw [g1, g2, g3]
    dsimp only [Hooks.none, Option.bind_some]
    rw [if_neg (by simp), runInterceptors, M.bind, hb]
  have : ((Prog.callMethod id sCall x body).run localMach s).1 = .error e := by
    show (LW.inModule (id, sCall) _ s).1 = _
    rw [LW.inModule]
    erw [key]
  exact ⟨_, Prod.ext this rfl⟩

/-! ### Whole programs -/

/-- Calling a module does what `d` says. -/
def Good (frozen : Bool) (h0 : List ModObj) (m : ModId × (Val → Prog)) (d : Den) : Prop :=
  ∀ (x : Val) (s : LW) (c : Caller) (used : List Str), Here s c used → HeapLe h0 s.loc.heap → s.env.frozen = frozen →
    match d x (mem s.loc) with
    | .error e => ∃ s', (Prog.callMethod m.1 sCall x m.2).run localMach s = (.error e, s')
    | .ok (v, m') => ∃ s', (Prog.callMethod m.1 sCall x m.2).run localMach s = (.ok v, s') ∧ Here s' c used ∧ Kept s s' ∧ mem s'.loc = m'

theorem Good.mono {frozen : Bool} {h0 h1 : List ModObj} {m : ModId × (Val → Prog)} {d : Den} (h : Good frozen h0 m d) (hl : HeapLe h0 h1) : Good frozen h1 m d :=
  fun x s c used a b => h x s c used a (hl.trans b)

/-- The modules in scope. -/
structure InScope (frozen : Bool) (h0 : List ModObj) (ms : List (ModId × (Val → Prog))) (ds : List Den) : Prop where
  length : ms.length = ds.length
  good : ∀ (i : Nat) m d, ms[i]? = some m → ds[i]? = some d → Good frozen h0 m d

theorem InScope.mono {frozen : Bool} {h0 h1 : List ModObj} {ms : List (ModId × (Val → Prog))} {ds : List Den} (h : InScope frozen h0 ms ds) (hl : HeapLe h0 h1) :
    InScope frozen h1 ms ds := ⟨h.length, fun i m d a b => (h.good i m d a b).mono hl⟩

theorem InScope.snoc {frozen : Bool} {h0 : List ModObj} {ms : List (ModId × (Val → Prog))} {ds : List Den} (h : InScope frozen h0 ms ds) {m : ModId × (Val → Prog)}
    {d : Den} (hm : Good frozen h0 m d) : InScope frozen h0 (ms ++ [m]) (ds ++ [d]) := by
  refine ⟨by rw [List.length_append, List.length_append, h.length]; rfl, fun i m' d' a b => ?_⟩
  have := h.length
  rcases get_snoc a with a | ⟨a, rfl⟩ <;> rcases get_snoc b with b | ⟨b, rfl⟩
  · exact h.good i m' d' a b
  · have := (List.getElem?_eq_some_iff.1 a).1
    omega
  · have := (List.getElem?_eq_some_iff.1 b).1
    omega
  · exact hm

mutual
/-- The module `id` and the ones made in its `__init__` are there. -/
def BuiltO (h : List ModObj) (path : Str) (used : List Str) (id : ModId) : Obj → Prop
  | .node name _ kids => (∃ subs, h[id]? = some ⟨some (path ++ numbered used name), some subs⟩) ∧ BuiltOs h (path ++ numbered used name ++ ['/', '~', '/']) [] (id + 1) kids
def BuiltOs (h : List ModObj) (path : Str) (used : List Str) (id : ModId) : List Obj → Prop
  | [] => True
  | t :: ts => BuiltO h path used id t ∧ BuiltOs h path (used ++ [t.name]) (id + sizeO t) ts
end

mutual
theorem BuiltO.mono {h h' : List ModObj} (k : HeapLe h h') : ∀ {t : Obj} {path : Str} {used : List Str} {id : ModId}, BuiltO h path used id t → BuiltO h' path used id t
  | .node name l kids, path, used, id, b => by
    rw [BuiltO] at b ⊢
    obtain ⟨⟨subs, h1⟩, h2⟩ := b
    exact ⟨k.named h1, BuiltOs.mono k h2⟩
theorem BuiltOs.mono {h h' : List ModObj} (k : HeapLe h h') : ∀ {ts : List Obj} {path : Str} {used : List Str} {id : ModId}, BuiltOs h path used id ts → BuiltOs h' path used id ts
  | [], path, used, id, b => by rw [BuiltOs]; exact True.intro
  | t :: ts, path, used, id, b => by
    rw [BuiltOs] at b ⊢
    exact ⟨BuiltO.mono k b.1, BuiltOs.mono k b.2⟩
end

theorem okO.fresh {f : Nat → Nat → Prop} {used : List Str} : ∀ {t : Obj}, okO f used t → Fresh used t.name
  | .node n l kids, h => by rw [okO] at h; exact h.1

mutual
theorem new_obj {f : Nat → Nat → Prop} : ∀ (t : Obj) {s : LW} {c : Caller} {used : List Str} {path : Str}, okO f used t → Here s c used → Dir c path → Tidy used →
    ∃ s', (newO t).run localMach s = (.ok (.mod s.loc.heap.length), s') ∧ Here s' c (used ++ [t.name]) ∧ New s s' ∧ BuiltO s'.loc.heap path used s.loc.heap.length t ∧
      s'.loc.heap.length = s.loc.heap.length + sizeO t
  | .node n lab kids, s, c, used, path, ok, h, hd, hu => by
    rw [okO] at ok
    obtain ⟨hn, -, above⟩ := ok
    obtain ⟨rest, hs⟩ : ∃ rest, s.loc.scopes = (requests c .empty used).2 :: rest := by
      have := h.scope
      cases hc : s.loc.scopes with
      | nil => rw [hc] at this; cases this
      | cons a b => rw [hc] at this; injection this with this; exact ⟨b, by rw [this]⟩
    have hq : request c (requests c .empty used).2 n = (.ok (path ++ numbered used n), (requests c .empty (used ++ [n])).2) := by
      rw [requests_snoc]
      exact Prod.ext (fresh_name hd hu hn) rfl
    generalize hqq : path ++ numbered used n = q at hq
    generalize hsc : (requests c .empty (used ++ [n])).2 = sc' at hq
    generalize hh : ((s.loc.heap ++ [(⟨none, none⟩ : ModObj)]).modify s.loc.heap.length fun o => { o with subs := some [] }).modify s.loc.heap.length (fun o => { o with name := some q }) = h2
    have hself : h2[s.loc.heap.length]? = some ⟨some q, some []⟩ := by
      rw [← hh, heap_modify', if_pos rfl, heap_modify', if_pos rfl]
      simp
    have hlen : h2.length = s.loc.heap.length + 1 := by rw [← hh]; simp
    have hle0 : HeapLe s.loc.heap h2 := by
      intro m o e
      have hm : s.loc.heap.length ≠ m := fun h => by
        have := (List.getElem?_eq_some_iff.1 e).1
        omega
      refine ⟨o, ?_, rfl, id⟩
      rw [← hh, heap_modify', if_neg hm, heap_modify', if_neg hm]
      rw [List.getElem?_append_left (List.getElem?_eq_some_iff.1 e).1]; exact e
    have h0 : Here ⟨{ s.env with modules := (s.loc.heap.length, sInit) :: s.env.modules }, { s.loc with scopes := Scope.empty :: sc' :: rest, heap := h2 }⟩ (some (q, sInit)) [] := by
      refine ⟨h.hooks, h.namedCall, ?_, ⟨q, some [], hself, rfl⟩, rfl⟩
      intro p hp
      rcases List.mem_cons.1 hp with rfl | hp
      · exact ⟨q, [], hself⟩
      · exact hle0.ready h.ready p hp
    obtain ⟨s3, e1, o1, k1, b1, z1⟩ := new_objs kids above h0 (dir_init q) Tidy.nil
    obtain ⟨h', f1, f2, f3, f4⟩ := construct_body (cls := []) (c := c) (by rw [h.hooks]; rfl) h.ready hs ((validIdentifier_iff n).2 (.inl hn.1)) h.caller hq hh.symm e1 k1.kept.env k1.kept.heap
    have hsc3 : s3.loc.scopes.tail = sc' :: rest := k1.kept.below
    refine ⟨{ s with loc := { s3.loc with scopes := s3.loc.scopes.tail, heap := h' } }, ?_, ⟨h.hooks, h.namedCall, f3.ready h.ready, f3.callerIs h.caller, ?_⟩, ⟨⟨rfl, f3, ?_⟩, k1.params, k1.rng, k1.state⟩, ?_, ?_⟩
    · rw [newO]
      exact f1
    · show s3.loc.scopes.tail.head? = _
      rw [hsc3, ← hsc]
      rfl
    · show s3.loc.scopes.tail.tail = _
      rw [hsc3, hs]
      rfl
    · rw [BuiltO, hqq]
      refine ⟨(k1.kept.heap.trans f4).named hself, BuiltOs.mono f4 ?_⟩
      have : (s.loc.heap.length + 1 : Nat) = h2.length := hlen.symm
      rw [this]
      exact b1
    · show h'.length = _
      rw [f2, z1, sizeO]
      show h2.length + _ = _
      omega
theorem new_objs {f : Nat → Nat → Prop} : ∀ (ts : List Obj) {s : LW} {c : Caller} {used : List Str} {path : Str}, okOs f used ts → Here s c used → Dir c path → Tidy used →
    ∃ s', (newOs ts).run localMach s = (.ok .unit, s') ∧ Here s' c (used ++ ts.map Obj.name) ∧ New s s' ∧ BuiltOs s'.loc.heap path used s.loc.heap.length ts ∧
      s'.loc.heap.length = s.loc.heap.length + sizeOs ts
  | [], s, c, used, path, ok, h, hd, hu => ⟨s, by rw [newOs]; rfl, by rw [List.map_nil, List.append_nil]; exact h, ⟨.refl s, rfl, rfl, rfl⟩, by rw [BuiltOs]; exact True.intro, by rw [sizeOs]; rfl⟩
  | t :: ts, s, c, used, path, ok, h, hd, hu => by
    rw [okOs] at ok
    obtain ⟨s1, e1, o1, k1, b1, z1⟩ := new_obj t ok.1 h hd hu
    obtain ⟨s2, e2, o2, k2, b2, z2⟩ := new_objs ts ok.2 o1 hd (hu.snoc ok.1.fresh)
    refine ⟨s2, ?_, by rw [List.map_cons, List.append_cons]; exact o2, ⟨k1.kept.trans k2.kept, k2.params.trans k1.params, k2.rng.trans k1.rng, k2.state.trans k1.state⟩, ?_, ?_⟩
    · rw [newOs, Prog.run, M.bind, e1]
      exact e2
    · rw [BuiltOs, ← z1]
      exact ⟨BuiltO.mono k2.kept.heap b1, b2⟩
    · rw [z2, z1, sizeOs, Nat.add_assoc]
end

/-- What is shown of a program. -/
def Runs (frozen : Bool) (b : Code) : Prop := ∀ (w : Option Str) (used : List Str) (ms : List (ModId × (Val → Prog))) (ds : List Den) (s : LW), Ok b ms.length used → Tidy used →
    InScope frozen s.loc.heap ms ds → Here s (who w) used → s.env.frozen = frozen →
    match flat frozen b w used ds (mem s.loc) with
    | .error e => ∃ s', (exec b ms).run localMach s = (.error e, s')
    | .ok (v, m) => ∃ s' used', (exec b ms).run localMach s = (.ok v, s') ∧ Here s' (who w) used' ∧ Kept s s' ∧ mem s'.loc = m

theorem good_body {frozen : Bool} {h0 : List ModObj} {id : ModId} {q : Str} {subs : List Str} (hb : h0[id]? = some ⟨some q, some subs⟩) {c : Val → Code} (hr : ∀ x, Runs frozen (c x)) {ms : List (ModId × (Val → Prog))}
    {ds : List Den} (hms : InScope frozen h0 ms ds) (okc : ∀ x, Ok (c x) ms.length []) : Good frozen h0 (id, fun x => exec (c x) ms) (fun x m => flat frozen (c x) (some q) [] ds m) := by
  intro x t c' u' ht hle hft
  obtain ⟨subs', hb'⟩ := hle.named hb
  have ih := hr x (some q) [] ms ds (enter t id) (okc x) Tidy.nil (hms.mono hle) (enter_here ht hb') hft
  have em : mem (enter t id).loc = mem t.loc := rfl
  rw [em] at ih
  dsimp only
  cases hr : flat frozen (c x) (some q) [] ds (mem t.loc) with
  | error e =>
    rw [hr] at ih
    obtain ⟨t1, g1⟩ := ih
    exact call_error (body := fun x => exec (c x) ms) ht hb' g1
  | ok r =>
    rw [hr] at ih
    obtain ⟨v, m⟩ := r
    obtain ⟨t1, u1, g1, g2, g3, g4⟩ := ih
    obtain ⟨t2, subs2, f1, f2, f3, f4, f5, f6, f7⟩ := call_node (body := fun x => exec (c x) ms) ht hb' g1 g3
    refine ⟨t2, f1, f2, f3, ?_⟩
    rw [← g4]
    unfold mem
    rw [f4, f5, f6]

theorem InScope.append {frozen : Bool} {h0 : List ModObj} {ms ms' : List (ModId × (Val → Prog))} {ds ds' : List Den} (h : InScope frozen h0 ms ds) (h' : InScope frozen h0 ms' ds') :
    InScope frozen h0 (ms ++ ms') (ds ++ ds') := by
  refine ⟨by rw [List.length_append, List.length_append, h.length, h'.length], fun i m d a b => ?_⟩
  have hl := h.length
  by_cases hi : i < ms.length
  · rw [List.getElem?_append_left hi] at a
    rw [List.getElem?_append_left (hl ▸ hi)] at b
    exact h.good i m d a b
  · rw [List.getElem?_append_right (by omega)] at a
    rw [List.getElem?_append_right (by omega), ← hl] at b
    exact h'.good _ m d a b

theorem objss_length (g : Nat → List (ModId × (Val → Prog)) → Val → Prog) : ∀ (ts : List Obj) (id : ModId), (objss g id ts).length = ts.length
  | [], id => by rw [objss]; rfl
  | t :: ts, id => by rw [objss, List.length_cons, List.length_cons, objss_length g ts]

mutual
theorem good_obj {frozen : Bool} {c : Nat → Val → Code} (hr : ∀ l x, Runs frozen (c l x)) {h0 : List ModObj} {ms : List (ModId × (Val → Prog))} {ds : List Den} (hms : InScope frozen h0 ms ds) :
    ∀ (t : Obj) (path : Str) (used : List Str) (id : ModId), okO (fun l k => ∀ x, Ok (c l x) (ms.length + k) []) used t → BuiltO h0 path used id t →
      Good frozen h0 (objs (fun l ks x => exec (c l x) (ms ++ ks)) id t) (denO (fun l q ks x m => flat frozen (c l x) (some q) [] (ds ++ ks) m) path used t)
  | .node n l kids, path, used, id, ok, hb => by
    rw [okO] at ok
    rw [BuiltO] at hb
    obtain ⟨⟨subs, hb⟩, hk⟩ := hb
    rw [objs, denO]
    refine good_body hb (hr l) (hms.append (good_objs hr hms kids _ [] (id + 1) ok.2.2 hk)) fun x => ?_
    rw [List.length_append, objss_length]
    exact ok.2.1 x
theorem good_objs {frozen : Bool} {c : Nat → Val → Code} (hr : ∀ l x, Runs frozen (c l x)) {h0 : List ModObj} {ms : List (ModId × (Val → Prog))} {ds : List Den} (hms : InScope frozen h0 ms ds) :
    ∀ (ts : List Obj) (path : Str) (used : List Str) (id : ModId), okOs (fun l k => ∀ x, Ok (c l x) (ms.length + k) []) used ts → BuiltOs h0 path used id ts →
      InScope frozen h0 (objss (fun l ks x => exec (c l x) (ms ++ ks)) id ts) (denOs (fun l q ks x m => flat frozen (c l x) (some q) [] (ds ++ ks) m) path used ts)
  | [], path, used, id, ok, hb => by
    rw [objss, denOs]
    exact ⟨rfl, fun i m d hm => by cases hm⟩
  | t :: ts, path, used, id, ok, hb => by
    rw [okOs] at ok
    rw [BuiltOs] at hb
    rw [objss, denOs]
    have h1 : InScope frozen h0 [objs (fun l ks x => exec (c l x) (ms ++ ks)) id t] [denO (fun l q ks x m => flat frozen (c l x) (some q) [] (ds ++ ks) m) path used t] :=
      (⟨rfl, fun i m d hm => by cases hm⟩ : InScope frozen h0 [] []).snoc (good_obj hr hms t path used id ok.1 hb.1)
    exact h1.append (good_objs hr hms ts path _ _ ok.2 hb.2)
end

theorem run_flat {frozen : Bool} : ∀ (b : Code), Runs frozen b
  | .ret v, w, used, ms, ds, s, ok, hu, hm, h, hf => ⟨s, used, rfl, h, .refl s, rfl⟩
  | .raise e, w, used, ms, ds, s, ok, hu, hm, h, hf => ⟨s, rfl⟩
  | .ask a k, w, used, ms, ds, s, ok, hu, hm, h, hf => by
    have ha := op_answer (here_bundle h) h.hooks a
    rw [hf] at ha
    rw [flat, exec, Prog.run, M.bind, Prog.run, top_eq]
    cases he : answer frozen (bundle w) a (mem s.loc) with
    | error e =>
      rw [he] at ha
      obtain ⟨l', e1⟩ := ha
      rw [e1]
      exact ⟨_, rfl⟩
    | ok r =>
      rw [he] at ha
      obtain ⟨v, m⟩ := r
      obtain ⟨l', e1, rfl, e3⟩ := ha
      rw [e1]
      dsimp only
      have ih := run_flat (k v) w used ms ds ⟨s.env, l'⟩ (ok v) hu (by show InScope frozen l'.heap ms ds; rw [e3.heap]; exact hm) (e3.here h) hf
      dsimp only at ih
      cases hr : flat frozen (k v) w used ds (mem l') with
      | error e => rw [hr] at ih; exact ih
      | ok r =>
        rw [hr] at ih
        obtain ⟨s', used', g1, g2, g3, g4⟩ := ih
        exact ⟨s', used', g1, g2, e3.kept.trans g3, g4⟩
  | .make t c r, w, used, ms, ds, s, ok, hu, hm, h, hf => by
    obtain ⟨okt, okr⟩ := ok
    obtain ⟨s1, e1, o1, k1, hb, -⟩ := new_obj t okt h (who_dir w) hu
    have hms := hm.mono k1.kept.heap
    have hg := good_obj (fun l x => run_flat (c l x)) hms t (dir w) used s.loc.heap.length okt hb
    have ih := run_flat r w (used ++ [t.name]) (ms ++ [objs (fun l ks x => exec (c l x) (ms ++ ks)) s.loc.heap.length t])
      (ds ++ [denO (fun l q ks x m => flat frozen (c l x) (some q) [] (ds ++ ks) m) (dir w) used t]) s1
      (by rw [List.length_append]; exact okr) (hu.snoc okt.fresh) (hms.snoc hg) o1 (by rw [k1.kept.env]; exact hf)
    have em : mem s1.loc = mem s.loc := by
      unfold mem
      rw [k1.params, k1.state, k1.rng]
    rw [em] at ih
    rw [flat, exec, Prog.run, M.bind, e1]
    dsimp only
    cases hr : flat frozen r w (used ++ [t.name]) (ds ++ [denO (fun l q ks x m => flat frozen (c l x) (some q) [] (ds ++ ks) m) (dir w) used t]) (mem s.loc) with
    | error e => rw [hr] at ih; exact ih
    | ok r =>
      rw [hr] at ih
      obtain ⟨s', used', g1, g2, g3, g4⟩ := ih
      exact ⟨s', used', g1, g2, k1.kept.trans g3, g4⟩
  | .call i x k, w, used, ms, ds, s, ok, hu, hm, h, hf => by
    obtain ⟨hi, okr⟩ := ok
    obtain ⟨m, hmi⟩ : ∃ m, ms[i]? = some m := ⟨_, List.getElem?_eq_getElem hi⟩
    obtain ⟨d, hd⟩ : ∃ d, ds[i]? = some d := ⟨_, List.getElem?_eq_getElem (by rw [← hm.length]; exact hi)⟩
    have hg := hm.good i m d hmi hd x s (who w) used h (.refl _) hf
    rw [flat, exec, hmi, hd]
    dsimp only
    rw [Prog.run, M.bind]
    cases he : d x (mem s.loc) with
    | error e =>
      rw [he] at hg
      obtain ⟨s1, e1⟩ := hg
      rw [e1]
      exact ⟨_, rfl⟩
    | ok r =>
      rw [he] at hg
      obtain ⟨v, m'⟩ := r
      obtain ⟨s1, e1, e2, e3, rfl⟩ := hg
      rw [e1]
      dsimp only
      have ih := run_flat (k v) w used ms ds s1 (okr v) hu (hm.mono e3.heap) e2 (by rw [e3.env]; exact hf)
      cases hr : flat frozen (k v) w used ds (mem s1.loc) with
      | error e => rw [hr] at ih; exact ih
      | ok r =>
        rw [hr] at ih
        obtain ⟨s', used', g1, g2, g3, g4⟩ := ih
        exact ⟨s', used', g1, g2, e3.trans g3, g4⟩

/-- The whole program. -/
def program (b : Code) : Prog := exec b []

/-- State as it is passed to `apply`. -/
def pairs (S : PDict) : SDict := S.mapVals fun _ b => b.mapVals fun _ v => (⟨v, v⟩ : StatePair)

/-- C197: `init` of a program, with any control flow, parameters, state and keys, returns the parameters and the initial state of the memory after running it, or raises the error that it raises. -/
theorem init_code {w : World} (hw : Bare w) {b : Code} (ok : Ok b 0 []) {rng : RngArg} {r : Option PRNGSeq} (hr : rng.toSeq = .ok r) :
    ((Prog.initT rng (program b)).run stackMach w).1 = (flat false b none [] [] ⟨[], [], r⟩).map fun o => .pair (.bundle o.2.params) (.bundle (extractState true o.2.state)) := by
  have h := run_flat (frozen := false) b none [] [] [] (ctxStart (Ctx.new none none r) w) ok Tidy.nil ⟨rfl, fun i m d hm => by cases hm⟩ (here_start _ hw rfl) rfl
  have em : mem (ctxStart (Ctx.new none none r) w).loc = ⟨[], [], r⟩ := rfl
  rw [em] at h
  rw [initT_run, hr]
  dsimp only
  unfold program
  cases hf : flat false b none [] [] ⟨[], [], r⟩ with
  | error e =>
    rw [hf] at h
    obtain ⟨s', e1⟩ := h
    rw [e1]
    rfl
  | ok o =>
    rw [hf] at h
    obtain ⟨v, m⟩ := o
    obtain ⟨s', used', e1, -, -, rfl⟩ := h
    rw [e1]
    rfl

/-- C197: `apply` runs the program on a memory with these parameters and this state, and returns its value and the state after it, or raises the error that it raises. -/
theorem apply_code {w : World} (hw : Bare w) {b : Code} (ok : Ok b 0 []) {rng : RngArg} {r : Option PRNGSeq} (hr : rng.toSeq = .ok r) (P S : PDict) :
    ((Prog.applyT (some P) (some S) rng (program b)).run stackMach w).1 = (flat true b none [] [] ⟨dict2 P, pairs (dict2 S), r⟩).map fun o => .pair o.1 (.bundle (extractState false o.2.state)) := by
  have h := run_flat (frozen := true) b none [] [] [] (ctxStart (Ctx.new (some P) (some S) r) w) ok Tidy.nil ⟨rfl, fun i m d hm => by cases hm⟩ (here_start _ hw rfl) rfl
  have em : mem (ctxStart (Ctx.new (some P) (some S) r) w).loc = ⟨dict2 P, pairs (dict2 S), r⟩ := rfl
  rw [em] at h
  rw [applyT_run, hr]
  dsimp only [Option.getD_some, Option.getD_none]
  unfold program
  cases hf : flat true b none [] [] ⟨dict2 P, pairs (dict2 S), r⟩ with
  | error e =>
    rw [hf] at h
    obtain ⟨s', e1⟩ := h
    rw [e1]
    rfl
  | ok o =>
    rw [hf] at h
    obtain ⟨v, m⟩ := o
    obtain ⟨s', used', e1, -, -, rfl⟩ := h
    rw [e1]
    rfl

mutual
/-- What holds for all bodies if it holds for the modules made in `__init__`, holds for all modules. -/
theorem denO_all {Q : Den → Prop} {f : Nat → Str → List Den → Den} (hf : ∀ l q ks, (∀ d ∈ ks, Q d) → Q (f l q ks)) : ∀ (t : Obj) (path : Str) (used : List Str), Q (denO f path used t)
  | .node n l kids, path, used => by
    rw [denO]
    exact hf l _ _ (denOs_all hf kids _ _)
theorem denOs_all {Q : Den → Prop} {f : Nat → Str → List Den → Den} (hf : ∀ l q ks, (∀ d ∈ ks, Q d) → Q (f l q ks)) : ∀ (ts : List Obj) (path : Str) (used : List Str), ∀ d ∈ denOs f path used ts, Q d
  | [], path, used, d, hd => by
    rw [denOs] at hd
    cases hd
  | t :: ts, path, used, d, hd => by
    rw [denOs] at hd
    rcases List.mem_cons.1 hd with rfl | hd
    · exact denO_all hf t path used
    · exact denOs_all hf ts path _ d hd
end

theorem mem_both {Q : Den → Prop} {ds ks : List Den} (h : ∀ d ∈ ds, Q d) (h' : ∀ d ∈ ks, Q d) : ∀ d ∈ ds ++ ks, Q d := fun d hd => (List.mem_append.1 hd).elim (h d) (h' d)

/-! ### Parameters that are not asked for -/

/-- With more parameters the same is computed. -/
def More (d : Den) : Prop := ∀ x m v m1, d x m = .ok (v, m1) → m1.params = m.params ∧
  ∀ Q : PDict, (∀ q n a, lookup2 m.params q n = some a → lookup2 Q q n = some a) → d x { m with params := Q } = .ok (v, { m1 with params := Q })

theorem answer_more (q : Str) (a : Ask) : More fun _ => answer true q a := by
  intro x m v m1 h
  obtain ⟨P, S, r⟩ := m
  cases a with
  | param n sh dt init =>
    cases init with
    | none => cases h
    | some init =>
      unfold answer at h ⊢
      dsimp only at h ⊢
      cases hl : lookup2 P q n with
      | none => rw [hl] at h; cases h
      | some a =>
        rw [hl] at h
        dsimp only at h
        by_cases hs : a.shape = sh
        · rw [if_pos hs] at h
          cases h
          refine ⟨rfl, fun Q hQ => ?_⟩
          rw [hQ q n a hl]
          dsimp only
          rw [if_pos hs]
        · rw [if_neg hs] at h
          cases h
  | getState n sh dt init =>
    unfold answer at h ⊢
    dsimp only at h ⊢
    cases hl : lookup2 S q n with
    | some p =>
      rw [hl] at h
      cases h
      exact ⟨rfl, fun Q _ => rfl⟩
    | none =>
      rw [hl] at h
      cases init with
      | none => cases h
      | some init =>
        cases sh with
        | none => cases h
        | some sh =>
          cases dt with
          | none => cases h
          | some dt =>
            dsimp only at h ⊢
            cases hd : draws (init sh dt) r with
            | error e => rw [hd] at h; cases h
            | ok o =>
              rw [hd] at h
              cases h
              exact ⟨rfl, fun Q _ => rfl⟩
  | setState n v' =>
    cases h
    exact ⟨rfl, fun Q _ => rfl⟩
  | key =>
    unfold answer at h ⊢
    dsimp only at h ⊢
    cases r with
    | none => cases h
    | some s =>
      dsimp only at h ⊢
      rcases hq : s.next with ⟨_ | k, q'⟩
      · rw [hq] at h; cases h
      · rw [hq] at h
        cases h
        exact ⟨rfl, fun Q _ => rfl⟩
  | keys n =>
    cases r with
    | none => cases h
    | some s =>
      cases h
      exact ⟨rfl, fun Q _ => rfl⟩
  | maybeKey =>
    unfold answer at h ⊢
    dsimp only at h ⊢
    cases r with
    | none =>
      cases h
      exact ⟨rfl, fun Q _ => rfl⟩
    | some s =>
      dsimp only at h ⊢
      rcases hq : s.next with ⟨_ | k, q'⟩
      · rw [hq] at h; cases h
      · rw [hq] at h
        cases h
        exact ⟨rfl, fun Q _ => rfl⟩
  | reserve n =>
    cases r with
    | none => cases h
    | some s =>
      cases h
      exact ⟨rfl, fun Q _ => rfl⟩
  | runningInit =>
    cases h
    exact ⟨rfl, fun Q _ => rfl⟩

theorem flat_more : ∀ (b : Code) (w : Option Str) (used : List Str) (ds : List Den), (∀ d ∈ ds, More d) → More fun _ => flat true b w used ds
  | .ret v', w, used, ds, hd => fun x m v m1 h => by
    cases h
    exact ⟨rfl, fun Q _ => rfl⟩
  | .raise e, w, used, ds, hd => fun x m v m1 h => by cases h
  | .ask a k, w, used, ds, hd => fun x m v m1 h => by
    dsimp only at h
    rw [flat] at h
    cases ha : answer true (bundle w) a m with
    | error e => rw [ha] at h; cases h
    | ok o =>
      obtain ⟨v', m'⟩ := o
      rw [ha] at h
      obtain ⟨h1, h2⟩ := answer_more (bundle w) a x m v' m' ha
      obtain ⟨g1, g2⟩ := flat_more (k v') w used ds hd x m' v m1 h
      refine ⟨g1.trans h1, fun Q hQ => ?_⟩
      dsimp only at h2 g2 ⊢
      rw [flat, h2 Q hQ]
      exact g2 Q (by rw [h1]; exact hQ)
  | .make t c r, w, used, ds, hd => fun x m v m1 h => by
    dsimp only at h
    rw [flat] at h
    have hd' := mem_both hd (ks := [denO (fun l q ks x m => flat true (c l x) (some q) [] (ds ++ ks) m) (dir w) used t]) (fun d hm => by
      rw [List.mem_singleton.1 hm]
      exact denO_all (f := fun l q ks x m => flat true (c l x) (some q) [] (ds ++ ks) m) (fun l q ks hk x => flat_more (c l x) (some q) [] _ (mem_both hd hk) x) t _ _)
    obtain ⟨g1, g2⟩ := flat_more r w (used ++ [t.name]) _ hd' x m v m1 h
    refine ⟨g1, fun Q hQ => ?_⟩
    dsimp only at g2 ⊢
    rw [flat]
    exact g2 Q hQ
  | .call i y k, w, used, ds, hd => fun x m v m1 h => by
    dsimp only at h
    rw [flat] at h
    cases hi : ds[i]? with
    | none => rw [hi] at h; cases h
    | some d =>
      rw [hi] at h
      dsimp only at h
      cases ha : d y m with
      | error e => rw [ha] at h; cases h
      | ok o =>
        obtain ⟨v', m'⟩ := o
        rw [ha] at h
        obtain ⟨h1, h2⟩ := hd d (List.mem_of_getElem? hi) y m v' m' ha
        obtain ⟨g1, g2⟩ := flat_more (k v') w used ds hd x m' v m1 h
        refine ⟨g1.trans h1, fun Q hQ => ?_⟩
        dsimp only at g2 ⊢
        rw [flat, hi]
        dsimp only
        rw [h2 Q hQ]
        exact g2 Q (by rw [h1]; exact hQ)

/-- C197: if `apply` succeeds, it does the same with more parameters: those that are not asked for have no effect, whatever the control flow. -/
theorem apply_more {w w' : World} (hw : Bare w) (hw' : Bare w') {b : Code} (ok : Ok b 0 []) {rng : RngArg} {P P' S : PDict} (hP : ∀ q n a, lookup2 (dict2 P) q n = some a → lookup2 (dict2 P') q n = some a) {o : Val}
    (h : ((Prog.applyT (some P) (some S) rng (program b)).run stackMach w).1 = .ok o) : ((Prog.applyT (some P') (some S) rng (program b)).run stackMach w').1 = .ok o := by
  cases hr : rng.toSeq with
  | error e => rw [applyT_run, hr] at h; cases h
  | ok r =>
    rw [apply_code hw ok hr] at h
    rw [apply_code hw' ok hr]
    cases hf : flat true b none [] [] ⟨dict2 P, pairs (dict2 S), r⟩ with
    | error e => rw [hf] at h; cases h
    | ok r' =>
      obtain ⟨v, m1⟩ := r'
      rw [hf] at h
      obtain ⟨-, h2⟩ := flat_more b none [] [] (fun d hd => by cases hd) .unit _ v m1 hf
      have := h2 (dict2 P') hP
      dsimp only at this
      rw [this]
      exact h

/-! ### State is never lost -/

/-- What is in the memory stays: parameters as they are, state with its initial value. -/
structure Le (m m' : Mem) : Prop where
  params : ∀ q n a, lookup2 m.params q n = some a → lookup2 m'.params q n = some a
  state : ∀ q n p, lookup2 m.state q n = some p → ∃ p', lookup2 m'.state q n = some p' ∧ p'.initial = p.initial

theorem Le.refl (m : Mem) : Le m m := ⟨fun _ _ _ h => h, fun _ _ p h => ⟨p, h, rfl⟩⟩
theorem Le.trans {a b c : Mem} (h : Le a b) (k : Le b c) : Le a c := ⟨fun q n x e => k.params q n x (h.params q n x e), fun q n p e => by
  obtain ⟨p1, e1, f1⟩ := h.state q n p e
  obtain ⟨p2, e2, f2⟩ := k.state q n p1 e1
  exact ⟨p2, e2, f2.trans f1⟩⟩

theorem store2_keeps {β : Type} {d : Dict Str (Dict Str β)} {q n : Str} {v : β} (h : lookup2 d q n = none) {q' n' : Str} {a : β} (h' : lookup2 d q' n' = some a) : lookup2 (store2 d q n v) q' n' = some a := by
  rw [lookup2_store2]
  by_cases e : q = q' ∧ n = n'
  · obtain ⟨rfl, rfl⟩ := e
    rw [h] at h'
    cases h'
  · rw [if_neg e]
    exact h'

/-- It only grows. -/
def Keeps (d : Den) : Prop := ∀ x m v m1, d x m = .ok (v, m1) → Le m m1

theorem answer_keeps (frozen : Bool) (q : Str) (a : Ask) : Keeps fun _ => answer frozen q a := by
  intro x m v m1 h
  obtain ⟨P, S, r⟩ := m
  have same : ∀ r', Le ⟨P, S, r⟩ ⟨P, S, r'⟩ := fun r' => ⟨fun _ _ _ h => h, fun _ _ p h => ⟨p, h, rfl⟩⟩
  cases a with
  | param n sh dt init =>
    cases init with
    | none => cases h
    | some init =>
      unfold answer at h
      dsimp only at h
      cases hl : lookup2 P q n with
      | none =>
        rw [hl] at h
        dsimp only at h
        cases frozen with
        | true => cases h
        | false =>
          rw [if_neg (by simp)] at h
          cases hd : draws (init sh dt) r with
          | error e => rw [hd] at h; cases h
          | ok o =>
            rw [hd] at h
            dsimp only at h
            by_cases hs : o.1.shape = sh
            · rw [if_pos hs] at h
              cases h
              exact ⟨fun q' n' a' h' => store2_keeps hl h', fun _ _ p h => ⟨p, h, rfl⟩⟩
            · rw [if_neg hs] at h
              cases h
      | some a =>
        rw [hl] at h
        dsimp only at h
        by_cases hs : a.shape = sh
        · rw [if_pos hs] at h
          cases h
          exact .refl _
        · rw [if_neg hs] at h
          cases h
  | getState n sh dt init =>
    unfold answer at h
    dsimp only at h
    cases hl : lookup2 S q n with
    | some p =>
      rw [hl] at h
      cases h
      exact .refl _
    | none =>
      rw [hl] at h
      cases init with
      | none => cases h
      | some init =>
        cases sh with
        | none => cases h
        | some sh =>
          cases dt with
          | none => cases h
          | some dt =>
            dsimp only at h
            cases hd : draws (init sh dt) r with
            | error e => rw [hd] at h; cases h
            | ok o =>
              rw [hd] at h
              cases h
              exact ⟨fun _ _ _ h => h, fun q' n' p h' => ⟨p, store2_keeps hl h', rfl⟩⟩
  | setState n v' =>
    cases h
    refine ⟨fun _ _ _ h => h, fun q' n' p h' => ?_⟩
    show ∃ p', lookup2 (store2 S q n _) q' n' = some p' ∧ _
    rw [lookup2_store2]
    by_cases e : q = q' ∧ n = n'
    · obtain ⟨rfl, rfl⟩ := e
      rw [if_pos ⟨rfl, rfl⟩]
      refine ⟨_, rfl, ?_⟩
      show ((lookup2 S q n).map StatePair.initial).getD v' = _
      rw [show lookup2 S q n = some p from h']
      rfl
    · rw [if_neg e]
      exact ⟨p, h', rfl⟩
  | key =>
    unfold answer at h
    dsimp only at h
    cases r with
    | none => cases h
    | some s =>
      dsimp only at h
      rcases hq : s.next with ⟨_ | k, q'⟩
      · rw [hq] at h; cases h
      · rw [hq] at h
        cases h
        exact same _
  | keys n =>
    cases r with
    | none => cases h
    | some s =>
      cases h
      exact same _
  | maybeKey =>
    unfold answer at h
    dsimp only at h
    cases r with
    | none =>
      cases h
      exact .refl _
    | some s =>
      dsimp only at h
      rcases hq : s.next with ⟨_ | k, q'⟩
      · rw [hq] at h; cases h
      · rw [hq] at h
        cases h
        exact same _
  | reserve n =>
    cases r with
    | none => cases h
    | some s =>
      cases h
      exact same _
  | runningInit =>
    cases h
    exact .refl _

theorem flat_keeps (frozen : Bool) : ∀ (b : Code) (w : Option Str) (used : List Str) (ds : List Den), (∀ d ∈ ds, Keeps d) → Keeps fun _ => flat frozen b w used ds
  | .ret v', w, used, ds, hd => fun x m v m1 h => by
    cases h
    exact .refl _
  | .raise e, w, used, ds, hd => fun x m v m1 h => by cases h
  | .ask a k, w, used, ds, hd => fun x m v m1 h => by
    dsimp only at h
    rw [flat] at h
    cases ha : answer frozen (bundle w) a m with
    | error e => rw [ha] at h; cases h
    | ok o =>
      rw [ha] at h
      exact (answer_keeps frozen (bundle w) a x m o.1 o.2 ha).trans (flat_keeps frozen (k o.1) w used ds hd x o.2 v m1 h)
  | .make t c r, w, used, ds, hd => fun x m v m1 h => by
    dsimp only at h
    rw [flat] at h
    have hd' := mem_both hd (ks := [denO (fun l q ks x m => flat frozen (c l x) (some q) [] (ds ++ ks) m) (dir w) used t]) (fun d hm => by
      rw [List.mem_singleton.1 hm]
      exact denO_all (f := fun l q ks x m => flat frozen (c l x) (some q) [] (ds ++ ks) m) (fun l q ks hk x => flat_keeps frozen (c l x) (some q) [] _ (mem_both hd hk) x) t _ _)
    exact flat_keeps frozen r w (used ++ [t.name]) _ hd' x m v m1 h
  | .call i y k, w, used, ds, hd => fun x m v m1 h => by
    dsimp only at h
    rw [flat] at h
    cases hi : ds[i]? with
    | none => rw [hi] at h; cases h
    | some d =>
      rw [hi] at h
      dsimp only at h
      cases ha : d y m with
      | error e => rw [ha] at h; cases h
      | ok o =>
        rw [ha] at h
        exact (hd d (List.mem_of_getElem? hi) y m o.1 o.2 ha).trans (flat_keeps frozen (k o.1) w used ds hd x o.2 v m1 h)

theorem lookup_pairs (S : PDict) (q n : Str) : lookup2 (pairs S) q n = (lookup2 S q n).map fun v => ⟨v, v⟩ := lookup2_mapVals ..

/-- C197: every entry of the state that `apply` gets is in the state that it returns. -/
theorem apply_keeps {w : World} (hw : Bare w) {b : Code} (ok : Ok b 0 []) {rng : RngArg} {P S S' : PDict} {v : Val}
    (h : ((Prog.applyT (some P) (some S) rng (program b)).run stackMach w).1 = .ok (.pair v (.bundle S'))) {q n : Str} (hq : (lookup2 (dict2 S) q n).isSome) : (lookup2 S' q n).isSome := by
  cases hr : rng.toSeq with
  | error e => rw [applyT_run, hr] at h; cases h
  | ok r =>
    rw [apply_code hw ok hr] at h
    cases hf : flat true b none [] [] ⟨dict2 P, pairs (dict2 S), r⟩ with
    | error e => rw [hf] at h; cases h
    | ok o =>
      rw [hf] at h
      cases h
      obtain ⟨a, ha⟩ := Option.isSome_iff_exists.1 hq
      obtain ⟨p', e1, -⟩ := (flat_keeps true b none [] [] (fun d hd => by cases hd) .unit _ o.1 o.2 hf).state q n ⟨a, a⟩ (by
        show lookup2 (pairs (dict2 S)) q n = _
        rw [lookup_pairs, ha]
        rfl)
      rw [extract_lookup, e1]
      rfl

/-! ### Keys that are not asked for -/

/-- The program never asks for a key if there is one. -/
def NoMaybe : Code → Prop
  | .ret _ => True
  | .raise _ => True
  | .ask a k => a ≠ .maybeKey ∧ ∀ v, NoMaybe (k v)
  | .make _ c r => (∀ l x, NoMaybe (c l x)) ∧ NoMaybe r
  | .call _ _ k => ∀ v, NoMaybe (k v)

/-- What is done without keys is done with any keys. -/
def Keyless (d : Den) : Prop := ∀ x P S v m1, d x ⟨P, S, none⟩ = .ok (v, m1) → m1.rng = none ∧ ∀ r, d x ⟨P, S, r⟩ = .ok (v, { m1 with rng := r })

theorem draws_none : ∀ {p : KeyProg} {a : Arr} {r : Option PRNGSeq}, draws p none = .ok (a, r) → r = none ∧ ∀ r', draws p r' = .ok (a, r')
  | .ret b, a, r, h => by
    cases h
    exact ⟨rfl, fun _ => rfl⟩
  | .raise e, a, r, h => by cases h
  | .draw k, a, r, h => by cases h

theorem answer_keyless (frozen : Bool) (q : Str) {a : Ask} (ha : a ≠ .maybeKey) : Keyless fun _ => answer frozen q a := by
  intro x P S v m1 h
  cases a with
  | param n sh dt init =>
    cases init with
    | none => cases h
    | some init =>
      unfold answer at h ⊢
      dsimp only at h ⊢
      cases hl : lookup2 P q n with
      | none =>
        rw [hl] at h
        dsimp only at h ⊢
        cases frozen with
        | true => cases h
        | false =>
          rw [if_neg (by simp)] at h
          cases hd : draws (init sh dt) none with
          | error e => rw [hd] at h; cases h
          | ok o =>
            obtain ⟨a, r0⟩ := o
            obtain ⟨rfl, hany⟩ := draws_none hd
            rw [hd] at h
            dsimp only at h
            by_cases hs : a.shape = sh
            · rw [if_pos hs] at h
              cases h
              refine ⟨rfl, fun r => ?_⟩
              rw [if_neg (by simp), hany r]
              dsimp only
              rw [if_pos hs]
            · rw [if_neg hs] at h
              cases h
      | some a =>
        rw [hl] at h
        dsimp only at h ⊢
        by_cases hs : a.shape = sh
        · rw [if_pos hs] at h
          cases h
          refine ⟨rfl, fun r => ?_⟩
          rw [if_pos hs]
        · rw [if_neg hs] at h
          cases h
  | getState n sh dt init =>
    unfold answer at h ⊢
    dsimp only at h ⊢
    cases hl : lookup2 S q n with
    | some p =>
      rw [hl] at h
      cases h
      exact ⟨rfl, fun _ => rfl⟩
    | none =>
      rw [hl] at h
      cases init with
      | none => cases h
      | some init =>
        cases sh with
        | none => cases h
        | some sh =>
          cases dt with
          | none => cases h
          | some dt =>
            dsimp only at h ⊢
            cases hd : draws (init sh dt) none with
            | error e => rw [hd] at h; cases h
            | ok o =>
              obtain ⟨a, r0⟩ := o
              obtain ⟨rfl, hany⟩ := draws_none hd
              rw [hd] at h
              cases h
              refine ⟨rfl, fun r => ?_⟩
              rw [hany r]
  | setState n v' =>
    cases h
    exact ⟨rfl, fun _ => rfl⟩
  | key => cases h
  | keys n => cases h
  | maybeKey => exact absurd rfl ha
  | reserve n => cases h
  | runningInit =>
    cases h
    exact ⟨rfl, fun _ => rfl⟩

theorem mem_none {m : Mem} (h : m.rng = none) : m = ⟨m.params, m.state, none⟩ := by
  obtain ⟨P, S, r⟩ := m
  cases h
  rfl

theorem flat_keyless (frozen : Bool) : ∀ (b : Code) (w : Option Str) (used : List Str) (ds : List Den), NoMaybe b → (∀ d ∈ ds, Keyless d) → Keyless fun _ => flat frozen b w used ds
  | .ret v', w, used, ds, hn, hd => fun x P S v m1 h => by
    cases h
    exact ⟨rfl, fun _ => rfl⟩
  | .raise e, w, used, ds, hn, hd => fun x P S v m1 h => by cases h
  | .ask a k, w, used, ds, hn, hd => fun x P S v m1 h => by
    dsimp only at h
    rw [flat] at h
    cases ha : answer frozen (bundle w) a ⟨P, S, none⟩ with
    | error e => rw [ha] at h; cases h
    | ok o =>
      obtain ⟨v', m'⟩ := o
      rw [ha] at h
      obtain ⟨h1, h2⟩ := answer_keyless frozen (bundle w) hn.1 x P S v' m' ha
      rw [mem_none h1] at h
      obtain ⟨g1, g2⟩ := flat_keyless frozen (k v') w used ds (hn.2 v') hd x _ _ v m1 h
      refine ⟨g1, fun r => ?_⟩
      dsimp only at h2 g2 ⊢
      rw [flat, h2 r]
      exact g2 r
  | .make t c r, w, used, ds, hn, hd => fun x P S v m1 h => by
    dsimp only at h
    rw [flat] at h
    have hd' := mem_both hd (ks := [denO (fun l q ks x m => flat frozen (c l x) (some q) [] (ds ++ ks) m) (dir w) used t]) (fun d hm => by
      rw [List.mem_singleton.1 hm]
      exact denO_all (f := fun l q ks x m => flat frozen (c l x) (some q) [] (ds ++ ks) m) (fun l q ks hk x => flat_keyless frozen (c l x) (some q) [] _ (hn.1 l x) (mem_both hd hk) x) t _ _)
    obtain ⟨g1, g2⟩ := flat_keyless frozen r w (used ++ [t.name]) _ hn.2 hd' x P S v m1 h
    refine ⟨g1, fun r => ?_⟩
    dsimp only at g2 ⊢
    rw [flat]
    exact g2 r
  | .call i y k, w, used, ds, hn, hd => fun x P S v m1 h => by
    dsimp only at h
    rw [flat] at h
    cases hi : ds[i]? with
    | none => rw [hi] at h; cases h
    | some d =>
      rw [hi] at h
      dsimp only at h
      cases ha : d y ⟨P, S, none⟩ with
      | error e => rw [ha] at h; cases h
      | ok o =>
        obtain ⟨v', m'⟩ := o
        rw [ha] at h
        obtain ⟨h1, h2⟩ := hd d (List.mem_of_getElem? hi) y P S v' m' ha
        rw [mem_none h1] at h
        obtain ⟨g1, g2⟩ := flat_keyless frozen (k v') w used ds (hn v') hd x _ _ v m1 h
        refine ⟨g1, fun r => ?_⟩
        dsimp only at g2 ⊢
        rw [flat, hi]
        dsimp only
        rw [h2 r]
        exact g2 r

/-- C197: if `apply` succeeds without `rng` and never asks for a key if there is one, it returns the same with any `rng`. -/
theorem apply_keyless {w w' : World} (hw : Bare w) (hw' : Bare w') {b : Code} (ok : Ok b 0 []) (hn : NoMaybe b) {rng : RngArg} {r : Option PRNGSeq} (hr : rng.toSeq = .ok r) {P S : PDict} {o : Val}
    (h : ((Prog.applyT (some P) (some S) .none (program b)).run stackMach w).1 = .ok o) : ((Prog.applyT (some P) (some S) rng (program b)).run stackMach w').1 = .ok o := by
  rw [apply_code hw ok rfl] at h
  rw [apply_code hw' ok hr]
  cases hf : flat true b none [] [] ⟨dict2 P, pairs (dict2 S), none⟩ with
  | error e => rw [hf] at h; cases h
  | ok o' =>
    obtain ⟨v, m1⟩ := o'
    rw [hf] at h
    obtain ⟨-, h2⟩ := flat_keyless true b none [] [] hn (fun d hd => by cases hd) .unit _ _ v m1 hf
    have := h2 r
    dsimp only at this
    rw [this]
    exact h

/-- C197: if `init` succeeds without `rng` and never asks for a key if there is one, it returns the same with any `rng`. -/
theorem init_keyless {w w' : World} (hw : Bare w) (hw' : Bare w') {b : Code} (ok : Ok b 0 []) (hn : NoMaybe b) {rng : RngArg} {r : Option PRNGSeq} (hr : rng.toSeq = .ok r) {o : Val}
    (h : ((Prog.initT .none (program b)).run stackMach w).1 = .ok o) : ((Prog.initT rng (program b)).run stackMach w').1 = .ok o := by
  rw [init_code hw ok rfl] at h
  rw [init_code hw' ok hr]
  cases hf : flat false b none [] [] ⟨[], [], none⟩ with
  | error e => rw [hf] at h; cases h
  | ok o' =>
    obtain ⟨v, m1⟩ := o'
    rw [hf] at h
    obtain ⟨-, h2⟩ := flat_keyless false b none [] [] hn (fun d hd => by cases hd) .unit _ _ v m1 hf
    have := h2 r
    dsimp only at this
    rw [this]
    exact h

/-! ### Examples -/

namespace Demo
open Verif.Props.Stack.Net (world)
open Verif.Props.StraightLine.Demo (num one)

def sC : Str := "c".toList
def sN : Str := "n".toList
def sW : Str := "w".toList

def count (i : Int) : Arr := ⟨[], .f32, [i]⟩
/-- `jnp.zeros`. -/
def zeros : Initializer := fun sh dt => .ret ⟨sh, dt, List.replicate sh.prod 0⟩
/-- An initial value that needs a key. -/
def drawn : Initializer := fun sh dt => .draw fun k => .ret ⟨sh, dt, List.replicate sh.prod (num (.key k) + 5)⟩

/-- `n = hk.get_state("n", [], init=jnp.zeros); hk.set_state("n", n + 1); return n` in a module (haiku/_src/base.py 657-757). -/
def counter : Code := .make (.node sC 0 []) (fun _ _ => .ask (.getState sN (some []) (some .f32) (some zeros)) fun n => .ask (.setState sN (count (num n + 1))) fun _ => .ret n) (.call 0 .unit .ret)

theorem c_fresh : Fresh [] sC := fresh_plain (Verif.Props.ModuleTree.Net.ident (by decide) (by decide)) (letter_plain (by decide)) (fun m hm => by cases hm)

theorem counter_ok : Ok counter 0 [] := ⟨⟨c_fresh, fun _ _ _ => trivial, trivial⟩, by decide, fun _ => trivial⟩

/-- The state with the counter at `i`. -/
def at_ (i : Int) : PDict := [(sC, [(sN, count i)])]

/-- The state that `init` returns has the counter at its initial value, though the call in `init` set it. -/
example : ((Prog.initT .none (program counter)).run stackMach world).1 = .ok (.pair (.bundle []) (.bundle (at_ 0))) := (init_code ⟨rfl, rfl⟩ counter_ok rfl).trans (by rfl)

/-- Call number `i` returns `i`, for any `i`. -/
theorem counts (i : Int) : ((Prog.applyT (some []) (some (at_ i)) .none (program counter)).run stackMach world).1 = .ok (.pair (.arr (count i)) (.bundle (at_ (i + 1)))) := (apply_code ⟨rfl, rfl⟩ counter_ok rfl [] (at_ i)).trans (by rfl)

example : (lookup2 (at_ 4) sC sN).isSome := apply_keeps ⟨rfl, rfl⟩ counter_ok (counts 3) (by decide)

/-- A parameter is asked for only if the counter is even; at 7 there is an error. -/
def branches : Code := .ask (.getState sN (some []) (some .f32) (some zeros)) fun n =>
  .ask (.setState sN (count (num n + 1))) fun _ =>
  .make (.node sC 0 []) (fun _ x => .ask (.param sW [1] .f32 (some drawn)) fun v => .ret (one (num v + num x))) <|
  if num n = 7 then .raise .indexError else if num n % 2 = 0 then .call 0 n .ret else .ret n

theorem branches_ok : Ok branches 0 [] := fun n _ => ⟨⟨c_fresh, fun _ _ => trivial, trivial⟩, by
  split
  · trivial
  · split
    · exact ⟨by decide, fun _ => trivial⟩
    · trivial⟩

def weights : PDict := [(sC, [(sW, ⟨[1], .f32, [40]⟩)])]
def top (i : Int) : PDict := [(sTilde, [(sN, count i)])]

example : ((Prog.initT (.key (.root 0)) (program branches)).run stackMach world).1 = .ok (.pair (.bundle [(sC, [(sW, ⟨[1], .f32, [6]⟩)])]) (.bundle (top 0))) := (init_code ⟨rfl, rfl⟩ branches_ok rfl).trans (by rfl)
example : ((Prog.applyT (some weights) (some (top 2)) .none (program branches)).run stackMach world).1 = .ok (.pair (one 42) (.bundle (top 3))) := (apply_code ⟨rfl, rfl⟩ branches_ok rfl weights (top 2)).trans (by rfl)
/-- Without the parameter: an error if the counter is even, and none if it is odd. -/
example : ((Prog.applyT (some []) (some (top 2)) .none (program branches)).run stackMach world).1 = .error .paramMissing := (apply_code ⟨rfl, rfl⟩ branches_ok rfl [] (top 2)).trans (by rfl)
theorem odd : ((Prog.applyT (some []) (some (top 3)) .none (program branches)).run stackMach world).1 = .ok (.pair (.arr (count 3)) (.bundle (top 4))) := (apply_code ⟨rfl, rfl⟩ branches_ok rfl [] (top 3)).trans (by rfl)
example : ((Prog.applyT (some weights) (some (top 3)) .none (program branches)).run stackMach world).1 = .ok (.pair (.arr (count 3)) (.bundle (top 4))) :=
  apply_more ⟨rfl, rfl⟩ ⟨rfl, rfl⟩ branches_ok (fun q n a h => by cases h) odd
example : ((Prog.applyT (some weights) (some (top 7)) .none (program branches)).run stackMach world).1 = .error .indexError := (apply_code ⟨rfl, rfl⟩ branches_ok rfl weights (top 7)).trans (by rfl)

theorem branches_keys : NoMaybe branches := ⟨fun h => (by cases h), fun n => ⟨fun h => (by cases h), fun _ => ⟨fun _ x => ⟨fun h => (by cases h), fun _ => trivial⟩, by
  split
  · trivial
  · split
    · exact fun _ => trivial
    · trivial⟩⟩⟩

example : ((Prog.applyT (some []) (some (top 3)) (.key (.root 9)) (program branches)).run stackMach world).1 = .ok (.pair (.arr (count 3)) (.bundle (top 4))) :=
  apply_keyless ⟨rfl, rfl⟩ ⟨rfl, rfl⟩ branches_ok branches_keys rfl odd
example : ((Prog.initT (.key (.root 9)) (program counter)).run stackMach world).1 = .ok (.pair (.bundle []) (.bundle (at_ 0))) :=
  init_keyless ⟨rfl, rfl⟩ ⟨rfl, rfl⟩ counter_ok ⟨fun _ x => ⟨fun h => (by cases h), fun _ => ⟨fun h => (by cases h), fun _ => trivial⟩⟩, fun _ => trivial⟩ rfl ((init_code (w := world) ⟨rfl, rfl⟩ counter_ok rfl).trans (by rfl))

/-- A module that makes two modules in its `__init__`, the second of which makes one in its own.  Label 0 calls both twice, label 2 the one below it. -/
def nested : Code := .make (.node sC 0 [.node sN 1 [], .node sN 2 [.node sN 1 []]]) (fun l x =>
  if l = 1 then .ask (.param sW [1] .f32 (some drawn)) fun v => .ret (one (num v + num x))
  else if l = 2 then .call 0 x .ret
  else .call 0 x fun y => .call 1 y fun z => .call 0 z fun u => .call 1 u .ret) (.call 0 (one 0) .ret)

theorem nested_ok : Ok nested 0 [] := by
  have h1 : Fresh [] sN := fresh_plain (Verif.Props.ModuleTree.Net.ident (by decide) (by decide)) (letter_plain (by decide)) (fun m hm => by cases hm)
  have h2 : Fresh [sN] sN := fresh_plain (Verif.Props.ModuleTree.Net.ident (by decide) (by decide)) (letter_plain (by decide)) (fun m hm => by rw [List.mem_singleton.1 hm]; exact letter_plain (by decide))
  exact ⟨⟨c_fresh, fun x => ⟨by decide, fun _ => ⟨by decide, fun _ => ⟨by decide, fun _ => ⟨by decide, fun _ => trivial⟩⟩⟩⟩, ⟨h1, fun x _ => trivial, trivial⟩,
    ⟨h2, fun x => ⟨by decide, fun _ => trivial⟩, ⟨h1, fun x _ => trivial, trivial⟩, trivial⟩, trivial⟩, by decide, fun _ => trivial⟩

example : ((Prog.initT (.key (.root 0)) (program nested)).run stackMach world).1 =
    .ok (.pair (.bundle [("c/~/n".toList, [(sW, ⟨[1], .f32, [6]⟩)]), ("c/~/n_1/~/n".toList, [(sW, ⟨[1], .f32, [7]⟩)])]) (.bundle [])) := (init_code ⟨rfl, rfl⟩ nested_ok rfl).trans (by rfl)
example : ((Prog.applyT (some [("c/~/n".toList, [(sW, ⟨[1], .f32, [20]⟩)]), ("c/~/n_1/~/n".toList, [(sW, ⟨[1], .f32, [1]⟩)])]) (some []) .none (program nested)).run stackMach world).1 =
    .ok (.pair (one 42) (.bundle [])) := (apply_code ⟨rfl, rfl⟩ nested_ok rfl _ []).trans (by rfl)

end Demo

end Verif.Props.AnyProgram
