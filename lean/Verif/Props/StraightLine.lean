import Verif.Props.SharedLayers
import Mathlib.Data.List.Induction

/-!
# Straight-line programs: parameters, keys, modules made and called anywhere (C195)
-/

set_option linter.unusedVariables false

namespace Verif.Props.StraightLine
open Verif Names Frame Verif.Props.Names Verif.Props.ModuleTree
open Verif.Props.Stack (Start Spec left keyNo Same Bare start_run store2_setDefault requests_snoc)
open Verif.Props.SharedLayers (shell)

/-! ### The function that is transformed -/

/-- What a function, or the `__call__` of a module, does one after the other.  Each step but the last gives a value, and functions see all values so far.
`fn`: any computation; `param`: `hk.get_parameter` (haiku/_src/base.py 239-338); `key`: `hk.next_rng_key` (haiku/_src/base.py 602-619); `make`: a module is made (haiku/_src/module.py 474-500), whose
`__call__` runs `call` and can call the modules, and use the values, that are in scope where it is made; `call`: one of the modules in scope is called (haiku/_src/module.py 383-445). -/
inductive Body where
  | ret (f : List Val → Val)
  | fn (f : List Val → Val) (rest : Body)
  | param (p : Spec) (rest : Body)
  | key (rest : Body)
  | make (name : Str) (call rest : Body)
  | call (i : Nat) (f : List Val → Val) (rest : Body)

/-- The program, where `ms` are the modules in scope, with what their `__call__` does, and `vs` the values; the operations are those of the cited functions (haiku/_src/base.py 239-338, 602-619,
haiku/_src/module.py 383-445, 474-500). -/
def exec : Body → List (ModId × (Val → Prog)) → List Val → Prog
  | .ret f, _, vs => .ret (f vs)
  | .fn f r, ms, vs => exec r ms (vs ++ [f vs])
  | .param p r, ms, vs => .bind (.op (.getParam p.name p.shape p.dtype (some p.start.init))) fun v => exec r ms (vs ++ [v])
  | .key r, ms, vs => .bind (.op .nextKey) fun v => exec r ms (vs ++ [v])
  | .make n c r, ms, vs => .bind (newT (shell n)) fun v =>
    match v with
    | .mod id => exec r (ms ++ [(id, fun x => exec c ms (vs ++ [x]))]) vs
    | _ => .raise .structureMismatch
  | .call i f r, ms, vs =>
    match ms[i]? with
    | none => .raise .structureMismatch
    | some m => .bind (.callMethod m.1 sCall (f vs) m.2) fun v => exec r ms (vs ++ [v])

/-! ### Specification -/

/-- What a program does that can be seen from outside: it asks for a parameter of module `q`, or for a key. -/
inductive Event where
  | param (q : Str) (p : Spec)
  | key

/-- Where parameters go: to the module, or to `~` outside of modules. -/
def bundle : Option Str → Str
  | none => ['~']
  | some q => q

/-- The directory for modules. -/
def dir : Option Str → Str
  | none => []
  | some q => q ++ ['/']

/-- The events in their order; `w` is the module that runs, `used` the names asked for so far in this call, and `ms` are the events of calling the modules in scope. -/
def events : Body → Option Str → List Str → List (List Event) → List Event
  | .ret _, _, _, _ => []
  | .fn _ r, w, used, ms => events r w used ms
  | .param p r, w, used, ms => .param (bundle w) p :: events r w used ms
  | .key r, w, used, ms => .key :: events r w used ms
  | .make n c r, w, used, ms => events r w (used ++ [n]) (ms ++ [events c (some (dir w ++ numbered used n)) [] ms])
  | .call i _ r, w, used, ms => (ms[i]?.getD []) ++ events r w used ms

/-- What is computed with given parameters and keys, and how many keys have been used after it; `ms` is what the modules in scope compute. -/
def value (get : Str → Str → Arr) (keys : Nat → Key) : Body → Option Str → List Str → List (Val → Nat → Val × Nat) → List Val → Nat → Val × Nat
  | .ret f, _, _, _, vs, n => (f vs, n)
  | .fn f r, w, used, ms, vs, n => value get keys r w used ms (vs ++ [f vs]) n
  | .param p r, w, used, ms, vs, n => value get keys r w used ms (vs ++ [.arr (get (bundle w) p.name)]) n
  | .key r, w, used, ms, vs, n => value get keys r w used ms (vs ++ [.key (keys n)]) (n + 1)
  | .make name c r, w, used, ms, vs, n =>
    value get keys r w (used ++ [name]) (ms ++ [fun x n => value get keys c (some (dir w ++ numbered used name)) [] ms (vs ++ [x]) n]) vs n
  | .call i f r, w, used, ms, vs, n =>
    match ms[i]? with
    | none => (.unit, n)
    | some m => value get keys r w used ms (vs ++ [(m (f vs) n).1]) (m (f vs) n).2

/-- One event in `init`, on the parameters so far and the number of keys used: a new parameter gets its initial value, with the next key if it needs one; nothing happens for one that is there. -/
def take (k : Key) (d : PDict × Nat) : Event → PDict × Nat
  | .param q p => if (lookup2 d.1 q p.name).isSome then d else (store2 d.1 q p.name (p.value k d.2), d.2 + p.keys)
  | .key => (d.1, d.2 + 1)

/-- All of them. -/
def built (k : Key) (es : List Event) : PDict × Nat := es.foldl (take k) ([], 0)

/-- Names that were asked for: identifiers, and numbers at their end are written without leading zeros. -/
def Tidy (used : List Str) : Prop := ∀ m ∈ used, IsIdent m ∧ (¬ EndsInNumber m ∨ ∃ b d, m = fmt b d)

/-- A name that can be asked for after these: without a number, where no name with this one before its number was asked for; or with a number, where neither this name nor the part before the number was
asked for. -/
def Fresh (used : List Str) (n : Str) : Prop := IsIdent n ∧ ((¬ EndsInNumber n ∧ ∀ d, fmt n d ∉ used) ∨ ∃ b d, n = fmt b d ∧ n ∉ used ∧ b ∉ used)

/-- Names of modules can be asked for where they are, and only modules in scope are called; `m` is the number of modules in scope. -/
def Ok : Body → Nat → List Str → Prop
  | .ret _, _, _ => True
  | .fn _ r, m, used => Ok r m used
  | .param _ r, m, used => Ok r m used
  | .key r, m, used => Ok r m used
  | .make n c r, m, used => Fresh used n ∧ Ok c m [] ∧ Ok r (m + 1) (used ++ [n])
  | .call i _ r, m, used => i < m ∧ Ok r m used

/-- Initial values have the shape asked for, and a parameter is asked for with the same shape each time. -/
structure Consistent (es : List Event) : Prop where
  initial : ∀ q p, Event.param q p ∈ es → ∀ k n, (p.value k n).shape = p.shape
  same : ∀ q p p', Event.param q p ∈ es → Event.param q p' ∈ es → p.name = p'.name → p.shape = p'.shape

theorem Consistent.sub {es es' : List Event} (h : Consistent es) (hs : ∀ e ∈ es', e ∈ es) : Consistent es' :=
  ⟨fun q p hp => h.initial q p (hs _ hp), fun q p p' hp hp' => h.same q p p' (hs _ hp) (hs _ hp')⟩

/-! ### Names -/

theorem Tidy.nil : Tidy [] := fun m hm => by cases hm

theorem Tidy.snoc {used : List Str} (h : Tidy used) {n : Str} (hn : Fresh used n) : Tidy (used ++ [n]) := fun m hm => by
  rcases List.mem_append.1 hm with hm | hm
  · exact h m hm
  · rw [List.mem_singleton.1 hm]
    exact ⟨hn.1, hn.2.imp And.left fun ⟨b, d, e, _⟩ => ⟨b, d, e⟩⟩

theorem fmt_path (path b : Str) (d : Nat) : fmt (path ++ b) d = path ++ fmt b d := by
  unfold fmt
  rw [List.append_assoc]

theorem number_fmt (b : Str) (d : Nat) : EndsInNumber (fmt b d) :=
  ⟨b, Nat.toDigits 10 d, Nat.toDigits_ne_nil, fun c hc => Nat.isDigit_of_mem_toDigits (b := 10) (n := d) (by omega) (by omega) hc, rfl⟩

/-- Names without numbers can be asked for in any order. -/
theorem fresh_plain {used : List Str} {n : Str} (hid : IsIdent n) (hn : ¬ EndsInNumber n) (h : ∀ m ∈ used, ¬ EndsInNumber m) : Fresh used n :=
  ⟨hid, .inl ⟨hn, fun d hd => h _ hd (number_fmt n d)⟩⟩

theorem no_digit {s : Str} (h : ∀ c ∈ s.getLast?, c.isDigit = false) : ¬ EndsInNumber s := by
  rintro ⟨b, ds, h1, h2, rfl⟩
  have e : (b ++ '_' :: ds).getLast? = some (ds.getLast h1) := by
    rw [List.append_cons, List.getLast?_append, List.getLast?_eq_some_getLast h1]
    rfl
  have := h _ e
  rw [h2 _ (List.getLast_mem h1)] at this
  cases this

/-- The last letter is not a digit. -/
def letter (m : Str) : Bool := m.getLast?.all fun c => !c.isDigit

theorem letter_plain {m : Str} (h : letter m = true) : ¬ EndsInNumber m := no_digit fun c hc => by
  unfold letter at h
  rw [Option.mem_def.1 hc] at h
  simpa using h

theorem split_plain {c : Caller} {m : Str} (hid : IsIdent m) (hn : ¬ EndsInNumber m) : splitNum (withPrefix c m) = none := by
  rw [splitNum_withPrefix c hid.1, (splitNum_none_iff (ident_ne_nl hid)).2 hn]
  rfl

theorem split_number {c : Caller} {b : Str} {d : Nat} (hid : IsIdent (fmt b d)) : splitNum (withPrefix c (fmt b d)) = some (withPrefix c b, d) := by
  rw [splitNum_withPrefix c hid.1, splitNum_fmt]
  rfl

theorem counted {c : Caller} {path : Str} (hd : Dir c path) {n : Str} (hp : ¬ EndsInNumber n) : ∀ (hist : List Str) (sc : Scope), sc.Inv → Tidy hist → (∀ d, fmt n d ∉ hist) →
    counterGet (requests c sc hist).2.counters (path ++ n) = counterGet sc.counters (path ++ n) + hist.count n
  | [], sc, _, _, _ => rfl
  | m :: ms, sc, hI, ht, hf => by
    have hm := ht m List.mem_cons_self
    have ih := counted hd hp ms (request c sc m).2 (hI.request c m) (fun x hx => ht x (List.mem_cons_of_mem _ hx)) (fun d hx => hf d (List.mem_cons_of_mem _ hx))
    show counterGet (requests c (request c sc m).2 ms).2.counters _ = _
    rw [ih]
    rcases hm.2 with hp' | ⟨b, d, rfl⟩
    · have h2 : (request c sc m).2.counters = sc.counters.set (path ++ m) (counterGet sc.counters (path ++ m) + 1) := by
        unfold request
        rw [if_pos ((validIdentifier_iff m).2 (Or.inl hm.1)), uniqueName_auto (split_plain hm.1 hp') hI, hd m]
      rw [h2, counterGet_set]
      by_cases e : m = n
      · subst e
        simp
        omega
      · have : path ++ m ≠ path ++ n := fun h => e (List.append_cancel_left h)
        simp [this, e]
    · have h2 : (request c sc (fmt b d)).2.counters = sc.counters.set (path ++ b) (max (counterGet sc.counters (path ++ b)) (d + 1)) := by
        unfold request
        rw [if_pos ((validIdentifier_iff _).2 (Or.inl hm.1)), uniqueName_numbered (split_number hm.1), hd b]
        split <;> rfl
      have hbn : b ≠ n := fun e => hf d (e ▸ List.mem_cons_self)
      have hne : fmt b d ≠ n := fun e => hp (e ▸ number_fmt b d)
      rw [h2, counterGet_set]
      have : path ++ b ≠ path ++ n := fun h => hbn (List.append_cancel_left h)
      simp [this, hne]

theorem given {c : Caller} {path : Str} (hd : Dir c path) : ∀ (hist : List Str) (sc : Scope), sc.Inv → Tidy hist →
    ∀ q ∈ (requests c sc hist).2.used, q ∈ sc.used ∨ ∃ m ∈ hist, q = path ++ m ∨ ∃ k, q = path ++ fmt m k
  | [], sc, _, _, q, hq => .inl hq
  | m :: ms, sc, hI, ht, q, hq => by
    have hm := ht m List.mem_cons_self
    rcases given hd ms (request c sc m).2 (hI.request c m) (fun x hx => ht x (List.mem_cons_of_mem _ hx)) q hq with h | ⟨x, hx, h⟩
    · have : q ∈ sc.used ∨ q = path ++ m ∨ ∃ k, q = path ++ fmt m k := by
        unfold request at h
        rw [if_pos ((validIdentifier_iff m).2 (Or.inl hm.1))] at h
        rcases hm.2 with hp' | ⟨b, d, rfl⟩
        · rw [uniqueName_auto (split_plain hm.1 hp') hI, hd m] at h
          rcases List.mem_cons.1 h with h | h
          · split at h
            · exact .inr (.inr ⟨_, h.trans (fmt_path ..)⟩)
            · exact .inr (.inl h)
          · exact .inl h
        · rw [uniqueName_numbered (split_number hm.1), hd b] at h
          split at h
          · exact .inl h
          · rcases List.mem_cons.1 h with h | h
            · exact .inr (.inl (h.trans (fmt_path ..)))
            · exact .inl h
      exact this.imp_right fun h => ⟨m, List.mem_cons_self, h⟩
    · exact .inr ⟨x, List.mem_cons_of_mem _ hx, h⟩

/-- The name that is given: numbers count how often the name was asked for before. -/
theorem fresh_name {c : Caller} {path : Str} (hd : Dir c path) {used : List Str} (ht : Tidy used) {n : Str} (hn : Fresh used n) : Verif.Props.Names.outcome c used n = .ok (path ++ numbered used n) := by
  obtain ⟨hid, hn⟩ := hn
  have hI := Scope.Inv.empty.requests c used
  unfold Verif.Props.Names.outcome request
  rw [if_pos ((validIdentifier_iff n).2 (Or.inl hid))]
  rcases hn with ⟨hp, hf⟩ | ⟨b, d, rfl, h1, h2⟩
  · have hc := counted hd hp used .empty Scope.Inv.empty ht hf
    rw [show counterGet Scope.empty.counters (path ++ n) = 0 from rfl, Nat.zero_add] at hc
    rw [uniqueName_auto (split_plain hid hp) hI, hd n]
    simp only [hc]
    unfold numbered
    by_cases h0 : used.count n = 0
    · rw [if_neg (by simpa using h0), if_pos h0]
    · rw [if_pos h0, if_neg h0, fmt_path]
      simp [fmt]
  · rw [uniqueName_numbered (split_number hid), hd b, if_neg]
    · unfold numbered
      rw [if_pos (List.count_eq_zero.2 h1), fmt_path]
    · intro hq
      rcases given hd used .empty Scope.Inv.empty ht _ hq with h | ⟨m, hm, h | ⟨k, h⟩⟩
      · cases h
      · rw [fmt_path] at h
        exact h1 (List.append_cancel_left h ▸ hm)
      · rw [fmt_path] at h
        exact h2 ((fmt_injective (List.append_cancel_left h)).1 ▸ hm)

/-- A module is made. -/
theorem new_shell {s : LW} {c : Caller} {used : List Str} {path : Str} {n : Str} (h : Here s c used) (hd : Dir c path) (hu : Tidy used) (hn : Fresh used n) :
    ∃ s', (newT (shell n)).run localMach s = (.ok (.mod s.loc.heap.length), s') ∧ Here s' c (used ++ [n]) ∧ New s s' ∧ ∃ subs, s'.loc.heap[s.loc.heap.length]? = some ⟨some (path ++ numbered used n), some subs⟩ := by
  obtain ⟨rest, hs⟩ : ∃ rest, s.loc.scopes = (requests c .empty used).2 :: rest := by
    have := h.scope
    cases hc : s.loc.scopes with
    | nil => rw [hc] at this; cases this
    | cons a b => rw [hc] at this; injection this with this; exact ⟨b, by rw [this]⟩
  have hq : request c (requests c .empty used).2 n = (.ok (path ++ numbered used n), (requests c .empty (used ++ [n])).2) := by
    rw [requests_snoc]
    exact Prod.ext (fresh_name hd hu hn) rfl
  generalize hqq : path ++ numbered used n = q at hq
  generalize hsc : (requests c .empty (used ++ [n])).2 = sc' at hq
  generalize hh : ((s.loc.heap ++ [(⟨none, none⟩ : ModObj)]).modify s.loc.heap.length fun o => { o with subs := some [] }).modify s.loc.heap.length (fun o => { o with name := some q }) = h2
  have hself : h2[s.loc.heap.length]? = some ⟨some q, some []⟩ := by
    rw [← hh, heap_modify', if_pos rfl, heap_modify', if_pos rfl]
    simp
  have e1 : (newL []).run localMach ⟨{ s.env with modules := (s.loc.heap.length, sInit) :: s.env.modules }, { s.loc with scopes := Scope.empty :: sc' :: rest, heap := h2 }⟩ =
      (.ok .unit, ⟨{ s.env with modules := (s.loc.heap.length, sInit) :: s.env.modules }, { s.loc with scopes := Scope.empty :: sc' :: rest, heap := h2 }⟩) := by
    rw [newL]
    rfl
  obtain ⟨h', f1, f2, f3, f4⟩ := construct_body (cls := []) (c := c) (by rw [h.hooks]; rfl) h.ready hs ((validIdentifier_iff n).2 (.inl hn.1)) h.caller hq hh.symm e1 rfl (.refl _)
  refine ⟨{ s with loc := { s.loc with scopes := sc' :: rest, heap := h' } }, ?_, ⟨h.hooks, h.namedCall, f3.ready h.ready, f3.callerIs h.caller, ?_⟩, ⟨⟨rfl, f3, ?_⟩, rfl, rfl, rfl⟩, ?_⟩
  · unfold shell
    rw [newT]
    exact f1
  · rw [← hsc]
    rfl
  · show rest = _
    rw [hs]
    rfl
  · exact f4.named hself

/-! ### Single steps -/

/-- The caller. -/
def who (w : Option Str) : Caller := w.map fun q => (q, sCall)

theorem who_dir : ∀ w : Option Str, Dir (who w) (dir w)
  | none => dir_top
  | some q => dir_call q

theorem here_bundle {s : LW} {used : List Str} : ∀ {w : Option Str}, Here s (who w) used → bundleName s.env s.loc = (.ok (bundle w), s.loc)
  | none, h => by
    have := h.caller
    unfold CallerIs at this
    cases hm : s.env.modules with
    | nil => simp [bundleName, currentModule, hm, bundle]; rfl
    | cons a b =>
      rw [hm] at this
      obtain ⟨n, subs, -, e⟩ := this
      cases e
  | some q, h => (Here.inside h).name

theorem param_new {E : Env} {l : Loc} {q : Str} (hb : bundleName E l = (.ok q, l)) (hh : E.hooks = Hooks.none) (hf : E.frozen = false) {p : Spec} (hp : ∀ k n, (p.value k n).shape = p.shape) {k : Key} {n : Nat}
    (hr : l.rng = some ⟨left k n, []⟩) (hn : lookup2 l.params q p.name = none) :
    ∃ l', (Op.getParam p.name p.shape p.dtype (some p.start.init)).run E l = (.ok (.arr (p.value k n)), l') ∧ l'.rng = some ⟨left k (n + p.keys), []⟩ ∧
      l'.params = store2 l.params q p.name (p.value k n) ∧ Same l l' := by
  obtain ⟨l1, h1, h2, h3, h4⟩ := start_run p k n { l with params := l.params.setDefault q [] } hr
  refine ⟨{ l1 with params := store2 l1.params q p.name (p.value k n), trace := l1.trace ++ [.paramNew q p.name (p.value k n)] }, ?_, h2, ?_, ⟨h4.state, h4.scopes, h4.heap⟩⟩
  · show ((Frame.getParameter p.name p.shape p.dtype (some p.start.init) E >>- fun a => M.pure (Val.arr a)) l) = _
    unfold Frame.getParameter
    simp only [M.bind, hb, M.get, hf, Bool.false_and, Bool.false_eq_true, if_false, M.modify, hn, hh, Hooks.none, runCreators, h1, record, runGetters, Frame.liftExcept, hp k n, if_true, M.pure]
  · show store2 l1.params q p.name _ = _
    rw [h3, store2_setDefault]

theorem param_read {E : Env} {l : Loc} {q : Str} (hb : bundleName E l = (.ok q, l)) (hh : E.hooks = Hooks.none) {p : Spec} {a : Arr} (hn : lookup2 l.params q p.name = some a) (ha : a.shape = p.shape) :
    ∃ l', (Op.getParam p.name p.shape p.dtype (some p.start.init)).run E l = (.ok (.arr a), l') ∧ l'.params = l.params ∧ l'.rng = l.rng ∧ Same l l' := by
  refine ⟨{ l with trace := l.trace ++ [.paramRead q p.name a] }, ?_, rfl, rfl, ⟨rfl, rfl, rfl⟩⟩
  obtain ⟨i, hi⟩ : ∃ i, l.params.get? q = some i := by
    unfold lookup2 at hn
    cases h' : l.params.get? q with
    | none => rw [h'] at hn; cases hn
    | some i => exact ⟨i, rfl⟩
  have hq : l.params.has q = true := by
    unfold Dict.has
    rw [hi]
    rfl
  have hd : l.params.setDefault q [] = l.params := Dict.setDefault_of_some hi
  show ((Frame.getParameter p.name p.shape p.dtype (some p.start.init) E >>- fun a => M.pure (Val.arr a)) l) = _
  unfold Frame.getParameter
  cases hf : E.frozen with
  | true =>
    simp only [M.bind, hb, M.get, hq, Bool.not_true, Bool.and_false, Bool.false_eq_true, if_false, if_true, M.pure, hn, hh, Hooks.none, record, M.modify, runGetters, Frame.liftExcept, ha]
  | false =>
    simp only [M.bind, hb, M.get, hq, hd, Bool.not_true, Bool.and_false, Bool.false_eq_true, if_false, if_true, M.pure, hn, hh, Hooks.none, record, M.modify, runGetters, Frame.liftExcept, ha]

theorem key_run {E : Env} {l : Loc} {k : Key} {n : Nat} (hr : l.rng = some ⟨left k n, []⟩) :
    ∃ l', Op.nextKey.run E l = (.ok (.key (keyNo k n)), l') ∧ l'.rng = some ⟨left k (n + 1), []⟩ ∧ l'.params = l.params ∧ Same l l' := by
  refine ⟨{ l with rng := some ⟨left k (n + 1), []⟩, log := l.log ++ [keyNo k n] }, ?_, rfl, rfl, ⟨rfl, rfl, rfl⟩⟩
  obtain ⟨a, b, c, d, e, f', g⟩ := l
  cases hr
  rfl

theorem built_snoc (k : Key) (es : List Event) (e : Event) : built k (es ++ [e]) = take k (built k es) e := by
  unfold built
  rw [List.foldl_append]
  rfl

theorem built_source (k : Key) {q n : Str} {a : Arr} : ∀ {es : List Event}, Consistent es → lookup2 (built k es).1 q n = some a → ∃ p, Event.param q p ∈ es ∧ p.name = n ∧ a.shape = p.shape := by
  intro es
  induction es using List.reverseRecOn with
  | nil => intro _ h; cases h
  | append_singleton es e ih =>
    intro hc h
    have ih' := ih (hc.sub fun e he => List.mem_append_left _ he)
    rw [built_snoc] at h
    cases e with
    | key =>
      obtain ⟨p, h1, h2⟩ := ih' h
      exact ⟨p, List.mem_append_left _ h1, h2⟩
    | param q' p =>
      rw [take] at h
      by_cases hs : (lookup2 (built k es).1 q' p.name).isSome
      · rw [if_pos hs] at h
        obtain ⟨p, h1, h2⟩ := ih' h
        exact ⟨p, List.mem_append_left _ h1, h2⟩
      · rw [if_neg hs, lookup2_store2] at h
        by_cases he : q' = q ∧ p.name = n
        · rw [if_pos he] at h
          obtain ⟨rfl, rfl⟩ := he
          injection h with h
          exact ⟨p, List.mem_append_right _ (List.mem_singleton.2 rfl), rfl, by rw [← h]; exact hc.initial q' p (List.mem_append_right _ (List.mem_singleton.2 rfl)) k _⟩
        · rw [if_neg he] at h
          obtain ⟨p, h1, h2⟩ := ih' h
          exact ⟨p, List.mem_append_left _ h1, h2⟩

/-! ### `init` -/

/-- In `init`, after the events `A`. -/
structure At (k : Key) (A : List Event) (s : LW) : Prop where
  frozen : s.env.frozen = false
  params : s.loc.params = (built k A).1
  rng : s.loc.rng = some ⟨left k (built k A).2, []⟩

/-- What running does to the rest. -/
structure Run (s s' : LW) : Prop where
  kept : Kept s s'
  state : s'.loc.state = s.loc.state

theorem Run.refl (s : LW) : Run s s := ⟨.refl s, rfl⟩
theorem Run.trans {a b c : LW} (h : Run a b) (h' : Run b c) : Run a c := ⟨h.kept.trans h'.kept, h'.state.trans h.state⟩

theorem Run.same {s : LW} {l : Loc} (h : Same s.loc l) : Run s ⟨s.env, l⟩ := ⟨(Quiet.of h).kept, h.state⟩

/-- Calling a module in `init` does what its events say, if the objects of `h0` are there. -/
def GoodI (k : Key) (h0 : List ModObj) (m : ModId × (Val → Prog)) (es : List Event) : Prop :=
  ∀ (x : Val) (s : LW) (c : Caller) (used : List Str) (A : List Event), Here s c used → HeapLe h0 s.loc.heap → At k A s → Consistent (A ++ es) →
    ∃ v s', (Prog.callMethod m.1 sCall x m.2).run localMach s = (.ok v, s') ∧ Here s' c used ∧ Run s s' ∧ At k (A ++ es) s'

theorem GoodI.mono {k : Key} {h0 h1 : List ModObj} {m : ModId × (Val → Prog)} {es : List Event} (h : GoodI k h0 m es) (hl : HeapLe h0 h1) : GoodI k h1 m es :=
  fun x s c used A a b => h x s c used A a (hl.trans b)

/-- The modules in scope. -/
structure ScopeI (k : Key) (h0 : List ModObj) (ms : List (ModId × (Val → Prog))) (ess : List (List Event)) : Prop where
  length : ms.length = ess.length
  good : ∀ (i : Nat) m es, ms[i]? = some m → ess[i]? = some es → GoodI k h0 m es

theorem ScopeI.mono {k : Key} {h0 h1 : List ModObj} {ms : List (ModId × (Val → Prog))} {ess : List (List Event)} (h : ScopeI k h0 ms ess) (hl : HeapLe h0 h1) : ScopeI k h1 ms ess :=
  ⟨h.length, fun i m es a b => (h.good i m es a b).mono hl⟩

theorem get_snoc {α : Type} {l : List α} {a b : α} {i : Nat} (h : (l ++ [a])[i]? = some b) : l[i]? = some b ∨ (i = l.length ∧ b = a) := by
  rcases Nat.lt_trichotomy i l.length with hi | hi | hi
  · rw [List.getElem?_append_left hi] at h
    exact .inl h
  · subst hi
    rw [List.getElem?_append_right (Nat.le_refl _), Nat.sub_self] at h
    injection h with h
    exact .inr ⟨rfl, h.symm⟩
  · rw [List.getElem?_eq_none (by rw [List.length_append, List.length_singleton]; omega)] at h
    cases h

theorem ScopeI.snoc {k : Key} {h0 : List ModObj} {ms : List (ModId × (Val → Prog))} {ess : List (List Event)} (h : ScopeI k h0 ms ess) {m : ModId × (Val → Prog)} {es : List Event} (hm : GoodI k h0 m es) :
    ScopeI k h0 (ms ++ [m]) (ess ++ [es]) := by
  refine ⟨by rw [List.length_append, List.length_append, h.length]; rfl, fun i m' es' a b => ?_⟩
  rcases get_snoc a with a | ⟨a, rfl⟩ <;> rcases get_snoc b with b | ⟨b, rfl⟩
  · exact h.good i m' es' a b
  · have := (List.getElem?_eq_some_iff.1 a).1
    have := h.length
    omega
  · have := (List.getElem?_eq_some_iff.1 b).1
    have := h.length
    omega
  · exact hm

theorem run_init {k : Key} : ∀ (b : Body) (w : Option Str) (used : List Str) (ms : List (ModId × (Val → Prog))) (ess : List (List Event)) (vs : List Val) (s : LW) (A : List Event), Ok b ms.length used → Tidy used →
    ScopeI k s.loc.heap ms ess → Here s (who w) used → At k A s → Consistent (A ++ events b w used ess) →
    ∃ v s' used', (exec b ms vs).run localMach s = (.ok v, s') ∧ Here s' (who w) used' ∧ Run s s' ∧ At k (A ++ events b w used ess) s'
  | .ret f, w, used, ms, ess, vs, s, A, ok, hu, hm, h, ha, hc => ⟨f vs, s, used, by rw [exec]; rfl, h, .refl s, by rw [events, List.append_nil]; exact ha⟩
  | .fn f r, w, used, ms, ess, vs, s, A, ok, hu, hm, h, ha, hc => by
    rw [exec, events]
    exact run_init r w used ms ess _ s A ok hu hm h ha hc
  | .param p r, w, used, ms, ess, vs, s, A, ok, hu, hm, h, ha, hc => by
    rw [events] at hc ⊢
    rw [List.append_cons] at hc ⊢
    have hb := here_bundle h
    have hin : Event.param (bundle w) p ∈ A ++ [Event.param (bundle w) p] ++ events r w used ess := by simp
    have step : ∃ a l', (Op.getParam p.name p.shape p.dtype (some p.start.init)).run s.env s.loc = (.ok (.arr a), l') ∧ l'.rng = some ⟨left k (built k (A ++ [Event.param (bundle w) p])).2, []⟩ ∧
        l'.params = (built k (A ++ [Event.param (bundle w) p])).1 ∧ Same s.loc l' := by
      rw [built_snoc, take]
      cases hl : lookup2 (built k A).1 (bundle w) p.name with
      | none =>
        obtain ⟨l', e1, e2, e3, e4⟩ := param_new hb h.hooks ha.frozen (hc.initial _ p hin) ha.rng (by rw [ha.params]; exact hl)
        exact ⟨_, l', e1, e2, by rw [e3, ha.params]; rfl, e4⟩
      | some a =>
        obtain ⟨p', i1, i2, i3⟩ := built_source k (hc.sub fun e he => List.mem_append_left _ (List.mem_append_left _ he)) hl
        obtain ⟨l', e1, e2, e3, e4⟩ := param_read (p := p) hb h.hooks (by rw [ha.params]; exact hl) (i3.trans (hc.same _ p' p (List.mem_append_left _ (List.mem_append_left _ i1)) hin i2))
        exact ⟨a, l', e1, by rw [e3]; exact ha.rng, by rw [e2]; exact ha.params, e4⟩
    obtain ⟨a, l', e1, e2, e3, e4⟩ := step
    obtain ⟨v, s', used', g1, g2, g3, g4⟩ := run_init r w used ms ess (vs ++ [.arr a]) ⟨s.env, l'⟩ (A ++ [Event.param (bundle w) p]) ok hu (by show ScopeI k l'.heap ms ess; rw [e4.heap]; exact hm) ((Quiet.of e4).here h)
      ⟨ha.frozen, e3, e2⟩ hc
    refine ⟨v, s', used', ?_, g2, (Run.same e4).trans g3, g4⟩
    rw [exec, Prog.run, M.bind, Prog.run, top_eq, e1]
    exact g1
  | .key r, w, used, ms, ess, vs, s, A, ok, hu, hm, h, ha, hc => by
    rw [events] at hc ⊢
    rw [List.append_cons] at hc ⊢
    obtain ⟨l', e1, e2, e3, e4⟩ := key_run (E := s.env) ha.rng
    obtain ⟨v, s', used', g1, g2, g3, g4⟩ := run_init r w used ms ess (vs ++ [.key (keyNo k (built k A).2)]) ⟨s.env, l'⟩ (A ++ [Event.key]) ok hu (by show ScopeI k l'.heap ms ess; rw [e4.heap]; exact hm) ((Quiet.of e4).here h)
      ⟨ha.frozen, by rw [built_snoc]; exact e3.trans ha.params, by rw [built_snoc]; exact e2⟩ hc
    refine ⟨v, s', used', ?_, g2, (Run.same e4).trans g3, g4⟩
    rw [exec, Prog.run, M.bind, Prog.run, top_eq, e1]
    exact g1
  | .make n c r, w, used, ms, ess, vs, s, A, ok, hu, hm, h, ha, hc => by
    obtain ⟨hn, okc, okr⟩ := ok
    obtain ⟨s1, e1, o1, k1, subs, hb⟩ := new_shell h (who_dir w) hu hn
    have hms := hm.mono k1.kept.heap
    have hg : GoodI k s1.loc.heap (s.loc.heap.length, fun x => exec c ms (vs ++ [x])) (events c (some (dir w ++ numbered used n)) [] ess) := by
      intro x t c' u' A' ht hle hat hco
      obtain ⟨subs', hb'⟩ := hle.named hb
      obtain ⟨v, t1, u1, g1, g2, g3, g4⟩ := run_init c (some (dir w ++ numbered used n)) [] ms ess (vs ++ [x]) (enter t s.loc.heap.length) A' okc Tidy.nil (hms.mono hle) (enter_here ht hb') ⟨hat.frozen, hat.params, hat.rng⟩ hco
      obtain ⟨t2, subs2, f1, f2, f3, f4, f5, f6, f7⟩ := call_node (body := fun x => exec c ms (vs ++ [x])) ht hb' g1 g3.kept
      exact ⟨v, t2, f1, f2, ⟨f3, f6.trans g3.state⟩, ⟨by rw [f3.env]; exact hat.frozen, f4.trans g4.params, f5.trans g4.rng⟩⟩
    obtain ⟨v, s', used', g1, g2, g3, g4⟩ := run_init r w (used ++ [n]) (ms ++ [(s.loc.heap.length, fun x => exec c ms (vs ++ [x]))]) (ess ++ [events c (some (dir w ++ numbered used n)) [] ess]) vs s1 A
      (by rw [List.length_append]; exact okr) (hu.snoc hn) (hms.snoc hg) o1 ⟨by rw [k1.kept.env]; exact ha.frozen, k1.params.trans ha.params, k1.rng.trans ha.rng⟩ hc
    refine ⟨v, s', used', ?_, g2, (Run.mk k1.kept k1.state).trans g3, g4⟩
    rw [exec, Prog.run, M.bind, e1]
    exact g1
  | .call i f r, w, used, ms, ess, vs, s, A, ok, hu, hm, h, ha, hc => by
    obtain ⟨hi, okr⟩ := ok
    obtain ⟨m, hmi⟩ : ∃ m, ms[i]? = some m := ⟨_, List.getElem?_eq_getElem hi⟩
    obtain ⟨es, hes⟩ : ∃ es, ess[i]? = some es := ⟨_, List.getElem?_eq_getElem (by rw [← hm.length]; exact hi)⟩
    rw [events, hes, Option.getD_some, ← List.append_assoc] at hc
    obtain ⟨v1, s1, e1, e2, e3, e4⟩ := hm.good i m es hmi hes (f vs) s (who w) used A h (.refl _) ha (hc.sub fun e he => List.mem_append_left _ he)
    obtain ⟨v, s', used', g1, g2, g3, g4⟩ := run_init r w used ms ess (vs ++ [v1]) s1 (A ++ es) okr hu (hm.mono e3.kept.heap) e2 e4 hc
    refine ⟨v, s', used', ?_, g2, e3.trans g3, ?_⟩
    · rw [exec, hmi]
      dsimp only
      rw [Prog.run, M.bind, e1]
      exact g1
    · rw [events, hes, Option.getD_some, ← List.append_assoc]
      exact g4

/-! ### `apply` -/

/-- There is an array of the right shape for each parameter that is asked for. -/
def Fits (P : PDict) (get : Str → Str → Arr) (es : List Event) : Prop := ∀ q p, Event.param q p ∈ es → lookup2 P q p.name = some (get q p.name) ∧ (get q p.name).shape = p.shape

/-- What running does in `apply`; if keys matter (`K`), `n` have been used. -/
structure RunA (k : Key) (K : Prop) (n : Nat) (s s' : LW) : Prop where
  run : Run s s'
  params : s'.loc.params = s.loc.params
  rng : K → s'.loc.rng = some ⟨left k n, []⟩

/-- Calling a module in `apply` computes `d`. -/
def GoodA (P : PDict) (get : Str → Str → Arr) (k : Key) (K : Prop) (h0 : List ModObj) (m : ModId × (Val → Prog)) (es : List Event) (d : Val → Nat → Val × Nat) : Prop :=
  ∀ (x : Val) (s : LW) (c : Caller) (used : List Str) (n : Nat), Here s c used → HeapLe h0 s.loc.heap → s.loc.params = P → Fits P get es → (Event.key ∈ es → K) → (K → s.loc.rng = some ⟨left k n, []⟩) →
    ∃ s', (Prog.callMethod m.1 sCall x m.2).run localMach s = (.ok (d x n).1, s') ∧ Here s' c used ∧ RunA k K (d x n).2 s s'

theorem GoodA.mono {P : PDict} {get : Str → Str → Arr} {k : Key} {K : Prop} {h0 h1 : List ModObj} {m : ModId × (Val → Prog)} {es : List Event} {d : Val → Nat → Val × Nat} (h : GoodA P get k K h0 m es d)
    (hl : HeapLe h0 h1) : GoodA P get k K h1 m es d := fun x s c used n a b => h x s c used n a (hl.trans b)

/-- The modules in scope. -/
structure ScopeA (P : PDict) (get : Str → Str → Arr) (k : Key) (K : Prop) (h0 : List ModObj) (ms : List (ModId × (Val → Prog))) (ess : List (List Event)) (ds : List (Val → Nat → Val × Nat)) : Prop where
  length : ms.length = ess.length
  length' : ms.length = ds.length
  good : ∀ (i : Nat) m es d, ms[i]? = some m → ess[i]? = some es → ds[i]? = some d → GoodA P get k K h0 m es d

theorem ScopeA.mono {P : PDict} {get : Str → Str → Arr} {k : Key} {K : Prop} {h0 h1 : List ModObj} {ms : List (ModId × (Val → Prog))} {ess : List (List Event)} {ds : List (Val → Nat → Val × Nat)}
    (h : ScopeA P get k K h0 ms ess ds) (hl : HeapLe h0 h1) : ScopeA P get k K h1 ms ess ds := ⟨h.length, h.length', fun i m es d a b c => (h.good i m es d a b c).mono hl⟩

theorem ScopeA.snoc {P : PDict} {get : Str → Str → Arr} {k : Key} {K : Prop} {h0 : List ModObj} {ms : List (ModId × (Val → Prog))} {ess : List (List Event)} {ds : List (Val → Nat → Val × Nat)}
    (h : ScopeA P get k K h0 ms ess ds) {m : ModId × (Val → Prog)} {es : List Event} {d : Val → Nat → Val × Nat} (hm : GoodA P get k K h0 m es d) : ScopeA P get k K h0 (ms ++ [m]) (ess ++ [es]) (ds ++ [d]) := by
  have h1 := h.length
  have h2 := h.length'
  refine ⟨by rw [List.length_append, List.length_append, h.length]; rfl, by rw [List.length_append, List.length_append, h.length']; rfl, fun i m' es' d' a b c => ?_⟩
  rcases get_snoc a with a | ⟨a, rfl⟩ <;> rcases get_snoc b with b | ⟨b, rfl⟩ <;> rcases get_snoc c with c | ⟨c, rfl⟩
  · exact h.good i m' es' d' a b c
  · have := (List.getElem?_eq_some_iff.1 a).1
    omega
  · have := (List.getElem?_eq_some_iff.1 a).1
    omega
  · have := (List.getElem?_eq_some_iff.1 a).1
    omega
  · have := (List.getElem?_eq_some_iff.1 b).1
    omega
  · have := (List.getElem?_eq_some_iff.1 b).1
    omega
  · have := (List.getElem?_eq_some_iff.1 c).1
    omega
  · exact hm

theorem run_apply {P : PDict} {get : Str → Str → Arr} {k : Key} {K : Prop} : ∀ (b : Body) (w : Option Str) (used : List Str) (ms : List (ModId × (Val → Prog))) (ess : List (List Event))
    (ds : List (Val → Nat → Val × Nat)) (vs : List Val) (s : LW) (n : Nat), Ok b ms.length used → Tidy used → ScopeA P get k K s.loc.heap ms ess ds → Here s (who w) used → s.loc.params = P →
    Fits P get (events b w used ess) → (Event.key ∈ events b w used ess → K) → (K → s.loc.rng = some ⟨left k n, []⟩) →
    ∃ s' used', (exec b ms vs).run localMach s = (.ok (value get (keyNo k) b w used ds vs n).1, s') ∧ Here s' (who w) used' ∧ RunA k K (value get (keyNo k) b w used ds vs n).2 s s'
  | .ret f, w, used, ms, ess, ds, vs, s, n, ok, hu, hm, h, hp, hf, hk, hr => ⟨s, used, by rw [exec]; rfl, h, .refl s, rfl, hr⟩
  | .fn f r, w, used, ms, ess, ds, vs, s, n, ok, hu, hm, h, hp, hf, hk, hr => by
    rw [exec, value]
    exact run_apply r w used ms ess ds _ s n ok hu hm h hp hf hk hr
  | .param p r, w, used, ms, ess, ds, vs, s, n, ok, hu, hm, h, hp, hf, hk, hr => by
    rw [events] at hf hk
    obtain ⟨f1, f2⟩ := hf _ p List.mem_cons_self
    obtain ⟨l', e1, e2, e3, e4⟩ := param_read (p := p) (here_bundle h) h.hooks (by rw [hp]; exact f1) f2
    obtain ⟨s', used', g1, g2, g3⟩ := run_apply (k := k) (K := K) r w used ms ess ds (vs ++ [.arr (get (bundle w) p.name)]) ⟨s.env, l'⟩ n ok hu (by show ScopeA P get k K l'.heap ms ess ds; rw [e4.heap]; exact hm)
      ((Quiet.of e4).here h) (e2.trans hp) (fun q p hq => hf q p (List.mem_cons_of_mem _ hq)) (fun hq => hk (List.mem_cons_of_mem _ hq)) (fun hK => e3.trans (hr hK))
    refine ⟨s', used', ?_, g2, (Run.same e4).trans g3.run, g3.params.trans e2, g3.rng⟩
    rw [exec, Prog.run, M.bind, Prog.run, top_eq, e1]
    exact g1
  | .key r, w, used, ms, ess, ds, vs, s, n, ok, hu, hm, h, hp, hf, hk, hr => by
    rw [events] at hf hk
    have hK := hk List.mem_cons_self
    obtain ⟨l', e1, e2, e3, e4⟩ := key_run (E := s.env) (hr hK)
    obtain ⟨s', used', g1, g2, g3⟩ := run_apply (k := k) (K := K) r w used ms ess ds (vs ++ [.key (keyNo k n)]) ⟨s.env, l'⟩ (n + 1) ok hu (by show ScopeA P get k K l'.heap ms ess ds; rw [e4.heap]; exact hm)
      ((Quiet.of e4).here h) (e3.trans hp) (fun q p hq => hf q p (List.mem_cons_of_mem _ hq)) (fun _ => hK) (fun _ => e2)
    refine ⟨s', used', ?_, g2, (Run.same e4).trans g3.run, g3.params.trans e3, g3.rng⟩
    rw [exec, Prog.run, M.bind, Prog.run, top_eq, e1]
    exact g1
  | .make nm c r, w, used, ms, ess, ds, vs, s, n, ok, hu, hm, h, hp, hf, hk, hr => by
    obtain ⟨hn, okc, okr⟩ := ok
    obtain ⟨s1, e1, o1, k1, subs, hb⟩ := new_shell h (who_dir w) hu hn
    have hms := hm.mono k1.kept.heap
    have hg : GoodA P get k K s1.loc.heap (s.loc.heap.length, fun x => exec c ms (vs ++ [x])) (events c (some (dir w ++ numbered used nm)) [] ess)
        (fun x n => value get (keyNo k) c (some (dir w ++ numbered used nm)) [] ds (vs ++ [x]) n) := by
      intro x t c' u' n' ht hle hpt hft hkt hrt
      obtain ⟨subs', hb'⟩ := hle.named hb
      obtain ⟨t1, u1, g1, g2, g3⟩ := run_apply c (some (dir w ++ numbered used nm)) [] ms ess ds (vs ++ [x]) (enter t s.loc.heap.length) n' okc Tidy.nil (hms.mono hle) (enter_here ht hb') hpt hft hkt hrt
      obtain ⟨t2, subs2, f1, f2, f3, f4, f5, f6, f7⟩ := call_node (body := fun x => exec c ms (vs ++ [x])) ht hb' g1 g3.run.kept
      exact ⟨t2, f1, f2, ⟨f3, f6.trans g3.run.state⟩, f4.trans g3.params, fun hK => f5.trans (g3.rng hK)⟩
    obtain ⟨s', used', g1, g2, g3⟩ := run_apply (k := k) (K := K) r w (used ++ [nm]) (ms ++ [(s.loc.heap.length, fun x => exec c ms (vs ++ [x]))]) (ess ++ [events c (some (dir w ++ numbered used nm)) [] ess])
      (ds ++ [fun x n => value get (keyNo k) c (some (dir w ++ numbered used nm)) [] ds (vs ++ [x]) n]) vs s1 n
      (by rw [List.length_append]; exact okr) (hu.snoc hn) (hms.snoc hg) o1 (k1.params.trans hp) hf hk (fun hK => k1.rng.trans (hr hK))
    refine ⟨s', used', ?_, g2, (Run.mk k1.kept k1.state).trans g3.run, g3.params.trans k1.params, g3.rng⟩
    rw [exec, Prog.run, M.bind, e1]
    exact g1
  | .call i f r, w, used, ms, ess, ds, vs, s, n, ok, hu, hm, h, hp, hf, hk, hr => by
    obtain ⟨hi, okr⟩ := ok
    obtain ⟨m, hmi⟩ : ∃ m, ms[i]? = some m := ⟨_, List.getElem?_eq_getElem hi⟩
    obtain ⟨es, hes⟩ : ∃ es, ess[i]? = some es := ⟨_, List.getElem?_eq_getElem (by rw [← hm.length]; exact hi)⟩
    obtain ⟨d, hd⟩ : ∃ d, ds[i]? = some d := ⟨_, List.getElem?_eq_getElem (by rw [← hm.length']; exact hi)⟩
    rw [events, hes, Option.getD_some] at hf hk
    obtain ⟨s1, e1, e2, e3⟩ := hm.good i m es d hmi hes hd (f vs) s (who w) used n h (.refl _) hp (fun q p hq => hf q p (List.mem_append_left _ hq)) (fun hq => hk (List.mem_append_left _ hq)) hr
    obtain ⟨s', used', g1, g2, g3⟩ := run_apply (k := k) (K := K) r w used ms ess ds (vs ++ [(d (f vs) n).1]) s1 (d (f vs) n).2 okr hu (hm.mono e3.run.kept.heap) e2 (e3.params.trans hp)
      (fun q p hq => hf q p (List.mem_append_right _ hq)) (fun hq => hk (List.mem_append_right _ hq)) e3.rng
    have hv : value get (keyNo k) (.call i f r) w used ds vs n = value get (keyNo k) r w used ds (vs ++ [(d (f vs) n).1]) (d (f vs) n).2 := by
      rw [value, hd]
    rw [hv]
    refine ⟨s', used', ?_, g2, e3.run.trans g3.run, g3.params.trans e3.params, g3.rng⟩
    rw [exec, hmi]
    dsimp only
    rw [Prog.run, M.bind, e1]
    exact g1

/-! ### The theorems -/

/-- The whole program: `x` is the argument. -/
def program (b : Body) (x : Val) : Prog := exec b [] [x]

/-- What it asks for. -/
def asks (b : Body) : List Event := events b none [] []

/-- What it computes. -/
def computes (get : Str → Str → Arr) (keys : Nat → Key) (b : Body) (x : Val) : Val := (value get keys b none [] [] [x] 0).1

/-- C195: `init` goes through what the program asks for, in order, wherever it is asked: a parameter asked for the first time gets its initial value, with the next key if it needs one; one asked for
again is left alone and takes no key; `hk.next_rng_key` takes the next key. -/
theorem init_program {w : World} (hw : Bare w) {b : Body} (ok : Ok b 0 []) (hc : Consistent (asks b)) (k : Key) (x : Val) :
    ((Prog.initT (.key k) (program b x)).run stackMach w).1 = .ok (.pair (.bundle (built k (asks b)).1) (.bundle [])) := by
  obtain ⟨v, s, used, h1, h2, h3, h4⟩ := run_init (k := k) b none [] [] [] [x] (ctxStart (Ctx.new none none (some ⟨k, []⟩)) w) [] ok Tidy.nil ⟨rfl, fun i m es hm => by cases hm⟩ (here_start _ hw rfl)
    ⟨rfl, rfl, rfl⟩ hc
  rw [initT_run]
  show (match (program b x).run localMach (ctxStart (Ctx.new none none (some ⟨k, []⟩)) w) with
    | (.error e, s) => (Except.error e, { w with heap := s.loc.heap })
    | (.ok _, s) => (.ok (Val.pair (.bundle s.loc.params) (.bundle (extractState true s.loc.state))), { w with heap := s.loc.heap })).1 = _
  unfold program
  rw [h1]
  dsimp only
  rw [h4.params, h3.state]
  rfl

/-- C195: `apply` with an array of the right shape for each parameter that is asked for computes what the program says, with the keys in their order, which only `hk.next_rng_key` takes; the state is
returned as it was. -/
theorem apply_program {w : World} (hw : Bare w) {b : Body} (ok : Ok b 0 []) {P S : PDict} {get : Str → Str → Arr} (hf : Fits (dict2 P) get (asks b)) {rng : RngArg} {r : Option PRNGSeq} (hr : rng.toSeq = .ok r)
    {k : Key} (hk : Event.key ∈ asks b → r = some ⟨k, []⟩) (x : Val) :
    ((Prog.applyT (some P) (some S) rng (program b x)).run stackMach w).1 = .ok (.pair (computes get (keyNo k) b x) (.bundle (dict2 S))) := by
  obtain ⟨s, used, h1, h2, h3⟩ := run_apply (P := dict2 P) (get := get) (k := k) (K := Event.key ∈ asks b) b none [] [] [] [] [x] (ctxStart (Ctx.new (some P) (some S) r) w) 0 ok Tidy.nil
    ⟨rfl, rfl, fun i m es d hm => by cases hm⟩ (here_start _ hw rfl) rfl hf id (fun hK => by rw [hk hK]; rfl)
  rw [applyT_run, hr]
  dsimp only [Option.getD_some, Option.getD_none]
  unfold program
  rw [h1]
  dsimp only
  rw [h3.run.state, extract_new]
  rfl

/-- A dictionary in which no name is there twice. -/
theorem built_wf (k : Key) : ∀ es : List Event, WF2 (built k es).1 := by
  intro es
  induction es using List.reverseRecOn with
  | nil => exact WF2.nil
  | append_singleton es e ih =>
    rw [built_snoc]
    cases e with
    | key => exact ih
    | param q p =>
      rw [take]
      split
      · exact ih
      · exact ih.store2 _ _ _

theorem built_keeps (k : Key) {q n : Str} {a : Arr} : ∀ (es : List Event) (d : PDict × Nat), lookup2 d.1 q n = some a → lookup2 (es.foldl (take k) d).1 q n = some a
  | [], d, h => h
  | e :: es, d, h => by
    rw [List.foldl_cons]
    refine built_keeps k es _ ?_
    cases e with
    | key => exact h
    | param q' p =>
      rw [take]
      split
      · exact h
      · rename_i hs
        rw [lookup2_store2, if_neg]
        · exact h
        · rintro ⟨rfl, rfl⟩
          exact hs (by rw [h]; rfl)

theorem built_has (k : Key) {q : Str} {p : Spec} {es : List Event} (h : Event.param q p ∈ es) : ∃ a, lookup2 (built k es).1 q p.name = some a := by
  obtain ⟨A, B, rfl⟩ := List.append_of_mem h
  have : ∃ a, lookup2 (built k (A ++ [Event.param q p])).1 q p.name = some a := by
    rw [built_snoc, take]
    cases hl : lookup2 (built k A).1 q p.name with
    | some a => exact ⟨a, by rw [if_pos (by rfl)]; exact hl⟩
    | none =>
      rw [if_neg (by simp)]
      exact ⟨_, by rw [lookup2_store2, if_pos ⟨rfl, rfl⟩]⟩
  obtain ⟨a, ha⟩ := this
  refine ⟨a, ?_⟩
  rw [List.append_cons]
  unfold built at ha ⊢
  rw [List.foldl_append]
  exact built_keeps k B _ ha

/-- What `init` returned fits. -/
theorem built_fits (k : Key) {es : List Event} (hc : Consistent es) : Fits (dict2 (built k es).1) (at2 (built k es).1) es := fun q p hp => by
  obtain ⟨a, ha⟩ := built_has k hp
  obtain ⟨p', h1, h2, h3⟩ := built_source k hc ha
  unfold at2
  rw [dict2_of_wf (built_wf k es), ha]
  exact ⟨rfl, h3.trans (hc.same q p' p h1 hp h2)⟩

/-- C195: `apply` on what `init` returned never fails, with the same or another key (or none, if the program asks for none). -/
theorem apply_init {w w' : World} (hw : Bare w) (hw' : Bare w') {b : Body} (ok : Ok b 0 []) (hc : Consistent (asks b)) (k : Key) {rng : RngArg} {r : Option PRNGSeq} (hr : rng.toSeq = .ok r)
    {k' : Key} (hk : Event.key ∈ asks b → r = some ⟨k', []⟩) (x x' : Val) :
    ∃ P, ((Prog.initT (.key k) (program b x)).run stackMach w).1 = .ok (.pair (.bundle P) (.bundle [])) ∧
      ((Prog.applyT (some P) (some []) rng (program b x')).run stackMach w').1 = .ok (.pair (computes (at2 P) (keyNo k') b x') (.bundle [])) :=
  ⟨_, init_program hw ok hc k x, apply_program hw' ok (built_fits k hc) hr hk x'⟩

/-- How many keys events take: one for each `hk.next_rng_key`, and one for each parameter that needs one and was not asked for before. -/
def drawn : List (Str × Str) → List Event → Nat
  | _, [] => 0
  | seen, .key :: es => 1 + drawn seen es
  | seen, .param q p :: es => if (q, p.name) ∈ seen then drawn seen es else p.keys + drawn ((q, p.name) :: seen) es

theorem drawn_fold (k : Key) : ∀ (es : List Event) (d : PDict × Nat) (seen : List (Str × Str)), (∀ q n, (q, n) ∈ seen ↔ (lookup2 d.1 q n).isSome) → (es.foldl (take k) d).2 = d.2 + drawn seen es
  | [], d, seen, h => rfl
  | .key :: es, d, seen, h => by
    rw [List.foldl_cons, drawn_fold k es (take k d .key) seen h, drawn]
    show d.2 + 1 + _ = _
    omega
  | .param q p :: es, d, seen, h => by
    rw [List.foldl_cons, take, drawn]
    by_cases hs : (lookup2 d.1 q p.name).isSome
    · rw [if_pos hs, if_pos ((h _ _).2 hs), drawn_fold k es _ seen h]
    · rw [if_neg hs, if_neg (fun hc => hs ((h _ _).1 hc)), drawn_fold k es _ ((q, p.name) :: seen) ?_]
      · show d.2 + p.keys + _ = _
        omega
      · intro q' n'
        rw [lookup2_store2, List.mem_cons]
        by_cases he : q = q' ∧ p.name = n'
        · rw [if_pos he]
          obtain ⟨rfl, rfl⟩ := he
          simp
        · rw [if_neg he, ← h, or_iff_right]
          intro hc
          injection hc with h1 h2
          exact he ⟨h1.symm, h2.symm⟩

/-- C195: the value of a parameter is that of the first time it is asked for, and its key is the one after those that were taken before. -/
theorem first_value {w : World} (hw : Bare w) {b : Body} (ok : Ok b 0 []) (hc : Consistent (asks b)) (k : Key) (x : Val) {A B : List Event} {q : Str} {p : Spec} (hs : asks b = A ++ Event.param q p :: B)
    (hn : ∀ p', Event.param q p' ∈ A → p'.name ≠ p.name) :
    ∃ P, ((Prog.initT (.key k) (program b x)).run stackMach w).1 = .ok (.pair (.bundle P) (.bundle [])) ∧ lookup2 P q p.name = some (p.value k (drawn [] A)) := by
  refine ⟨_, init_program hw ok hc k x, ?_⟩
  have hA : lookup2 (built k A).1 q p.name = none := by
    cases hl : lookup2 (built k A).1 q p.name with
    | none => rfl
    | some a =>
      obtain ⟨p', h1, h2, -⟩ := built_source k (es := A) (hc.sub fun e he => by rw [hs]; exact List.mem_append_left _ he) hl
      exact absurd h2 (hn p' h1)
  have hd : (built k A).2 = drawn [] A := by
    have := drawn_fold k A ([], 0) [] (fun q n => by simp [lookup2])
    rw [Nat.zero_add] at this
    exact this
  rw [hs]
  unfold built
  rw [List.foldl_append, List.foldl_cons]
  refine built_keeps k B _ ?_
  show lookup2 (take k (built k A) _).1 q p.name = _
  rw [take, if_neg (by rw [hA]; simp)]
  dsimp only
  rw [lookup2_store2, if_pos ⟨rfl, rfl⟩, hd]

/-- C195: and there are no other parameters. -/
theorem only_asked {w : World} (hw : Bare w) {b : Body} (ok : Ok b 0 []) (hc : Consistent (asks b)) (k : Key) (x : Val) :
    ∃ P, ((Prog.initT (.key k) (program b x)).run stackMach w).1 = .ok (.pair (.bundle P) (.bundle [])) ∧
      ∀ q n, (lookup2 P q n).isSome ↔ ∃ p, Event.param q p ∈ asks b ∧ p.name = n := by
  refine ⟨_, init_program hw ok hc k x, fun q n => ⟨fun h => ?_, ?_⟩⟩
  · obtain ⟨a, ha⟩ := Option.isSome_iff_exists.1 h
    obtain ⟨p, h1, h2, -⟩ := built_source k hc ha
    exact ⟨p, h1, h2⟩
  · rintro ⟨p, hp, rfl⟩
    obtain ⟨a, ha⟩ := built_has k hp
    rw [ha]
    rfl

/-! ### A program with everything in it -/

namespace Demo
open Verif.Props.Stack.Net (no_number world)
open Verif.Props.ModuleTree.Net (ident)

/-- The number in a value: of an array its first, of a key how many splits it is from the root. -/
def num : Val → Int
  | .arr a => a.data.headD 0
  | .key k => depth k
  | _ => 0
where depth : Key → Int
  | .child k _ _ => depth k + 1
  | _ => 0

def one (i : Int) : Val := .arr ⟨[1], .f32, [i]⟩

def top : List Val → Val := fun vs => vs.getLastD .unit

/-- A layer that adds its weight, drawn as the number of splits of the key, to the value. -/
def layer : Body :=
  .param ⟨['w'], [1], .f32, .random fun shape dtype k => ⟨shape, dtype, [num.depth k]⟩⟩ <| .ret fun vs => match vs.reverse with | w :: x :: _ => one (num x + num w) | _ => .unit

/-- A parameter outside of modules; a layer; a module that is never called; the layer; a key; a block, that calls the layer again, makes one of its own, calls it, and uses the parameter from outside;
the block. -/
def demo : Body :=
  .param ⟨['s'], [1], .f32, .constant fun shape dtype => ⟨shape, dtype, [100]⟩⟩ <|
  .make "layer".toList layer <| .make "layer".toList layer <| .call 0 (fun vs => vs.headD .unit) <| .key <|
  .make "block".toList (.call 0 top <| .make "layer".toList layer <| .call 2 top <| .ret fun vs => one (num (top vs) + num (vs.getD 1 .unit))) <|
  .call 2 (fun vs => one (10 * num (vs.getD 2 .unit) + num (vs.getD 3 .unit))) <| .ret top

def s : Spec := ⟨['s'], [1], .f32, .constant fun shape dtype => ⟨shape, dtype, [100]⟩⟩
def w : Spec := ⟨['w'], [1], .f32, .random fun shape dtype k => ⟨shape, dtype, [num.depth k]⟩⟩

theorem demo_asks : asks demo = [.param ['~'] s, .param "layer".toList w, .key, .param "layer".toList w, .param "block/layer".toList w] := rfl

theorem demo_ok : Ok demo 0 [] := by
  have h1 : ∀ used : List Str, (∀ m ∈ used, letter m = true) → Fresh used "layer".toList := fun used h => fresh_plain (ident (by decide) (by decide)) (letter_plain (by decide)) fun m hm => letter_plain (h m hm)
  have h2 : ∀ used : List Str, (∀ m ∈ used, letter m = true) → Fresh used "block".toList := fun used h => fresh_plain (ident (by decide) (by decide)) (letter_plain (by decide)) fun m hm => letter_plain (h m hm)
  exact ⟨h1 _ (by decide), trivial, h1 _ (by decide), trivial, by omega, h2 _ (by decide), ⟨by omega, h1 _ (by decide), trivial, by omega, trivial⟩, by omega, trivial⟩

theorem demo_consistent : Consistent (asks demo) := by
  have key : ∀ q p, Event.param q p ∈ asks demo → p = s ∨ p = w := fun q p h => by
    rw [demo_asks] at h
    simp only [List.mem_cons, Event.param.injEq, reduceCtorEq, List.not_mem_nil, or_false, false_or] at h
    tauto
  exact ⟨fun q p h k n => by rcases key q p h with rfl | rfl <;> rfl,
    fun q p p' h h' _ => by rcases key q p h with rfl | rfl <;> rcases key q p' h' with rfl | rfl <;> rfl⟩

/-- The layer of the block has the third key: the second went to `hk.next_rng_key`, and calling the first layer again took none. -/
def params : PDict := [(['~'], [(['s'], ⟨[1], .f32, [100]⟩)]), ("layer".toList, [(['w'], ⟨[1], .f32, [1]⟩)]), ("block/layer".toList, [(['w'], ⟨[1], .f32, [3]⟩)])]

example : ((Prog.initT (.key (.root 7)) (program demo (one 4))).run stackMach world).1 = .ok (.pair (.bundle params) (.bundle [])) :=
  (init_program ⟨rfl, rfl⟩ demo_ok demo_consistent (.root 7) (one 4)).trans (by rw [demo_asks]; rfl)

/-- `4 + 1 = 5`; the key is the first one in `apply`: `10 · 5 + 1 = 51`; `51 + 1 + 3 + 100 = 155`. -/
example : ((Prog.applyT (some params) (some []) (.key (.root 8)) (program demo (one 4))).run stackMach world).1 = .ok (.pair (one 155) (.bundle [])) := by
  refine (apply_program (get := at2 params) (k := .root 8) ⟨rfl, rfl⟩ demo_ok ?_ (rng := .key (.root 8)) rfl (fun _ => rfl) (one 4)).trans rfl
  have e : params = (built (.root 7) (asks demo)).1 := by rw [demo_asks]; rfl
  have := built_fits (.root 7) demo_consistent
  rw [← e] at this
  exact this

example : ∃ P, ((Prog.initT (.key (.root 7)) (program demo (one 4))).run stackMach world).1 = .ok (.pair (.bundle P) (.bundle [])) ∧
    ((Prog.applyT (some P) (some []) (.key (.root 8)) (program demo (one 5))).run stackMach world).1 = .ok (.pair (computes (at2 P) (keyNo (.root 8)) demo (one 5)) (.bundle [])) :=
  apply_init ⟨rfl, rfl⟩ ⟨rfl, rfl⟩ demo_ok demo_consistent (.root 7) (rng := .key (.root 8)) rfl (fun _ => rfl) (one 4) (one 5)

example : ∃ P, ((Prog.initT (.key (.root 7)) (program demo (one 4))).run stackMach world).1 = .ok (.pair (.bundle P) (.bundle [])) ∧ lookup2 P "block/layer".toList ['w'] = some (w.value (.root 7) 2) :=
  first_value ⟨rfl, rfl⟩ demo_ok demo_consistent (.root 7) (one 4) (A := [.param ['~'] s, .param "layer".toList w, .key, .param "layer".toList w]) (B := []) (p := w) demo_asks (fun p' h => by
    simp only [List.mem_cons, Event.param.injEq, reduceCtorEq, List.not_mem_nil, or_false, false_or] at h
    rcases h with ⟨h, -⟩ | ⟨h, -⟩ | ⟨h, -⟩ <;> exact absurd h (by decide))

/-- No `layer_1`, which is never called. -/
example : ∃ P, ((Prog.initT (.key (.root 7)) (program demo (one 4))).run stackMach world).1 = .ok (.pair (.bundle P) (.bundle [])) ∧ lookup2 P "layer_1".toList ['w'] = none := by
  obtain ⟨P, h1, h2⟩ := only_asked (w := world) ⟨rfl, rfl⟩ demo_ok demo_consistent (.root 7) (one 4)
  refine ⟨P, h1, ?_⟩
  rw [← Option.not_isSome_iff_eq_none, h2]
  rintro ⟨p, h, -⟩
  rw [demo_asks] at h
  simp only [List.mem_cons, Event.param.injEq, reduceCtorEq, List.not_mem_nil, or_false, false_or] at h
  rcases h with ⟨h, -⟩ | ⟨h, -⟩ | ⟨h, -⟩ | ⟨h, -⟩ <;> exact absurd h (by decide)

end Demo

/-! ### The network of examples/impala_lite.py -/

namespace SimpleNet
open Verif.Props.Stack.Net (no_number world)
open Verif.Props.ModuleTree.Net (ident)
open Verif.Props.SharedLayers.Mnist (specs entry)

/-- The last value. -/
def top : List Val → Val := fun vs => vs.getLastD .unit

/-- `Linear.__call__` (haiku/_src/basic.py 159-181) on arrays whose last dimension is `n`, as in `Mnist.linear` of C194. -/
def linear (draw : List Nat → DType → Key → List Int) (dot : Arr → Arr → Val → Val) (n m : Nat) : Body :=
  .param ⟨['w'], [n, m], .f32, .random fun shape dtype k => ⟨shape, dtype, draw shape dtype k⟩⟩ <|
  .param ⟨['b'], [m], .f32, .constant fun shape dtype => ⟨shape, dtype, List.replicate m 0⟩⟩ <|
  .ret fun vs => match vs.reverse with | .arr b :: .arr w :: x :: _ => dot w b x | _ => .unit

/-- `Flatten.__call__` (haiku/_src/reshape.py 108-118), any function here. -/
def flatten (flat : Val → Val) : Body := .ret fun vs => flat (top vs)

/-- `Sequential.__call__` (haiku/_src/basic.py 119-127) for the layers of the torso (examples/impala_lite.py 60-62). -/
def torso (relu : Val → Val) : Body := .call 0 top <| .call 1 top <| .fn (fun vs => relu (top vs)) <| .call 2 top <| .fn (fun vs => relu (top vs)) <| .ret top

/-- `SimpleNet.__call__` (examples/impala_lite.py 55-67), for observations of `n` numbers: `obs` is `timestep.observation`, `squeeze` drops the last axis. -/
def call (draw : List Nat → DType → Key → List Int) (dot : Arr → Arr → Val → Val) (flat relu obs squeeze : Val → Val) (n actions : Nat) : Body :=
  .make "flatten".toList (flatten flat) <| .make "linear".toList (linear draw dot n 128) <| .make "linear".toList (linear draw dot 128 64) <| .make "sequential".toList (torso relu) <|
  .call 3 (fun vs => obs (top vs)) <|
  .make "linear".toList (linear draw dot 64 actions) <| .call 4 top <|
  .make "linear".toList (linear draw dot 64 1) <| .call 5 (fun vs => match vs.reverse with | _ :: hidden :: _ => hidden | _ => .unit) <|
  .ret fun vs => match vs.reverse with | baseline :: policy :: _ => .pair policy (squeeze baseline) | _ => .unit

/-- `lambda ts: SimpleNet(num_actions)(ts)` (examples/impala_lite.py 215-216). -/
def net (draw : List Nat → DType → Key → List Int) (dot : Arr → Arr → Val → Val) (flat relu obs squeeze : Val → Val) (n actions : Nat) : Body :=
  .make "simple_net".toList (call draw dot flat relu obs squeeze n actions) <| .call 0 top <| .ret top

variable (draw : List Nat → DType → Key → List Int) (dot : Arr → Arr → Val → Val) (flat relu obs squeeze : Val → Val) (n actions : Nat)

theorem net_ok : Ok (net draw dot flat relu obs squeeze n actions) 0 [] := by
  have h1 : ∀ used : List Str, (∀ m ∈ used, letter m = true) → Fresh used "flatten".toList := fun used h => fresh_plain (ident (by decide) (by decide)) (letter_plain (by decide)) fun m hm => letter_plain (h m hm)
  have h2 : ∀ used : List Str, (∀ m ∈ used, letter m = true) → Fresh used "linear".toList := fun used h => fresh_plain (ident (by decide) (by decide)) (letter_plain (by decide)) fun m hm => letter_plain (h m hm)
  have h3 : ∀ used : List Str, (∀ m ∈ used, letter m = true) → Fresh used "sequential".toList := fun used h => fresh_plain (ident (by decide) (by decide)) (letter_plain (by decide)) fun m hm => letter_plain (h m hm)
  have h4 : ∀ used : List Str, (∀ m ∈ used, letter m = true) → Fresh used "simple_net".toList := fun used h => fresh_plain (ident (by decide) (by decide)) (letter_plain (by decide)) fun m hm => letter_plain (h m hm)
  exact ⟨h4 _ (by decide), ⟨h1 _ (by decide), trivial, h2 _ (by decide), trivial, h2 _ (by decide), trivial, h3 _ (by decide), ⟨by omega, by omega, by omega, trivial⟩, by omega, h2 _ (by decide), trivial, by omega, h2 _ (by decide), trivial, by omega, trivial⟩, by omega, trivial⟩

/-- The names of the layers. -/
def layer : Nat → Str
  | 0 => "simple_net/linear".toList
  | 1 => "simple_net/linear_1".toList
  | 2 => "simple_net/linear_2".toList
  | _ => "simple_net/linear_3".toList

theorem name1 : "simple_net/".toList ++ numbered ["flatten".toList, "linear".toList] "linear".toList = layer 1 := by decide
theorem name2 : "simple_net/".toList ++ numbered ["flatten".toList, "linear".toList, "linear".toList, "sequential".toList] "linear".toList = layer 2 := by decide
theorem name3 : "simple_net/".toList ++ numbered ["flatten".toList, "linear".toList, "linear".toList, "sequential".toList, "linear".toList] "linear".toList = layer 3 := by decide

/-- What one layer asks for. -/
def asked (q : Str) (n m : Nat) : List Event := (specs draw n m).map (Event.param q)

theorem net_asks : asks (net draw dot flat relu obs squeeze n actions) = asked draw (layer 0) n 128 ++ asked draw (layer 1) 128 64 ++ asked draw (layer 2) 64 actions ++ asked draw (layer 3) 64 1 := by
  rw [← name1, ← name2, ← name3]
  rfl

theorem net_consistent : Consistent (asks (net draw dot flat relu obs squeeze n actions)) := by
  have hne : ∀ i < 4, ∀ j < 4, layer i = layer j → i = j := by decide
  have key : ∀ q p, Event.param q p ∈ asks (net draw dot flat relu obs squeeze n actions) → ∃ i a b, i < 4 ∧ q = layer i ∧ (a, b) = [(n, 128), (128, 64), (64, actions), (64, 1)].getD i (0, 0) ∧ p ∈ specs draw a b := by
    intro q p h
    rw [net_asks] at h
    simp only [List.mem_append, asked, List.mem_map, Event.param.injEq] at h
    rcases h with ((⟨p', h, rfl, rfl⟩ | ⟨p', h, rfl, rfl⟩) | ⟨p', h, rfl, rfl⟩) | ⟨p', h, rfl, rfl⟩
    · exact ⟨0, _, _, by omega, rfl, rfl, h⟩
    · exact ⟨1, _, _, by omega, rfl, rfl, h⟩
    · exact ⟨2, _, _, by omega, rfl, rfl, h⟩
    · exact ⟨3, _, _, by omega, rfl, rfl, h⟩
  constructor
  · intro q p h k m
    obtain ⟨i, a, b, -, -, -, hp⟩ := key q p h
    simp only [specs, List.mem_cons, List.not_mem_nil, or_false] at hp
    rcases hp with rfl | rfl <;> rfl
  · intro q p p' h h' e
    obtain ⟨i, a, b, hi, rfl, hab, hp⟩ := key q p h
    obtain ⟨j, a', b', hj, hq, hab', hp'⟩ := key _ p' h'
    have := hne i hi j hj hq
    subst this
    rw [← hab] at hab'
    injection hab' with h1 h2
    subst h1 h2
    simp only [specs, List.mem_cons, List.not_mem_nil, or_false] at hp hp'
    rcases hp with rfl | rfl <;> rcases hp' with rfl | rfl
    · rfl
    · exact absurd (show ['w'] = ['b'] from e) (by decide)
    · exact absurd (show ['b'] = ['w'] from e) (by decide)
    · rfl

theorem asked_fold (k : Key) {q : Str} (n m c : Nat) {d : PDict} (h : q ∉ d.keys) : (asked draw q n m).foldl (take k) (d, c) = (d ++ [(q, entry draw (keyNo k c) n m)], c + 1) := by
  have hg : d.get? q = none := (Dict.get?_eq_none_iff d q).2 h
  have hl : ∀ s, lookup2 d q s = none := fun s => by simp [lookup2, hg]
  have s1 : ∀ v, store2 d q ['w'] v = d ++ [(q, [(['w'], v)])] := fun v => by
    unfold store2
    rw [hg, Dict.set_append h]
    rfl
  have s2 : ∀ v u, store2 (store2 d q ['w'] v) q ['b'] u = d ++ [(q, [(['w'], v), (['b'], u)])] := fun v u => by
    unfold store2
    rw [Dict.get?_set_self, Dict.set_set, Dict.set_append h, hg]
    rfl
  show take k (take k (d, c) (.param q _)) (.param q _) = _
  rw [take, take]
  dsimp only
  rw [if_neg (c := (lookup2 d q ['w']).isSome = true) (by rw [hl]; simp)]
  dsimp only
  rw [if_neg (c := (lookup2 (store2 d q ['w'] _) q ['b']).isSome = true) (by rw [lookup2_store2, if_neg (fun h => absurd h.2 (by decide)), hl]; simp), s2]
  rfl

/-- C195: the network of examples/impala_lite.py has four layers of parameters, all under `simple_net`: the two of the torso (not under `sequential`), the policy and the baseline, with the first four
keys. -/
theorem simple_net_init {w : World} (hw : Bare w) (k : Key) (x : Val) :
    ((Prog.initT (.key k) (program (net draw dot flat relu obs squeeze n actions) x)).run stackMach w).1 = .ok (.pair (.bundle [("simple_net/linear".toList, entry draw (keyNo k 0) n 128),
      ("simple_net/linear_1".toList, entry draw (keyNo k 1) 128 64), ("simple_net/linear_2".toList, entry draw (keyNo k 2) 64 actions), ("simple_net/linear_3".toList, entry draw (keyNo k 3) 64 1)]) (.bundle [])) := by
  refine (init_program hw (net_ok draw dot flat relu obs squeeze n actions) (net_consistent draw dot flat relu obs squeeze n actions) k x).trans ?_
  have e0 := asked_fold draw k (q := layer 0) n 128 0 (d := []) (List.not_mem_nil)
  have e1 := asked_fold draw k (q := layer 1) 128 64 1 (d := [(layer 0, entry draw (keyNo k 0) n 128)]) (show layer 1 ∉ [layer 0] by decide)
  have e2 := asked_fold draw k (q := layer 2) 64 actions 2 (d := [(layer 0, entry draw (keyNo k 0) n 128), (layer 1, entry draw (keyNo k 1) 128 64)]) (show layer 2 ∉ [layer 0, layer 1] by decide)
  have e3 := asked_fold draw k (q := layer 3) 64 1 3 (d := [(layer 0, entry draw (keyNo k 0) n 128), (layer 1, entry draw (keyNo k 1) 128 64), (layer 2, entry draw (keyNo k 2) 64 actions)])
    (show layer 3 ∉ [layer 0, layer 1, layer 2] by decide)
  rw [List.nil_append] at e0
  rw [List.singleton_append] at e1
  rw [List.cons_append, List.singleton_append] at e2
  rw [List.cons_append, List.cons_append, List.singleton_append] at e3
  rw [net_asks, built, List.foldl_append, List.foldl_append, List.foldl_append, e0, e1, e2, e3]
  rfl

/-- C195: with parameters of these shapes, and without keys, it computes the policy and the baseline of the same hidden values. -/
theorem simple_net_apply {w : World} (hw : Bare w) {w1 b1 w2 b2 w3 b3 w4 b4 : Arr} (h1 : w1.shape = [n, 128]) (h2 : b1.shape = [128]) (h3 : w2.shape = [128, 64]) (h4 : b2.shape = [64])
    (h5 : w3.shape = [64, actions]) (h6 : b3.shape = [actions]) (h7 : w4.shape = [64, 1]) (h8 : b4.shape = [1]) (x : Val) :
    let hidden := relu (dot w2 b2 (relu (dot w1 b1 (flat (obs x)))))
    ((Prog.applyT (some [(layer 0, [(['w'], w1), (['b'], b1)]), (layer 1, [(['w'], w2), (['b'], b2)]), (layer 2, [(['w'], w3), (['b'], b3)]), (layer 3, [(['w'], w4), (['b'], b4)])]) (some []) .none
      (program (net draw dot flat relu obs squeeze n actions) x)).run stackMach w).1 = .ok (.pair (.pair (dot w3 b3 hidden) (squeeze (dot w4 b4 hidden))) (.bundle [])) := by
  intro hidden
  refine (apply_program (get := at2 [(layer 0, [(['w'], w1), (['b'], b1)]), (layer 1, [(['w'], w2), (['b'], b2)]), (layer 2, [(['w'], w3), (['b'], b3)]), (layer 3, [(['w'], w4), (['b'], b4)])]) (k := .root 0) hw
    (net_ok ..) ?_ (rng := .none) rfl ?_ x).trans ?_
  · intro q p h
    rw [net_asks] at h
    simp only [List.mem_append, asked, List.mem_map, Event.param.injEq, specs, List.mem_cons, List.not_mem_nil, or_false, exists_eq_or_imp, exists_eq_left] at h
    rcases h with (((⟨rfl, rfl⟩ | ⟨rfl, rfl⟩) | (⟨rfl, rfl⟩ | ⟨rfl, rfl⟩)) | (⟨rfl, rfl⟩ | ⟨rfl, rfl⟩)) | (⟨rfl, rfl⟩ | ⟨rfl, rfl⟩)
    exacts [⟨rfl, h1⟩, ⟨rfl, h2⟩, ⟨rfl, h3⟩, ⟨rfl, h4⟩, ⟨rfl, h5⟩, ⟨rfl, h6⟩, ⟨rfl, h7⟩, ⟨rfl, h8⟩]
  · intro h
    rw [net_asks] at h
    simp [asked] at h
  · have e : ∀ get keys, computes get keys (net draw dot flat relu obs squeeze n actions) x =
        (fun a b c => let hidden := relu (dot (get a ['w']) (get a ['b']) (relu (dot (get (layer 0) ['w']) (get (layer 0) ['b']) (flat (obs x)))))
          Val.pair (dot (get b ['w']) (get b ['b']) hidden) (squeeze (dot (get c ['w']) (get c ['b']) hidden)))
        ("simple_net/".toList ++ numbered ["flatten".toList, "linear".toList] "linear".toList)
        ("simple_net/".toList ++ numbered ["flatten".toList, "linear".toList, "linear".toList, "sequential".toList] "linear".toList)
        ("simple_net/".toList ++ numbered ["flatten".toList, "linear".toList, "linear".toList, "sequential".toList, "linear".toList] "linear".toList) := fun get keys => rfl
    rw [e, name1, name2, name3]
    rfl

example : Bare world := ⟨rfl, rfl⟩

/-- The parameters of the network for observations of 50 numbers and three actions. -/
example : ((Prog.initT (.key (.root 7)) (program (net (fun _ _ _ => []) (fun _ _ v => v) id id id id 50 3) .unit)).run stackMach world).1 =
    .ok (.pair (.bundle [("simple_net/linear".toList, entry (fun _ _ _ => []) (keyNo (.root 7) 0) 50 128), ("simple_net/linear_1".toList, entry (fun _ _ _ => []) (keyNo (.root 7) 1) 128 64),
      ("simple_net/linear_2".toList, entry (fun _ _ _ => []) (keyNo (.root 7) 2) 64 3), ("simple_net/linear_3".toList, entry (fun _ _ _ => []) (keyNo (.root 7) 3) 64 1)]) (.bundle [])) :=
  simple_net_init _ _ _ _ _ _ _ _ ⟨rfl, rfl⟩ _ _

end SimpleNet

end Verif.Props.StraightLine
