import Verif.Lemmas.Control

/-!
# Relations preserved through stateful control flow

`Pres` is blind to what the copies made by `stateful.py` do.  `Trk` follows the data through them: a computation that returns ends
in an `R`-related state, one that raises in a `Q`-related state.
-/

set_option linter.unusedVariables false
set_option linter.unusedSectionVars false

namespace Verif
open Names Frame LW

variable {α β : Type}

/-- Which constructs a program may use. -/
structure Allow where
  /-- bodies of `try` -/
  catchBody : Prog → Prop
  /-- conditions of `while_loop` -/
  cond : Prog → Prop
  withRng : Prop
  evalShape : Prop
  /-- settings of `modules_with_named_call` -/
  named : Bool → Prop

/-- The program uses only what is allowed (programs of nested transforms are not restricted). -/
def Prog.ok (A : Allow) : Prog → Prop
  | .ret _ => True
  | .raise _ => True
  | .bind p k => p.ok A ∧ ∀ v, (k v).ok A
  | .tryCatch p h => A.catchBody p ∧ p.ok A ∧ ∀ e, (h e).ok A
  | .op _ => True
  | .withRng _ p => A.withRng ∧ p.ok A
  | .withHook _ p => p.ok A
  | .newModule _ ctor => ∀ id a, (ctor id a).ok A
  | .callMethod _ _ _ body => ∀ a, (body a).ok A
  | .nameScope _ p => p.ok A
  | .jit p => p.ok A
  | .cond _ t f => t.ok A ∧ f.ok A
  | .switch _ _ br => ∀ j, (br j).ok A
  | .scan f _ _ _ _ => ∀ c x, (f c x).ok A
  | .fori _ _ body _ => ∀ i v, (body i v).ok A
  | .whileLoop _ c body _ => (∀ v, A.cond (c v) ∧ (c v).ok A) ∧ ∀ v, (body v).ok A
  | .vmap f _ _ => ∀ v, (f v).ok A
  | .evalShape p => A.evalShape ∧ p.ok A
  | .initT _ _ => True
  | .applyT _ _ _ _ => True

/-- What holds between the state before and after, given how the computation ended. -/
def Rel (R Q : Bool → Loc → Loc → Prop) (s : LW) (r : Except Exc α × LW) : Prop :=
  match r with
  | (.ok _, s1) => R s.env.frozen s.loc s1.loc
  | (.error _, s1) => Q s.env.frozen s.loc s1.loc

/-- Where computations are followed from. -/
def Good (N : Bool → Prop) (s : LW) : Prop := s.loc.WF ∧ N s.env.namedCall

theorem Good.after {N : Bool → Prop} {s s1 : LW} (h : GrowL s s1) (hw : Good N s) : Good N s1 :=
  ⟨h.2.wf hw.1, by rw [show s1.env = s.env from h.1]; exact hw.2⟩

/-- Followed computations. -/
def Trk (N : Bool → Prop) (R Q : Bool → Loc → Loc → Prop) (m : M LW α) : Prop := Pres GrowL m ∧ ∀ s : LW, Good N s → Rel R Q s (m s)

/-- What `R` and `Q` must satisfy.  `Cd` is what is known about conditions of while loops. -/
structure Stable (A : Allow) (Cd : Loc → Loc → Prop) (R Q : Bool → Loc → Loc → Prop) : Prop where
  preord : ∀ f, Preord (R f)
  sub : ∀ {f s s'}, R f s s' → Q f s s'
  trans : ∀ {f a b c}, R f a b → Q f b c → Q f a c
  tol : ∀ E, Tol E (R E.frozen)
  sim : ∀ {f s s'} (sc sc' : List Scope) (h h' : List ModObj), R f s s' → R f { s with scopes := sc, heap := h } { s' with scopes := sc', heap := h' }
  simQ : ∀ {f s s'} (sc sc' : List Scope) (h h' : List ModObj), Q f s s' → Q f { s with scopes := sc, heap := h } { s' with scopes := sc', heap := h' }
  abort : ∀ {f s s'}, Q f s s' → Q f s { s with log := s'.log }
  newParams : ∀ {f} {s s' : Loc}, s.WF → Grow ⟨f, [], Hooks.none, false⟩ s s' → R f s s' → hasNewParams s.params s'.params = false →
    R f s { s' with params := s.params }
  caught : ∀ p, A.catchBody p → Trk A.named R R (p.run localMach)
  cond : ∀ p, A.cond p → ∀ s, Cd s.loc (p.run localMach s).2.loc
  whileEnd : ∀ {s s1 s2 : Loc}, s.WF → Cd s s1 → stateChanged s s1 = false →
    Grow ⟨true, [], Hooks.none, false⟩ s s1 → Grow ⟨true, [], Hooks.none, false⟩ s s2 →
    R true s s1 → R true { s with log := s1.log } s2 →
    R true s { s2 with params := s.params, state := updateRecursive s1.state (s2.state.mapVals fun _ b => b.mapVals fun _ v => some v) }
  whileQ : ∀ {s s1 s2 : Loc}, Cd s s1 → R true s s1 → Q true { s with log := s1.log } s2 → Q true s { s1 with log := s2.log }
  inRng : A.withRng → ∀ {f s s'} (q : PRNGSeq), R f { s with rng := some q } s' → R f s { s' with rng := s.rng }
  inRngQ : A.withRng → ∀ {f s s'} (q : PRNGSeq), Q f { s with rng := some q } s' → Q f s { s' with rng := s.rng }
  discard : A.evalShape → ∀ {f s s'}, R f s s' → R f s { s with log := s'.log }

theorem growBool {E : Env} {s s' : Loc} (h : Grow E s s') : Grow ⟨E.frozen, [], Hooks.none, false⟩ s s' :=
  ⟨h.wf, h.params, h.state, h.frozen, h.rng, h.depth⟩

section
variable {A : Allow} {Cd : Loc → Loc → Prop} {R Q : Bool → Loc → Loc → Prop} (S : Stable A Cd R Q)
include S

namespace Stable

theorem simR (f : Bool) (s s' t t' : Loc) (h : R f s s') (hs : t.params = s.params ∧ t.state = s.state ∧ t.rng = s.rng ∧ t.log = s.log ∧ t.trace = s.trace)
    (hs' : t'.params = s'.params ∧ t'.state = s'.state ∧ t'.rng = s'.rng ∧ t'.log = s'.log ∧ t'.trace = s'.trace) : R f t t' := by
  have := S.sim t.scopes t'.scopes t.heap t'.heap h
  obtain ⟨p, st, r, sc, hp, lg, tr⟩ := t
  obtain ⟨p', st', r', sc', hp', lg', tr'⟩ := t'
  obtain ⟨h1, h2, h3, h4, h5⟩ := hs
  obtain ⟨k1, k2, k3, k4, k5⟩ := hs'
  dsimp only at h1 h2 h3 h4 h5 k1 k2 k3 k4 k5
  subst h1 h2 h3 h4 h5 k1 k2 k3 k4 k5
  exact this

theorem simR' (f : Bool) (s s' t t' : Loc) (h : Q f s s') (hs : t.params = s.params ∧ t.state = s.state ∧ t.rng = s.rng ∧ t.log = s.log ∧ t.trace = s.trace)
    (hs' : t'.params = s'.params ∧ t'.state = s'.state ∧ t'.rng = s'.rng ∧ t'.log = s'.log ∧ t'.trace = s'.trace) : Q f t t' := by
  have := S.simQ t.scopes t'.scopes t.heap t'.heap h
  obtain ⟨p, st, r, sc, hp, lg, tr⟩ := t
  obtain ⟨p', st', r', sc', hp', lg', tr'⟩ := t'
  obtain ⟨h1, h2, h3, h4, h5⟩ := hs
  obtain ⟨k1, k2, k3, k4, k5⟩ := hs'
  dsimp only at h1 h2 h3 h4 h5 k1 k2 k3 k4 k5
  subst h1 h2 h3 h4 h5 k1 k2 k3 k4 k5
  exact this

theorem pure (a : α) : Trk A.named R Q (M.pure a : M LW α) := ⟨Pres.pure GrowL.preord a, fun s _ => (S.preord _).refl _⟩
theorem throw (e : Exc) : Trk A.named R Q (M.throw e : M LW α) := ⟨Pres.throw GrowL.preord e, fun s _ => S.sub ((S.preord _).refl _)⟩

theorem bind {m : M LW α} {f : α → M LW β} (hm : Trk A.named R Q m) (hf : ∀ a, Trk A.named R Q (f a)) : Trk A.named R Q (m >>- f) := by
  refine ⟨Pres.bind GrowL.preord hm.1 fun a => (hf a).1, fun s hw => ?_⟩
  have h1 := hm.1 s
  have h2 := hm.2 s hw
  unfold M.bind
  rcases hms : m s with ⟨e | a, s1⟩ <;> rw [hms] at h1 h2
  · exact h2
  · dsimp only
    have h3 := (hf a).2 s1 (.after h1 hw)
    rcases hfs : f a s1 with ⟨e | b, s2⟩ <;> rw [hfs] at h3
    · exact S.trans h2 (h1.1 ▸ h3)
    · exact (S.preord _).trans h2 (h1.1 ▸ h3)

omit S in
theorem bindR (O : ∀ f, Preord (R f)) {m : M LW α} {f : α → M LW β} (hm : Trk A.named R R m) (hf : ∀ a, Trk A.named R Q (f a)) (hs : ∀ {f s s'}, R f s s' → Q f s s')
    (ht : ∀ {f a b c}, R f a b → Q f b c → Q f a c) : Trk A.named R Q (m >>- f) := by
  refine ⟨Pres.bind GrowL.preord hm.1 fun a => (hf a).1, fun s hw => ?_⟩
  have h1 := hm.1 s
  have h2 := hm.2 s hw
  unfold M.bind
  rcases hms : m s with ⟨e | a, s1⟩ <;> rw [hms] at h1 h2
  · exact hs h2
  · dsimp only
    have h3 := (hf a).2 s1 (.after h1 hw)
    rcases hfs : f a s1 with ⟨e | b, s2⟩ <;> rw [hfs] at h3
    · exact ht h2 (h1.1 ▸ h3)
    · exact (O _).trans h2 (h1.1 ▸ h3)

theorem tryCatch {m : M LW α} {f : Exc → M LW α} (hm : Trk A.named R R m) (hf : ∀ a, Trk A.named R Q (f a)) : Trk A.named R Q (M.tryCatch m f) := by
  refine ⟨Pres.tryCatch GrowL.preord hm.1 fun a => (hf a).1, fun s hw => ?_⟩
  have h1 := hm.1 s
  have h2 := hm.2 s hw
  unfold M.tryCatch
  rcases hms : m s with ⟨e | a, s1⟩ <;> rw [hms] at h1 h2
  · dsimp only
    have h3 := (hf e).2 s1 (.after h1 hw)
    rcases hfs : f e s1 with ⟨e | b, s2⟩ <;> rw [hfs] at h3
    · exact S.trans h2 (h1.1 ▸ h3)
    · exact (S.preord _).trans h2 (h1.1 ▸ h3)
  · exact h2

/-- Anything that preserves `R` however it ends. -/
theorem ofPres {m : M LW α} (hg : Pres GrowL m) (h : ∀ s, R s.env.frozen s.loc (m s).2.loc) : Trk A.named R Q m := by
  refine ⟨hg, fun s _ => ?_⟩
  have := h s
  rcases hm : m s with ⟨e | a, s1⟩ <;> rw [hm] at this
  · exact S.sub this
  · exact this

theorem top {f : FOp α} (hg : Pres GrowL (localMach.top f)) (h : ∀ E, Pres (R E.frozen) (f E)) : Trk A.named R Q (localMach.top f) :=
  S.ofPres hg fun s => h s.env s.loc

theorem read {f : FOp α} (h : ∀ E, ReadOnly (f E)) : Trk A.named R Q (localMach.top f) :=
  S.top (GrowL.topPres.read f h) fun E => Pres.readOnly (S.preord _) (h E)

theorem op (o : Op) : Trk A.named R Q (localMach.top o.run) := S.top (GrowL.topPres.op o) fun E => pres_op (S.preord _) (S.tol E) o
theorem reserve : Trk A.named R Q (localMach.top fun _ => reserveFull) :=
  S.top GrowL.topPres.reserve fun E => pres_reserveFull (S.preord _) (S.tol E)
theorem alloc : Trk A.named R Q (localMach.top fun _ => allocModule) := S.top GrowL.topPres.alloc fun E => pres_alloc (S.preord _) (S.tol E)
theorem notify (self : ModId) (nm : Option Str) : Trk A.named R Q (localMach.top (Frame.notify self nm)) :=
  S.top (GrowL.topPres.notify self nm) fun E => pres_notify (S.preord _) (S.tol E) self nm

theorem ite {c : Prop} [Decidable c] {m n : M LW α} (hm : Trk A.named R Q m) (hn : Trk A.named R Q n) : Trk A.named R Q (if c then m else n) := by
  split
  · exact hm
  · exact hn

theorem inModule (ms : ModId × Str) {m : M LW α} (hm : Trk A.named R Q m) : Trk A.named R Q (localMach.inModule ms m) := by
  refine ⟨GrowL.blockPres.inModule ms m hm.1, fun s hw => ?_⟩
  have h := hm.2 ⟨{ s.env with modules := ms :: s.env.modules }, { s.loc with scopes := Scope.empty :: s.loc.scopes }⟩ hw
  show Rel R Q s (match m _ with | (a, s') => (a, _))
  rcases hms : m ⟨{ s.env with modules := ms :: s.env.modules }, { s.loc with scopes := Scope.empty :: s.loc.scopes }⟩ with ⟨e | a, s1⟩ <;>
    rw [hms] at h
  · exact S.simR' _ _ _ _ _ h ⟨rfl, rfl, rfl, rfl, rfl⟩ ⟨rfl, rfl, rfl, rfl, rfl⟩
  · exact S.simR _ _ _ _ _ h ⟨rfl, rfl, rfl, rfl, rfl⟩ ⟨rfl, rfl, rfl, rfl, rfl⟩

theorem inHook (hk : HookPush) {m : M LW α} (hm : Trk A.named R Q m) : Trk A.named R Q (localMach.inHook hk m) := by
  refine ⟨GrowL.blockPres.inHook hk m hm.1, fun s hw => ?_⟩
  have h := hm.2 { s with env := { s.env with hooks := World.pushHook s.env.hooks hk } } hw
  show Rel R Q s (match m _ with | (a, s') => (a, _))
  rcases hms : m { s with env := { s.env with hooks := World.pushHook s.env.hooks hk } } with ⟨e | a, s1⟩ <;>
    rw [hms] at h
  · exact h
  · exact h

theorem inRngM (ha : A.withRng) (q : PRNGSeq) {m : M LW α} (hm : Trk A.named R Q m) : Trk A.named R Q (localMach.inRng q m) := by
  refine ⟨GrowL.blockPres.inRng q m hm.1, fun s hw => ?_⟩
  have h := hm.2 { s with loc := { s.loc with rng := some q } } hw
  show Rel R Q s (match m _ with | (a, s') => (a, _))
  rcases hms : m { s with loc := { s.loc with rng := some q } } with ⟨e | a, s1⟩ <;>
    rw [hms] at h
  · exact S.inRngQ ha q h
  · exact S.inRng ha q h

theorem inCtx (c : Ctx) (m : M LW α) : Trk A.named R Q (localMach.inCtx c m) :=
  ⟨fun s => ⟨rfl, Grow.of_same rfl rfl rfl rfl⟩, fun s _ =>
    S.simR s.env.frozen s.loc s.loc s.loc _ ((S.preord _).refl _) ⟨rfl, rfl, rfl, rfl, rfl⟩ ⟨rfl, rfl, rfl, rfl, rfl⟩⟩

theorem relBack {s s1 : LW} (h : Q s.env.frozen s.loc s1.loc) : Q s.env.frozen s.loc (s.back s1).loc :=
  S.simR' _ _ _ _ _ (S.abort h) ⟨rfl, rfl, rfl, rfl, rfl⟩ ⟨rfl, rfl, rfl, rfl, rfl⟩

theorem atomic {m : M LW α} (hm : Trk A.named R Q m) : Trk A.named R Q (atomic m) := by
  refine ⟨Pres.atomic hm.1, fun s hw => ?_⟩
  have h := hm.2 s hw
  unfold Verif.atomic
  rcases hms : m s with ⟨e | a, s1⟩ <;> rw [hms] at h
  · exact S.relBack h
  · exact h

theorem rescoped {m : M LW α} (hm : Trk A.named R Q m) : Trk A.named R Q (rescoped m) := by
  refine ⟨Pres.rescoped hm.1, fun s hw => ?_⟩
  have h := hm.2 s hw
  unfold Verif.rescoped
  rcases hms : m s with ⟨e | a, s1⟩ <;> rw [hms] at h
  · exact S.simR' _ _ _ _ _ h ⟨rfl, rfl, rfl, rfl, rfl⟩ ⟨rfl, rfl, rfl, rfl, rfl⟩
  · exact S.simR _ _ _ _ _ h ⟨rfl, rfl, rfl, rfl, rfl⟩ ⟨rfl, rfl, rfl, rfl, rfl⟩

theorem thenFull {m : M LW α} (hm : Trk A.named R Q m) : Trk A.named R Q (thenFull m) :=
  S.bind hm fun _ => S.bind S.reserve fun _ => S.pure _

omit S in
/-- A computation equal to a followed one on well-formed states. -/
theorem congr {m m' : M LW α} (hg : Pres GrowL m') (h : ∀ s, s.loc.WF → m' s = m s) (hm : Trk A.named R Q m) : Trk A.named R Q m' :=
  ⟨hg, fun s hw => by rw [h s hw.1]; exact hm.2 s hw⟩

theorem jitM {m : M LW Val} (hm : Trk A.named R Q m) : Trk A.named R Q (jitM localMach m) :=
  congr (pres_jitM GrowL.preord GrowL.topPres GrowL.blockPres hm.1) (fun s hw => jitM_eq hm.1 hw) (S.atomic (S.rescoped hm))

theorem runInterceptors {self : ModId} {method : Str} {body : Val → M LW Val} (hb : ∀ v, Trk A.named R Q (body v)) :
    ∀ (is : List Interceptor) (args : Val), Trk A.named R Q (runInterceptors self method body is args) := by
  intro is
  induction is with
  | nil => exact hb
  | cons i is ih =>
    intro args
    unfold Verif.runInterceptors
    cases i self method args with
    | done v => exact S.pure v
    | raise e => exact S.throw e
    | next a post => exact S.bind (ih a) fun v => S.pure _
    | orig a post => exact S.bind (hb a) fun v => S.pure _

theorem wrapMethod {self : ModId} {method : Str} {args : Val} {body : Val → M LW Val} (hb : ∀ v, Trk A.named R Q (body v)) :
    Trk A.named R Q (wrapMethod localMach self method args body) :=
  S.inModule _ (S.bind (S.read fun E => ReadOnly.bind (readOnly_getModuleName self) fun _ => ReadOnly.pure _) fun r =>
    have hi := S.runInterceptors (self := self) (method := method) hb r.2.1 args
    S.bind (S.ite (S.jitM hi) hi) fun v => S.bind (S.notify _ _) fun _ => S.pure _)

theorem construct {args : Val} {ctor : ModId → Val → M LW Val} (hc : ∀ i v, Trk A.named R Q (ctor i v)) : Trk A.named R Q (construct localMach args ctor) :=
  S.bind S.alloc fun id => S.bind (S.wrapMethod (hc id)) fun _ => S.bind (S.read fun _ => readOnly_checkCtor id) fun _ => S.pure _

theorem nameScopeCtor : ∀ parts : List Str, Trk A.named R Q (nameScopeCtor localMach parts)
  | [] => S.throw _
  | [n] => S.construct fun _ _ => S.op _
  | n :: m :: ns => S.bind (S.construct fun _ _ => S.op _) fun id => S.inModule _ (nameScopeCtor (m :: ns))

theorem nameScopeM {name : Str} {m : M LW Val} (hm : Trk A.named R Q m) : Trk A.named R Q (nameScopeM localMach name m) :=
  S.bind (S.read fun _ => ReadOnly.pure _) fun _ => S.ite (S.throw _) (S.bind (S.nameScopeCtor _) fun id => S.inModule _ hm)

theorem ofFull {s : LW} {r : Except Exc α × LW} (h : Rel R Q s.full r) : Rel R Q s r := by
  have h0 : R s.env.frozen s.loc s.full.loc := pres_reserveFull (S.preord _) (S.tol s.env) s.loc
  obtain ⟨e | a, s1⟩ := r
  · exact S.trans h0 h
  · exact (S.preord _).trans h0 h

theorem relChoose {i : Nat} {os : List (Except Exc Val × LW)} {s : LW} (h : ∀ o ∈ os, Rel R Q s o) : Rel R Q s (choose i os s) := by
  have hr : ∀ e, Rel R Q s ((Except.error e : Except Exc Val), s) := fun e => S.sub ((S.preord _).refl _)
  unfold choose
  split
  · next o ho => exact h o (List.mem_of_find?_eq_some ho)
  · split
    · exact hr _
    · next o ho =>
      split
      · exact h o (List.mem_of_getElem? ho)
      · exact hr _

theorem switchM {i : Nat} {ms : List (M LW Val)} (hms : ∀ m ∈ ms, Trk A.named R Q m) : Trk A.named R Q (switchM localMach i ms) := by
  refine ⟨pres_switchM GrowL.preord GrowL.topPres GrowL.blockPres fun m hm => (hms m hm).1, fun s hw => ?_⟩
  rw [switchM_eq (fun m hm => (hms m hm).1) hw.1]
  refine S.ofFull (S.relChoose fun o ho => ?_)
  obtain ⟨m, hm, rfl⟩ := List.mem_map.1 ho
  exact (S.atomic (S.rescoped (S.thenFull (hms m hm)))).2 s.full hw

theorem iter {m : M LW Val} (hm : Trk A.named R Q m) (v : Val) : Trk A.named R Q (iter m v) := by
  refine ⟨fun s => (iter_props hm.1 v s).1, fun s hw => ?_⟩
  have h := (S.rescoped (S.thenFull hm)).2 s hw
  unfold Verif.iter
  rcases hs : Verif.rescoped (Verif.thenFull m) s with ⟨e | a, s1⟩ <;> rw [hs] at h
  · exact h
  · dsimp only
    split
    · exact h
    · exact S.sub h

theorem iterate {body : Int → Val → M LW Val} (hb : ∀ i v, Trk A.named R Q (body i v)) : ∀ n i v, Trk A.named R Q (iterate body n i v)
  | 0, _, v => S.pure v
  | n + 1, i, v => S.bind (S.iter (hb i v) v) fun v' => iterate hb n (i + 1) v'

theorem foriTail {body : Int → Val → M LW Val} (hb : ∀ i v, Trk A.named R Q (body i v)) (lo up : Int) (init : Val) :
    Trk A.named R Q (foriTail localMach lo up body init) := by
  refine ⟨pres_foriTail GrowL.preord GrowL.topPres GrowL.blockPres (fun i v => (hb i v).1) _ _ _, fun s hw => ?_⟩
  rw [foriTail_eq (fun i v => (hb i v).1) _ _ _ hw.1]
  exact S.ofFull ((S.atomic (S.iterate hb _ _ _)).2 s.full hw)

theorem foriM {body : Int → Val → M LW Val} (hb : ∀ i v, Trk A.named R Q (body i v)) (lo up : Int) (init : Val) :
    Trk A.named R Q (foriM localMach lo up body init) :=
  S.bind (S.read fun _ => ReadOnly.pure _) fun _ =>
    S.ite (S.foriTail hb _ _ _) (S.bind (hb _ _) fun _ => S.ite (S.pure _) (S.foriTail hb _ _ _))

theorem asPair (v : Val) : Trk A.named R Q (asPair v : M LW _) := by
  cases v <;> first | exact S.pure _ | exact S.throw _

omit S in
/-- What is left of `Q` once the data is put back. -/
def Undone (Q : Bool → Loc → Loc → Prop) (f : Bool) (s s' : Loc) : Prop := Q f s { s with log := s'.log }

theorem bindU {m : M LW α} {f : α → M LW β} (hm : Trk A.named R (Undone Q) m) (hf : ∀ a, Trk A.named R (Undone Q) (f a)) : Trk A.named R (Undone Q) (m >>- f) := by
  refine ⟨Pres.bind GrowL.preord hm.1 fun a => (hf a).1, fun s hw => ?_⟩
  have h1 := hm.1 s
  have h2 := hm.2 s hw
  unfold M.bind
  rcases hms : m s with ⟨e | a, s1⟩ <;> rw [hms] at h1 h2
  · exact h2
  · dsimp only
    have h3 := (hf a).2 s1 (.after h1 hw)
    rcases hfs : f a s1 with ⟨e | b, s2⟩ <;> rw [hfs] at h3
    · have h4 : Q s1.env.frozen s1.loc { s1.loc with log := s2.loc.log } := h3
      have h5 : s1.env.frozen = s.env.frozen := by rw [show s1.env = s.env from h1.1]
      rw [h5] at h4
      have h6 := S.abort (S.trans (show R s.env.frozen s.loc s1.loc from h2) h4)
      exact h6
    · exact (S.preord _).trans h2 (h1.1 ▸ h3)

theorem pureU (a : α) : Trk A.named R (Undone Q) (M.pure a : M LW α) := ⟨Pres.pure GrowL.preord a, fun s _ => (S.preord _).refl _⟩

theorem iterP {m : M LW Val} (hm : Trk A.named R Q m) (v : Val) : Trk A.named R (Undone Q) (iterP m v) := by
  refine ⟨fun s => (iterP_props hm.1 v s).1, fun s hw => ?_⟩
  have hb := S.bind hm fun v => S.asPair v
  have h := hb.2 s hw
  have hg := hb.1 s
  have hq : ∀ s1 : LW, Q s.env.frozen s.loc s1.loc → Undone Q s.env.frozen s.loc (s.commitN s1).loc := fun s1 h =>
    show Q s.env.frozen s.loc { s.loc with log := s1.loc.log } from S.abort h
  unfold Verif.iterP
  rcases hs : (m >>- Verif.asPair) s with ⟨e | a, s1⟩ <;> rw [hs] at h hg
  · exact hq _ h
  · dsimp only
    split
    · exact hq _ (S.sub h)
    · next hn =>
      split
      · have hf := S.newParams hw.1 (growBool hg.2) h (by simpa using hn)
        have h0 := (S.preord s.env.frozen).trans hf (pres_reserveFull (S.preord _) (S.tol s.env) _)
        exact S.simR _ _ _ _ _ h0 ⟨rfl, rfl, rfl, rfl, rfl⟩ ⟨rfl, rfl, rfl, rfl, rfl⟩
      · exact hq _ (S.sub h)

theorem iterList {f : Val → Val → M LW Val} (hb : ∀ i v, Trk A.named R Q (f i v)) : ∀ xs c, Trk A.named R (Undone Q) (iterList f xs c)
  | [], _ => S.pureU _
  | _ :: xs, _ => S.bindU (S.iterP (hb _ _) _) fun _ => S.bindU (iterList hb xs _) fun _ => S.pureU _

theorem atomicU {m : M LW α} (hm : Trk A.named R (Undone Q) m) {s : LW} (hw : Good A.named s) : Rel R Q s (Verif.atomic m s) := by
  have h := hm.2 s hw
  unfold Verif.atomic
  rcases hs : m s with ⟨e | a, s1⟩ <;> rw [hs] at h
  · exact S.simR' _ _ _ _ _ h ⟨rfl, rfl, rfl, rfl, rfl⟩ ⟨rfl, rfl, rfl, rfl, rfl⟩
  · exact h

theorem scanTail {f : Val → Val → M LW Val} (hb : ∀ i v, Trk A.named R Q (f i v)) (c : Val) (xs : List Val) (rev : Bool) :
    Trk A.named R Q (scanTail localMach f c xs rev) := by
  refine ⟨pres_scanTail GrowL.preord GrowL.topPres GrowL.blockPres (fun i v => (hb i v).1) _ _ _, fun s hw => ?_⟩
  rw [scanTail_eq (fun i v => (hb i v).1) _ _ _ hw.1]
  exact S.ofFull (S.atomicU (S.bindU (S.iterList hb _ _) fun _ => S.pureU _) (s := s.full) hw)

theorem scanM {f : Val → Val → M LW Val} (hf : ∀ i v, Trk A.named R Q (f i v)) (init zero : Val) (xs : List Val) (rev : Bool) :
    Trk A.named R Q (scanM localMach f init zero xs rev) := by
  refine S.bind (S.read fun _ => ReadOnly.pure _) fun fr => S.ite (S.bind (S.scanTail hf _ _ _) fun _ => S.pure _) ?_
  split
  · exact S.bind (hf _ _) fun r => S.bind (S.asPair r) fun _ => S.pure _
  · refine S.bind (hf _ _) fun r => S.bind (S.asPair r) fun cy => ?_
    dsimp only
    generalize (if rev = true then xs.dropLast else xs.tail) = ys
    exact S.ite (S.pure _) (S.bind (S.scanTail hf _ _ _) fun _ => S.pure _)

theorem collect {st : IState} {s : LW} {f : Val → M LW Val} (hw : Good A.named s) (hf : ∀ v, Trk A.named R Q (f v)) :
    ∀ xs e s', collect st s f xs = .error (e, s') → Q s.env.frozen s.loc s'.loc := by
  intro xs
  induction xs with
  | nil => intro e s' h; simp [Verif.collect] at h
  | cons x xs ih =>
    intro e s' h
    have h0 := (hf x).2 s hw
    unfold Verif.collect at h
    rcases hs : f x s with ⟨e1 | v, s1⟩ <;> rw [hs] at h h0
    · simp only [Except.error.injEq, Prod.mk.injEq] at h
      rw [← h.2]; exact S.relBack h0
    · dsimp only at h
      split at h
      · rcases hr : Verif.collect st s f xs with x | vs <;> rw [hr] at h
        · simp only [Except.error.injEq] at h
          exact ih e s' (by rw [hr, h])
        · simp at h
      · simp only [Except.error.injEq, Prod.mk.injEq] at h
        rw [← h.2]; exact S.relBack (S.sub h0)

theorem vmapM {f : Val → M LW Val} (hf : ∀ v, Trk A.named R Q (f v)) (x : Val) (xs : List Val) : Trk A.named R Q (vmapM localMach f x xs) := by
  refine ⟨pres_vmapM GrowL.preord GrowL.topPres GrowL.blockPres (fun v => (hf v).1) _ _, fun s hw => ?_⟩
  rw [vmapM_eq (fun v => (hf v).1) _ _ hw.1]
  have h := (hf x).2 s hw
  rcases hs : f x s with ⟨e | v, s1⟩ <;> rw [hs] at h
  · exact S.relBack h
  · dsimp only
    rcases hr : Verif.collect s1.ist s f xs with ⟨e, s'⟩ | vs
    · exact S.collect hw hf xs e s' hr
    · exact S.simR _ _ _ _ _ h ⟨rfl, rfl, rfl, rfl, rfl⟩ ⟨rfl, rfl, rfl, rfl, rfl⟩

theorem evalShapeM (ha : A.evalShape) {m : M LW Val} (hm : Trk A.named R Q m) : Trk A.named R Q (evalShapeM localMach m) := by
  refine ⟨pres_evalShapeM GrowL.preord GrowL.topPres GrowL.blockPres hm.1, fun s hw => ?_⟩
  rw [evalShapeM_eq]
  have h := hm.2 s hw
  rcases hs : m s with ⟨e | v, s1⟩ <;> rw [hs] at h
  · exact S.relBack h
  · exact S.simR _ _ _ _ _ (S.discard ha h) ⟨rfl, rfl, rfl, rfl, rfl⟩ ⟨rfl, rfl, rfl, rfl, rfl⟩

theorem whileCond {c : Val → M LW Val} (hc : ∀ v, Trk A.named R Q (c v)) (v : Val) : Trk A.named R Q (whileCond localMach c v) := by
  refine S.bind (S.read fun _ => ReadOnly.get) fun _ => S.bind (hc v) fun r => S.bind (S.read fun _ => ReadOnly.get) fun _ =>
    S.ite (S.throw _) ?_
  cases r <;> first | exact S.pure _ | exact S.throw _

omit S in
theorem whileCond_ok {c : Val → M LW Val} {v : Val} {s s1 : LW} {b : Bool} (h : Verif.whileCond localMach c v s = (.ok b, s1)) :
    c v s = (.ok (.bool b), s1) ∧ stateChanged s.loc s1.loc = false := by
  unfold Verif.whileCond at h
  rw [M.bind, top_eq] at h
  dsimp only [M.get] at h
  rw [M.bind] at h
  rcases hc : c v s with ⟨e | r, s2⟩ <;> rw [hc] at h
  · simp at h
  · dsimp only at h
    rw [M.bind, top_eq] at h
    dsimp only [M.get] at h
    by_cases hch : stateChanged s.loc s2.loc = true
    · rw [if_pos hch] at h
      simp [M.throw] at h
    · rw [if_neg hch] at h
      cases r <;> simp [M.throw, M.pure] at h
      obtain ⟨rfl, rfl⟩ := h
      exact ⟨rfl, by simpa using hch⟩

theorem iterW {m : M LW Val} (hm : Trk A.named R Q m) (v : Val) : Trk A.named R Q (iterW m v) := by
  refine ⟨fun s => (iterW_props hm.1 v s).1, fun s hw => ?_⟩
  have h := (S.rescoped hm).2 s hw
  unfold Verif.iterW
  rcases hs : Verif.rescoped m s with ⟨e | a, s1⟩ <;> rw [hs] at h
  · exact h
  · dsimp only
    split
    · exact h
    · exact S.sub h

theorem iterWhile {c : Val → Except Exc Bool × LW} {body : Val → M LW Val} (hb : ∀ v, Trk A.named R Q (body v)) {s o : LW}
    (hc : ∀ v e s', c v = (.error e, s') → Q true s.loc s'.loc)
    (ho : ∀ s' : LW, s'.env.frozen = true → Q true { s.loc with log := o.loc.log } s'.loc → Q true s.loc { o.loc with log := s'.loc.log }) :
    ∀ n v s', s'.env.frozen = true → Good A.named s' → GrowL { s with loc := { s.loc with log := o.loc.log } } s' →
      R true { s.loc with log := o.loc.log } s'.loc →
      match iterWhile c body o n v s' with
      | (.ok _, s2) => R true { s.loc with log := o.loc.log } s2.loc ∧ GrowL { s with loc := { s.loc with log := o.loc.log } } s2
      | (.error _, s2) => Q true s.loc s2.loc := by
  intro n
  have hbk : ∀ s' : LW, s'.env.frozen = true → Q true { s.loc with log := o.loc.log } s'.loc → Q true s.loc (o.back s').loc := fun s' h1 h2 =>
    S.simR' _ _ _ _ _ (ho s' h1 h2) ⟨rfl, rfl, rfl, rfl, rfl⟩ ⟨rfl, rfl, rfl, rfl, rfl⟩
  induction n with
  | zero => intro v s' hf hw hg h; exact hbk _ hf (S.sub h)
  | succ n ih =>
    intro v s' hf hw hg h
    unfold Verif.iterWhile
    rcases hcv : c v with ⟨e | b, s1⟩
    · exact hc v e s1 hcv
    · cases b with
      | false => exact ⟨h, hg⟩
      | true =>
        dsimp only
        have h1 := (S.iterW (hb v) v).2 s' hw
        have h2 := (S.iterW (hb v) v).1 s'
        rcases hi : Verif.iterW (body v) v s' with ⟨e | v', s1⟩ <;> rw [hi] at h1 h2
        · unfold Rel at h1
          dsimp only at h1
          rw [hf] at h1
          exact hbk _ ((congrArg Env.frozen h2.1).trans hf) (S.trans h h1)
        · unfold Rel at h1
          dsimp only at h1
          rw [hf] at h1
          exact ih v' s1 ((congrArg Env.frozen h2.1).trans hf) (.after h2 hw) (GrowL.preord.trans hg h2) ((S.preord _).trans h h1)

theorem whileM {c body : Val → M LW Val} (hc : ∀ v, Trk A.named R Q (c v)) (hcd : ∀ v s, Cd s.loc (c v s).2.loc) (hb : ∀ v, Trk A.named R Q (body v))
    (fuel : Nat) (init : Val) : Trk A.named R Q (whileM localMach fuel c body init) := by
  refine ⟨pres_whileM GrowL.preord GrowL.topPres GrowL.blockPres (fun v => (hc v).1) (fun v => (hb v).1) _ _, fun s hw => ?_⟩
  rw [whileM_eq (fun v => (hc v).1) (fun v => (hb v).1)]
  rcases hf : s.env.frozen with _ | _
  · exact S.sub ((S.preord _).refl _)
  · rw [if_pos rfl]
    have hwc := fun v => (S.whileCond hc v).2 s hw
    have hg1 := (S.whileCond hc init).1 s
    have h1 := hwc init
    rcases hci : Verif.whileCond localMach c init s with ⟨e | b, s1⟩ <;> rw [hci] at h1 hg1
    · exact h1
    · dsimp only
      obtain ⟨hcv, hch⟩ := whileCond_ok hci
      have hcd1 : Cd s.loc s1.loc := by
        have := hcd init s
        rwa [hcv] at this
      have hR1 : R true s.loc s1.loc := by
        unfold Rel at h1
        dsimp only at h1
        rwa [hf] at h1
      have hgg : GrowL { s with loc := { s.loc with log := s1.loc.log } }
          { s with loc := { s.loc with scopes := s1.loc.scopes, heap := s1.loc.heap, log := s1.loc.log } } :=
        ⟨rfl, Grow.of_same rfl rfl rfl hg1.2.depth⟩
      have key := S.iterWhile (c := fun v => Verif.whileCond localMach c v s) hb (s := s) (o := s1)
        (fun v e s' h => by
          have := hwc v
          rw [h] at this
          unfold Rel at this
          dsimp only at this
          rwa [hf] at this)
        (fun s' _ h => S.whileQ hcd1 hR1 h) fuel init
        { s with loc := { s.loc with scopes := s1.loc.scopes, heap := s1.loc.heap, log := s1.loc.log } } hf hw hgg
        (S.simR _ _ _ _ _ ((S.preord true).refl { s.loc with log := s1.loc.log }) ⟨rfl, rfl, rfl, rfl, rfl⟩ ⟨rfl, rfl, rfl, rfl, rfl⟩)
      rcases hi : Verif.iterWhile (fun v => Verif.whileCond localMach c v s) body s1 fuel init
        { s with loc := { s.loc with scopes := s1.loc.scopes, heap := s1.loc.heap, log := s1.loc.log } } with ⟨e | v, s2⟩ <;> rw [hi] at key
      · unfold Rel
        dsimp only
        rw [hf]
        exact key
      · obtain ⟨k1, k2⟩ := key
        unfold Rel
        dsimp only
        rw [hf]
        have g1 : Grow ⟨true, [], Hooks.none, false⟩ s.loc s1.loc := by have := growBool hg1.2; rwa [hf] at this
        have g2 : Grow ⟨true, [], Hooks.none, false⟩ s.loc s2.loc := by
          have := growBool k2.2
          have e : (⟨s.env, { s.loc with log := s1.loc.log }⟩ : LW).env.frozen = true := hf
          rw [e] at this
          exact ⟨this.wf, this.params, this.state, this.frozen, this.rng, this.depth⟩
        refine S.simR _ _ _ _ _ (S.whileEnd hw.1 hcd1 hch g1 g2 hR1 k1) ⟨rfl, rfl, rfl, rfl, rfl⟩ ?_
        have hE : s1.env.frozen = true := (congrArg Env.frozen hg1.1).trans hf
        have hp1 := g1.frozen rfl
        have hp2 := g2.frozen rfl
        have hr : s2.loc.rng.isSome = s1.loc.rng.isSome := g2.rng.trans g1.rng.symm
        unfold LW.whileEnd
        rw [top_eq, updateInternalState_eq]
        obtain ⟨E1, q1⟩ := s1
        obtain ⟨E2, q2⟩ := s2
        obtain ⟨p1, st1, r1, sc1, hh1, lg1, tr1⟩ := q1
        obtain ⟨p2, st2, r2, sc2, hh2, lg2, tr2⟩ := q2
        dsimp only at hE hp1 hp2 hr
        refine ⟨?_, rfl, ?_, rfl, rfl⟩
        · exact (if_pos hE).trans hp1
        · dsimp only [LW.back, LW.ist, IState.full]
          cases r1 <;> cases r2 <;> first | rfl | (simp at hr)

theorem inRngTop (ha : A.withRng) {r : RngArg} {m : M LW Val} (hm : Trk A.named R Q m) : Trk A.named R Q (localMach.top (fun _ => M.pure ()) >>- fun _ =>
    match r.seq with
    | .error e => M.throw e
    | .ok q => localMach.inRng q m) := by
  refine S.bind (S.read fun _ => ReadOnly.pure _) fun _ => ?_
  split
  · exact S.throw _
  · exact S.inRngM ha _ hm

theorem initM (rng : RngArg) (m : M LW Val) : Trk A.named R Q (initM localMach rng m) := by
  unfold Verif.initM
  split
  · exact S.throw _
  · refine S.bind (S.inCtx _ _) fun q => ?_
    split
    · exact S.throw _
    · exact S.pure _

theorem applyM (params state : Option PDict) (rng : RngArg) (m : M LW Val) : Trk A.named R Q (applyM localMach params state rng m) := by
  unfold Verif.applyM
  split
  · exact S.throw _
  · refine S.bind (S.inCtx _ _) fun q => ?_
    split
    · exact S.throw _
    · exact S.pure _

/-- A stable relation holds between the states before and after every allowed program. -/
theorem run (p : Prog) : p.ok A → Trk A.named R Q (p.run localMach) := by
  induction p with
  | ret v => exact fun _ => S.pure v
  | raise e => exact fun _ => S.throw e
  | bind p k ihp ihk => exact fun h => S.bind (ihp h.1) fun v => ihk v (h.2 v)
  | tryCatch p f ihp ihh => exact fun h => S.tryCatch (S.caught p h.1) fun e => ihh e (h.2.2 e)
  | op o => exact fun _ => S.op o
  | withRng r p ih => exact fun h => S.inRngTop h.1 (ih h.2)
  | withHook hk p ih => exact fun h => S.bind (S.read fun _ => ReadOnly.pure _) fun _ => S.inHook _ (ih h)
  | newModule args ctor ih => exact fun h => S.bind (S.construct fun i v => ih i v (h i v)) fun _ => S.pure _
  | callMethod self method args body ih => exact fun h => S.wrapMethod fun v => ih v (h v)
  | nameScope name p ih => exact fun h => S.nameScopeM (ih h)
  | jit p ih => exact fun h => S.jitM (ih h)
  | cond b t f iht ihf => exact fun h => S.switchM (by simp [iht h.1, ihf h.2])
  | switch i n br ih =>
    intro h
    refine S.switchM fun m hm => ?_
    obtain ⟨j, _, rfl⟩ := List.mem_map.1 hm
    exact ih j (h j)
  | scan f init zero xs rev ih => exact fun h => S.scanM (fun c x => ih c x (h c x)) _ _ _ _
  | fori lo up body init ih => exact fun h => S.foriM (fun c x => ih c x (h c x)) _ _ _
  | whileLoop fuel c body init ihc ihb =>
    exact fun h => S.whileM (fun v => ihc v (h.1 v).2) (fun v s => S.cond _ (h.1 v).1 s) (fun v => ihb v (h.2 v)) _ _
  | vmap f x xs ih => exact fun h => S.vmapM (fun v => ih v (h v)) _ _
  | evalShape p ih => exact fun h => S.evalShapeM h.1 (ih h.2)
  | initT rng p ih => exact fun _ => S.initM _ _
  | applyT params state rng p ih => exact fun _ => S.applyM _ _ _ _

end Stable
end
end Verif
