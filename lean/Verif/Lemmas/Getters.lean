import Verif.Lemmas.InitApply

/-!
# Runs with different getters

Two runs that differ in the active getters only, and in the values the program read, leave the same data if both return.
-/

set_option linter.unusedVariables false

namespace Verif
open Names Frame LW

variable {α β γ : Type}

/-- An interceptor whose decision does not depend on the arguments. -/
def Steady (i : Interceptor) : Prop := ∀ self method a a',
  match i self method a, i self method a' with
  | .done _, .done _ => True
  | .raise e, .raise e' => e = e'
  | .next _ _, .next _ _ => True
  | .orig _ _, .orig _ _ => True
  | _, _ => False

/-- The surroundings agree except for the getters. -/
structure EnvSame (E E' : Env) : Prop where
  frozen : E'.frozen = E.frozen
  modules : E'.modules = E.modules
  named : E'.namedCall = E.namedCall
  paramCreators : E'.hooks.paramCreators = E.hooks.paramCreators
  stateCreators : E'.hooks.stateCreators = E.hooks.stateCreators
  interceptors : E'.hooks.interceptors = E.hooks.interceptors

/-- The surroundings agree except for the getters, and interceptors are steady. -/
structure EnvNear (E E' : Env) : Prop extends EnvSame E E' where
  steady : ∀ i ∈ E.hooks.interceptors, Steady i

/-- Equal data in surroundings that agree except for the getters. -/
def Near (s t : LW) : Prop := t.loc = s.loc ∧ EnvNear s.env t.env

/-- Equal, if `e` says so. -/
def Tied (e : Bool) (a b : α) : Prop := e = true → b = a

/-- Lists of the same length, equal if `e` says so. -/
def TiedL (e : Bool) (a b : List α) : Prop := b.length = a.length ∧ Tied e a b

/-- If both return, the results are related and the data is the same. -/
def Obl (R : α → α → Prop) (m n : M LW α) : Prop := ∀ s t, Near s t → ∀ v s' v' t', m s = (.ok v, s') → n t = (.ok v', t') →
  R v v' ∧ t'.loc = s'.loc ∧ s'.env = s.env ∧ t'.env = t.env

theorem Tied.refl {e : Bool} (a : α) : Tied e a a := fun _ => rfl
theorem Tied.map {e : Bool} {a b : α} (h : Tied e a b) (f : α → β) : Tied e (f a) (f b) := fun k => congrArg f (h k)
theorem Tied.map2 {e : Bool} {a b : α} {c d : β} (h : Tied e a b) (k : Tied e c d) (f : α → β → γ) : Tied e (f a c) (f b d) := fun x => by rw [h x, k x]
theorem Tied.any {a b : α} : Tied false a b := fun h => by cases h

theorem Near.after {s t s' t' : LW} (h : Near s t) (hl : t'.loc = s'.loc) (h1 : s'.env = s.env) (h2 : t'.env = t.env) : Near s' t' :=
  ⟨hl, by rw [h1, h2]; exact h.2⟩

namespace Obl

theorem pure {R : α → α → Prop} {a b : α} (h : R a b) : Obl R (M.pure a) (M.pure b) := by
  intro s t hn v s' v' t' h1 h2
  cases h1; cases h2
  exact ⟨h, hn.1, rfl, rfl⟩

theorem throwL {R : α → α → Prop} {e : Exc} {n : M LW α} : Obl R (M.throw e) n := by
  intro s t hn v s' v' t' h1 h2
  cases h1

theorem throwR {R : α → α → Prop} {e : Exc} {n : M LW α} : Obl R n (M.throw e) := by
  intro s t hn v s' v' t' h1 h2
  cases h2

theorem bind {R : α → α → Prop} {Q : β → β → Prop} {m n : M LW α} {f g : α → M LW β} (hm : Obl R m n) (hf : ∀ a b, R a b → Obl Q (f a) (g b)) :
    Obl Q (m >>- f) (n >>- g) := by
  intro s t hn v s' v' t' h1 h2
  obtain ⟨a, s1, h1, h3⟩ := bind_ok h1
  obtain ⟨b, t1, h2, h4⟩ := bind_ok h2
  obtain ⟨hr, hl, e1, e2⟩ := hm s t hn _ _ _ _ h1 h2
  obtain ⟨hr', hl', e1', e2'⟩ := hf a b hr s1 t1 (hn.after hl e1 e2) _ _ _ _ h3 h4
  exact ⟨hr', hl', e1'.trans e1, e2'.trans e2⟩

theorem weaken {R Q : α → α → Prop} {m n : M LW α} (h : Obl R m n) (hq : ∀ a b, R a b → Q a b) : Obl Q m n :=
  fun s t hn _ _ _ _ h1 h2 => ⟨hq _ _ (h s t hn _ _ _ _ h1 h2).1, (h s t hn _ _ _ _ h1 h2).2⟩

theorem top {f : FOp α} (hf : ∀ E E', EnvSame E E' → f E' = f E) : Obl Eq (localMach.top f) (localMach.top f) := by
  intro s t hn v s' v' t' h1 h2
  rw [top_eq] at h1 h2
  rw [hn.1, hf _ _ hn.2.toEnvSame] at h2
  obtain ⟨a1, a2⟩ := Prod.mk.inj h1
  obtain ⟨b1, b2⟩ := Prod.mk.inj h2
  subst a2 b2
  refine ⟨?_, rfl, rfl, rfl⟩
  rw [a1] at b1
  exact Except.ok.inj b1

theorem inModule (ms : ModId × Str) {R : α → α → Prop} {m n : M LW α} (h : Obl R m n) : Obl R (localMach.inModule ms m) (localMach.inModule ms n) := by
  intro s t hn v s' v' t' h1 h2
  have key : ∀ (m : M LW α) s, localMach.inModule ms m s = LW.inModule ms m s := fun _ _ => rfl
  rw [key] at h1 h2
  unfold LW.inModule at h1 h2
  obtain ⟨E, l⟩ := s
  obtain ⟨E', l'⟩ := t
  obtain ⟨hl, he⟩ := hn
  dsimp only at hl he h1 h2
  subst hl
  rcases hm : m ⟨{ E with modules := ms :: E.modules }, { l' with scopes := Scope.empty :: l'.scopes }⟩ with ⟨x, s1⟩
  rcases hm' : n ⟨{ E' with modules := ms :: E'.modules }, { l' with scopes := Scope.empty :: l'.scopes }⟩ with ⟨y, t1⟩
  rw [hm] at h1
  rw [hm'] at h2
  cases h1; cases h2
  have hn : Near ⟨{ E with modules := ms :: E.modules }, { l' with scopes := Scope.empty :: l'.scopes }⟩ ⟨{ E' with modules := ms :: E'.modules }, { l' with scopes := Scope.empty :: l'.scopes }⟩ :=
    ⟨rfl, ⟨he.frozen, congrArg (ms :: ·) he.modules, he.named, he.paramCreators, he.stateCreators, he.interceptors⟩, he.steady⟩
  obtain ⟨k1, k2, _⟩ := h _ _ hn _ _ _ _ hm hm'
  refine ⟨k1, ?_, rfl, rfl⟩
  dsimp only
  rw [k2]

theorem inRng (q : PRNGSeq) {R : α → α → Prop} {m n : M LW α} (h : Obl R m n) : Obl R (localMach.inRng q m) (localMach.inRng q n) := by
  intro s t hn v s' v' t' h1 h2
  have key : ∀ (m : M LW α) s, localMach.inRng q m s = LW.inRng q m s := fun _ _ => rfl
  rw [key] at h1 h2
  unfold LW.inRng at h1 h2
  obtain ⟨E, l⟩ := s
  obtain ⟨E', l'⟩ := t
  obtain ⟨hl, he⟩ := hn
  dsimp only at hl he h1 h2
  subst hl
  rcases hm : m ⟨E, { l' with rng := some q }⟩ with ⟨x, s1⟩
  rcases hm' : n ⟨E', { l' with rng := some q }⟩ with ⟨y, t1⟩
  rw [hm] at h1
  rw [hm'] at h2
  cases h1; cases h2
  have hn : ∀ l, Near ⟨E, l⟩ ⟨E', l⟩ := fun _ => ⟨rfl, he⟩
  obtain ⟨k1, k2, k3, k4⟩ := h _ _ (hn _) _ _ _ _ hm hm'
  refine ⟨k1, ?_, k3, k4⟩
  dsimp only
  rw [k2]

theorem temp (st : IState) {R : α → α → Prop} {m n : M LW α} (h : Obl R m n) : Obl R (localMach.temp st m) (localMach.temp st n) := by
  intro s t hn v s' v' t' h1 h2
  have key : ∀ (m : M LW α) s, localMach.temp st m s = LW.temp st m s := fun _ _ => rfl
  rw [key] at h1 h2
  unfold LW.temp at h1 h2
  obtain ⟨E, l⟩ := s
  obtain ⟨E', l'⟩ := t
  obtain ⟨hl, he⟩ := hn
  dsimp only at hl he h1 h2
  subst hl
  rcases hm : m ⟨E, { l' with params := st.params.getD l'.params, state := st.state, rng := st.rng.map PRNGSeq.ofState, trace := st.trace }⟩ with ⟨x, s1⟩
  rcases hm' : n ⟨E', { l' with params := st.params.getD l'.params, state := st.state, rng := st.rng.map PRNGSeq.ofState, trace := st.trace }⟩ with ⟨y, t1⟩
  rw [hm] at h1
  rw [hm'] at h2
  cases h1; cases h2
  have hn : ∀ l, Near ⟨E, l⟩ ⟨E', l⟩ := fun _ => ⟨rfl, he⟩
  obtain ⟨k1, k2, _⟩ := h _ _ (hn _) _ _ _ _ hm hm'
  refine ⟨k1, ?_, rfl, rfl⟩
  dsimp only
  rw [k2]

/-- Hooks on the two sides that keep the surroundings close. -/
theorem inHook {h h' : HookPush} (hh : ∀ E E' : Env, EnvNear E E' → EnvNear { E with hooks := World.pushHook E.hooks h } { E' with hooks := World.pushHook E'.hooks h' })
    {R : α → α → Prop} {m n : M LW α} (hm : Obl R m n) : Obl R (localMach.inHook h m) (localMach.inHook h' n) := by
  intro s t hn v s' v' t' h1 h2
  have key : ∀ h (m : M LW α) s, localMach.inHook h m s = LW.inHook h m s := fun _ _ _ => rfl
  rw [key] at h1 h2
  unfold LW.inHook at h1 h2
  obtain ⟨E, l⟩ := s
  obtain ⟨E', l'⟩ := t
  obtain ⟨hl, he⟩ := hn
  dsimp only at hl he h1 h2
  subst hl
  rcases hm1 : m ⟨{ E with hooks := World.pushHook E.hooks h }, l'⟩ with ⟨x, s1⟩
  rcases hm2 : n ⟨{ E' with hooks := World.pushHook E'.hooks h' }, l'⟩ with ⟨y, t1⟩
  rw [hm1] at h1
  rw [hm2] at h2
  cases h1; cases h2
  have hn : Near ⟨{ E with hooks := World.pushHook E.hooks h }, l'⟩ ⟨{ E' with hooks := World.pushHook E'.hooks h' }, l'⟩ := ⟨rfl, hh _ _ he⟩
  obtain ⟨k1, k2, _⟩ := hm _ _ hn _ _ _ _ hm1 hm2
  exact ⟨k1, k2, rfl, rfl⟩

theorem near_getterL {E E' : Env} (he : EnvNear E E') (g : Getter) (a b : Bool) : EnvNear { E with hooks := World.pushHook E.hooks (.getter g a b) } E' :=
  ⟨⟨he.frozen, he.modules, he.named, he.paramCreators, he.stateCreators, he.interceptors⟩, he.steady⟩

theorem near_getterR {E E' : Env} (he : EnvNear E E') (g : Getter) (a b : Bool) : EnvNear E { E' with hooks := World.pushHook E'.hooks (.getter g a b) } :=
  ⟨⟨he.frozen, he.modules, he.named, he.paramCreators, he.stateCreators, he.interceptors⟩, he.steady⟩

/-- A getter around the first run only. -/
theorem getterL {g : Getter} {a b : Bool} {R : α → α → Prop} {m n : M LW α} (hm : Obl R m n) : Obl R (localMach.inHook (.getter g a b) m) n := by
  intro s t hn v s' v' t' h1 h2
  have key : ∀ h (m : M LW α) s, localMach.inHook h m s = LW.inHook h m s := fun _ _ _ => rfl
  rw [key] at h1
  unfold LW.inHook at h1
  obtain ⟨E, l⟩ := s
  rcases hm1 : m ⟨{ E with hooks := World.pushHook E.hooks (.getter g a b) }, l⟩ with ⟨x, s1⟩
  rw [hm1] at h1
  cases h1
  have hn' : Near ⟨{ E with hooks := World.pushHook E.hooks (.getter g a b) }, l⟩ t := ⟨hn.1, near_getterL hn.2 g a b⟩
  obtain ⟨k1, k2, _, k4⟩ := hm _ _ hn' _ _ _ _ hm1 h2
  exact ⟨k1, k2, rfl, k4⟩

/-- A getter around the second run only. -/
theorem getterR {g : Getter} {a b : Bool} {R : α → α → Prop} {m n : M LW α} (hm : Obl R m n) : Obl R m (localMach.inHook (.getter g a b) n) := by
  intro s t hn v s' v' t' h1 h2
  have key : ∀ h (m : M LW α) s, localMach.inHook h m s = LW.inHook h m s := fun _ _ _ => rfl
  rw [key] at h2
  unfold LW.inHook at h2
  obtain ⟨E, l⟩ := t
  rcases hm1 : n ⟨{ E with hooks := World.pushHook E.hooks (.getter g a b) }, l⟩ with ⟨x, s1⟩
  rw [hm1] at h2
  cases h2
  have hn' : Near s ⟨{ E with hooks := World.pushHook E.hooks (.getter g a b) }, l⟩ := ⟨hn.1, near_getterR hn.2 g a b⟩
  obtain ⟨k1, k2, k3, _⟩ := hm _ _ hn' _ _ _ _ h1 hm1
  exact ⟨k1, k2, k3, rfl⟩

/-- `with ctx`: only the results of returning blocks are compared, and module objects only in that case. -/
theorem inCtx (c : Ctx) {R : α → α → Prop} {Q : β → β → Prop} {m n : M LW α} {f g : Except Exc α × Ctx → M LW β} (h : Obl R m n)
    (he : ∀ e c, f (.error e, c) = M.throw e) (he' : ∀ e c, g (.error e, c) = M.throw e)
    (hf : ∀ a b c, R a b → Obl Q (f (.ok a, c)) (g (.ok b, c))) :
    Obl Q (localMach.inCtx c m >>- f) (localMach.inCtx c n >>- g) := by
  intro s t hn v s' v' t' h1 h2
  obtain ⟨a, s1, h1, h3⟩ := bind_ok h1
  obtain ⟨b, t1, h2, h4⟩ := bind_ok h2
  have key : ∀ (m : M LW α) s, localMach.inCtx c m s = LW.inCtx c m s := fun _ _ => rfl
  rw [key] at h1 h2
  unfold LW.inCtx at h1 h2
  obtain ⟨E, l⟩ := s
  obtain ⟨E', l'⟩ := t
  obtain ⟨hl, hE⟩ := hn
  dsimp only at hl hE h1 h2
  subst hl
  rcases hm : m ⟨ctxEnv c E, ctxLoc c l'.heap⟩ with ⟨x, u⟩
  rcases hm' : n ⟨ctxEnv c E', ctxLoc c l'.heap⟩ with ⟨y, u'⟩
  rw [hm] at h1
  rw [hm'] at h2
  cases h1; cases h2
  cases x with
  | error e => rw [he] at h3; cases h3
  | ok x =>
    cases y with
    | error e => rw [he'] at h4; cases h4
    | ok y =>
      have hn : Near ⟨ctxEnv c E, ctxLoc c l'.heap⟩ ⟨ctxEnv c E', ctxLoc c l'.heap⟩ :=
        ⟨rfl, ⟨rfl, rfl, hE.named, hE.paramCreators, hE.stateCreators, hE.interceptors⟩, hE.steady⟩
      obtain ⟨k1, k2, _⟩ := h _ _ hn _ _ _ _ hm hm'
      dsimp only at h3 h4
      rw [k2] at h4
      have hn2 : ∀ l, Near ⟨E, l⟩ ⟨E', l⟩ := fun _ => ⟨rfl, hE⟩
      have := hf _ _ _ k1 _ _ (hn2 _) _ _ _ _ h3 h4
      exact this

theorem ite {c : Prop} [Decidable c] {R : α → α → Prop} {m n m' n' : M LW α} (h1 : Obl R m n) (h2 : Obl R m' n') :
    Obl R (if c then m else m') (if c then n else n') := by
  by_cases h : c
  · rw [if_pos h, if_pos h]; exact h1
  · rw [if_neg h, if_neg h]; exact h2

/-- Both sides check something, possibly with different outcomes; the first branches are `throw`. -/
theorem check {c c' : Prop} [Decidable c] [Decidable c'] {R : α → α → Prop} {m n : M LW α} {e e' : Exc} (h : Obl R m n) :
    Obl R (if c then m else M.throw e) (if c' then n else M.throw e') := by
  by_cases h1 : c
  · by_cases h2 : c'
    · rw [if_pos h1, if_pos h2]; exact h
    · rw [if_neg h2]; exact throwR
  · rw [if_neg h1]; exact throwL

theorem internal (b : Bool) : Obl Eq (localMach.top fun _ => internalState b) (localMach.top fun _ => internalState b) := top fun _ _ _ => rfl
theorem reserve : Obl Eq (localMach.top fun _ => reserveFull) (localMach.top fun _ => reserveFull) := top fun _ _ _ => rfl
theorem nothing : Obl Eq (localMach.top fun _ => (M.pure () : M Loc Unit)) (localMach.top fun _ => (M.pure () : M Loc Unit)) := top fun _ _ _ => rfl
theorem frozen : Obl Eq (localMach.top fun E => (M.pure E.frozen : M Loc Bool)) (localMach.top fun E => (M.pure E.frozen : M Loc Bool)) :=
  top fun E E' h => by rw [h.frozen]

theorem update (d : Diff) : Obl Eq (localMach.top (updateInternalState d)) (localMach.top (updateInternalState d)) := top fun E E' h => by
  funext s
  unfold updateInternalState
  rw [h.frozen]

theorem bundle {E E' : Env} (h : EnvSame E E') : bundleName E' = bundleName E := by
  funext s
  unfold bundleName currentModule
  rw [h.modules]

/-! Reading: what is stored does not depend on the getters. -/

theorem after_bind {m m' : M Loc α} {f g : α → M Loc β} {l : Loc} (hm : m' l = m l) (hf : ∀ a l, (g a l).2 = (f a l).2) :
    ((m' >>- g) l).2 = ((m >>- f) l).2 := by
  show (M.bind m' g l).2 = (M.bind m f l).2
  unfold M.bind
  rw [hm]
  rcases m l with ⟨e | a, l1⟩
  · rfl
  · exact hf a l1

theorem after_check {r : Arr} {shape : List Nat} {l : Loc} : ((if r.shape = shape then M.pure r else M.throw Exc.shapeMismatch : M Loc Arr) l).2 = l := by
  by_cases h : r.shape = shape
  · rw [if_pos h]; rfl
  · rw [if_neg h]; rfl

theorem after_lift {x : Except Exc α} {f : α → M Loc β} (hf : ∀ a l, (f a l).2 = l) {l : Loc} : ((Frame.liftExcept x >>- f) l).2 = l := by
  cases x with
  | error e => rfl
  | ok a => exact hf a l

theorem getParameter_after {E E' : Env} (h : EnvSame E E') (name : Str) (shape : List Nat) (dtype : DType) (init : Option Initializer) (l : Loc) :
    (getParameter name shape dtype init E' l).2 = (getParameter name shape dtype init E l).2 := by
  unfold getParameter
  cases init with
  | none => rfl
  | some i =>
    have hc : currentModule E' = currentModule E := by unfold currentModule; rw [h.modules]
    dsimp only
    rw [bundle h, h.frozen, h.paramCreators, hc]
    refine after_bind rfl fun b l1 => after_bind rfl fun s l2 => ?_
    by_cases hp : (E.frozen && !s.params.has b) = true
    · rw [if_pos hp, if_pos hp]
    · rw [if_neg hp, if_neg hp]
      refine after_bind rfl fun _ l3 => after_bind rfl fun a l4 => ?_
      rw [after_lift fun _ _ => after_check, after_lift fun _ _ => after_check]

theorem getState_after {E E' : Env} (h : EnvSame E E') (name : Str) (shape : Option (List Nat)) (dtype : Option DType) (init : Option Initializer) (l : Loc) :
    (Frame.getState name shape dtype init E' l).2 = (Frame.getState name shape dtype init E l).2 := by
  unfold Frame.getState
  have hc : currentModule E' = currentModule E := by unfold currentModule; rw [h.modules]
  rw [bundle h, h.stateCreators, hc]
  refine after_bind rfl fun b l1 => after_bind rfl fun _ l2 => after_bind rfl fun s l3 => after_bind rfl fun a l4 => rfl

theorem after_pure {m : M Loc α} {f : α → β} {l : Loc} : ((m >>- fun a => M.pure (f a)) l).2 = (m l).2 := by
  show (M.bind m _ l).2 = _
  unfold M.bind
  rcases m l with ⟨e | a, l1⟩ <;> rfl

/-- An operation whose data afterwards does not depend on the getters. -/
theorem topAfter {f : FOp Val} (hf : ∀ E E', EnvSame E E' → ∀ l, (f E' l).2 = (f E l).2) : Obl (Tied false) (localMach.top f) (localMach.top f) := by
  intro s t hn v s' v' t' h1 h2
  rw [top_eq] at h1 h2
  rw [hn.1] at h2
  obtain ⟨a1, a2⟩ := Prod.mk.inj h1
  obtain ⟨b1, b2⟩ := Prod.mk.inj h2
  subst a2 b2
  exact ⟨Tied.any, hf _ _ hn.2.toEnvSame _, rfl, rfl⟩

theorem getParam (name : Str) (shape : List Nat) (dtype : DType) (init : Option Initializer) :
    Obl (Tied false) (localMach.top (Op.getParam name shape dtype init).run) (localMach.top (Op.getParam name shape dtype init).run) :=
  topAfter fun E E' h l => after_pure.trans ((getParameter_after h name shape dtype init l).trans after_pure.symm)

theorem getState (name : Str) (shape : Option (List Nat)) (dtype : Option DType) (init : Option Initializer) :
    Obl (Tied false) (localMach.top (Op.getState name shape dtype init).run) (localMach.top (Op.getState name shape dtype init).run) :=
  topAfter fun E E' h l => after_pure.trans ((getState_after h name shape dtype init l).trans after_pure.symm)

/-- Operations other than the two reads do not look at the getters at all. -/
theorem op_same {E E' : Env} (h : EnvSame E E') (o : Op) (ho : match o with | .getParam .. => False | .getState .. => False | _ => True) : o.run E' = o.run E := by
  cases o with
  | getParam => exact ho.elim
  | getState => exact ho.elim
  | setState n v => show (Frame.setState n v E' >>- _) = (Frame.setState n v E >>- _); unfold Frame.setState; rw [bundle h]
  | runningInit => show M.pure (Val.bool (!E'.frozen)) = M.pure (Val.bool (!E.frozen)); rw [h.frozen]
  | superInit m n c =>
    have : callerOf E' = callerOf E := by funext s; unfold callerOf; rw [h.modules]
    show (Frame.superInit m n c E' >>- _) = (Frame.superInit m n c E >>- _)
    unfold Frame.superInit
    rw [this]
  | liftUnpack m =>
    have : Frame.liftUnpack m E' = Frame.liftUnpack m E := by funext s; unfold Frame.liftUnpack; rw [h.frozen]
    show (Frame.liftUnpack m E' >>- _) = (Frame.liftUnpack m E >>- _)
    rw [this]
  | liftPack m p =>
    have : Frame.liftPack m p E' = Frame.liftPack m p E := by funext s; unfold Frame.liftPack; rw [h.frozen]
    show (Frame.liftPack m p E' >>- _) = (Frame.liftPack m p E >>- _)
    rw [this]
  | _ => rfl

/-! Modules -/

theorem jitM {R : Val → Val → Prop} {m n : M LW Val} (h : Obl R m n) : Obl R (jitM localMach m) (jitM localMach n) :=
  bind (internal true) fun st st' e => by
    subst e
    refine bind (R := fun a b => R a.1 b.1 ∧ a.2 = b.2) (temp st (bind h fun v v' hv => bind (internal true) fun x x' e => ?_)) fun r r' hr => ?_
    · subst e; exact pure ⟨hv, rfl⟩
    · rw [hr.2]
      exact bind (update _) fun _ _ _ => pure hr.1

theorem runInterceptors {e : Bool} {self : ModId} {method : Str} {body body' : Val → M LW Val} (hb : ∀ v v', Tied e v v' → Obl (Tied e) (body v) (body' v')) :
    ∀ (is : List Interceptor) (a a' : Val), (∀ i ∈ is, Steady i) → Tied e a a' → Obl (Tied e) (runInterceptors self method body is a) (runInterceptors self method body' is a')
  | [], a, a', _, ha => hb a a' ha
  | i :: is, a, a', hi, ha => by
    unfold Verif.runInterceptors
    have hs := hi i List.mem_cons_self self method a a'
    have ht : Tied e (i self method a) (i self method a') := ha.map (i self method)
    generalize i self method a = x at hs ht
    generalize i self method a' = y at hs ht
    cases x <;> cases y <;> first | exact hs.elim | skip
    · exact pure fun k => by have := ht k; injection this
    · exact throwL
    · rename_i b p b' p'
      refine bind (runInterceptors hb is b b' (fun i hm => hi i (List.mem_cons_of_mem _ hm)) ?_) fun v v' hv => pure ?_
      · exact fun k => by have := ht k; injection this
      · exact fun k => by have := ht k; injection this with _ h2; rw [h2, hv k]
    · rename_i b p b' p'
      refine bind (hb b b' ?_) fun v v' hv => pure ?_
      · exact fun k => by have := ht k; injection this
      · exact fun k => by have := ht k; injection this with _ h2; rw [h2, hv k]

theorem notify {E E' : Env} (h : EnvSame E E') (self : ModId) (nm : Option Str) : Frame.notify self nm E' = Frame.notify self nm E := by
  unfold Frame.notify
  rw [h.modules]

/-- What `wrapMethod` reads before the method runs; the interceptors are those of the surroundings. -/
theorem readInfo (self : ModId) : Obl (fun a b => a = b ∧ ∀ i ∈ a.2.1, Steady i)
    (localMach.top (fun E => getModuleName self >>- fun nm => M.pure (nm, E.hooks.interceptors, E.namedCall)))
    (localMach.top (fun E => getModuleName self >>- fun nm => M.pure (nm, E.hooks.interceptors, E.namedCall))) := by
  intro s t hn v s' v' t' h1 h2
  have := top (f := fun E => getModuleName self >>- fun nm => M.pure (nm, E.hooks.interceptors, E.namedCall))
    (fun E E' h => by rw [h.interceptors, h.named]) s t hn _ _ _ _ h1 h2
  refine ⟨⟨this.1, ?_⟩, this.2⟩
  rw [top_eq] at h1
  cases h1
  exact hn.2.steady

theorem wrapMethod {e : Bool} {self : ModId} {method : Str} {args args' : Val} (ha : Tied e args args') {body body' : Val → M LW Val}
    (hb : ∀ v v', Tied e v v' → Obl (Tied e) (body v) (body' v')) : Obl (Tied e) (wrapMethod localMach self method args body) (wrapMethod localMach self method args' body') := by
  refine inModule _ (bind (readInfo self) fun r r' hr => ?_)
  obtain ⟨rfl, hs⟩ := hr
  refine bind (R := Tied e) ?_ fun v v' hv => bind (top fun E E' h => notify h self r.1) fun _ _ _ => pure hv
  exact ite (jitM (runInterceptors hb _ _ _ hs ha)) (runInterceptors hb _ _ _ hs ha)

theorem construct {e : Bool} {args args' : Val} (ha : Tied e args args') {ctor ctor' : ModId → Val → M LW Val}
    (hc : ∀ i v v', Tied e v v' → Obl (Tied e) (ctor i v) (ctor' i v')) : Obl Eq (construct localMach args ctor) (construct localMach args' ctor') :=
  bind (top fun _ _ _ => rfl) fun id id' h => by
    subst h
    exact bind (wrapMethod ha (hc id)) fun _ _ _ => bind (top fun _ _ _ => rfl) fun _ _ _ => pure rfl

theorem superInit (self : ModId) (name : Option Str) (cls : Str) : Obl Eq (localMach.top (Op.superInit self name cls).run) (localMach.top (Op.superInit self name cls).run) :=
  top fun _ _ h => op_same h _ trivial

theorem eqTied {m n : M LW α} (h : Obl Eq m n) {e : Bool} : Obl (Tied e) m n := h.weaken fun _ _ k _ => k.symm

theorem nameScopeCtor : ∀ parts : List Str, Obl Eq (nameScopeCtor localMach parts) (nameScopeCtor localMach parts)
  | [] => throwL
  | [n] => construct (e := true) (Tied.refl _) fun _ _ _ _ => eqTied (superInit _ _ _)
  | n :: m :: ns => bind (construct (e := true) (Tied.refl _) fun _ _ _ _ => eqTied (superInit _ _ _)) fun i i' h => by
    subst h
    exact inModule _ (nameScopeCtor (m :: ns))

theorem nameScopeM {R : Val → Val → Prop} {name : Str} {m n : M LW Val} (h : Obl R m n) : Obl R (nameScopeM localMach name m) (nameScopeM localMach name n) :=
  bind nothing fun _ _ _ => ite throwL (bind (nameScopeCtor _) fun i i' e => by
    subst e
    exact inModule _ h)

/-! Control flow -/

/-- The value is related, the saved state the same. -/
def WithState (R : α → α → Prop) (a b : α × β) : Prop := R a.1 b.1 ∧ b.2 = a.2

theorem branchM {R : Val → Val → Prop} (st : IState) {m n : M LW Val} (h : Obl R m n) : Obl (WithState R) (branchM localMach st m) (branchM localMach st n) :=
  temp st (bind h fun v v' hv => bind reserve fun _ _ _ => bind (internal true) fun x x' e => pure ⟨hv, e.symm⟩)

theorem runBranches {R : Val → Val → Prop} {st : IState} {s t : LW} (hn : Near s t) : ∀ {ms ns : List (M LW Val)}, List.Forall₂ (Obl R) ms ns →
    ∀ {rs rs' : List ((Val × IState) × LW)}, runBranches localMach st ms s = .ok rs → runBranches localMach st ns t = .ok rs' →
    List.Forall₂ (fun a b => WithState R a.1 b.1 ∧ b.2.loc = a.2.loc ∧ a.2.env = s.env ∧ b.2.env = t.env) rs rs'
  | [], [], .nil, rs, rs', h1, h2 => by cases h1; cases h2; exact .nil
  | m :: ms, n :: ns, .cons h hs, rs, rs', h1, h2 => by
    unfold Verif.runBranches at h1 h2
    rcases hm : Verif.branchM localMach st m s with ⟨_ | a, s1⟩ <;> rw [hm] at h1
    · cases h1
    rcases hm' : Verif.branchM localMach st n t with ⟨_ | b, t1⟩ <;> rw [hm'] at h2
    · cases h2
    dsimp only at h1 h2
    rcases hr : Verif.runBranches localMach st ms s with _ | us <;> rw [hr] at h1
    · cases h1
    rcases hr' : Verif.runBranches localMach st ns t with _ | us' <;> rw [hr'] at h2
    · cases h2
    cases h1; cases h2
    exact .cons (branchM st h s t hn _ _ _ _ hm hm') (runBranches hn hs hr hr')

theorem forall₂_get {R : α → β → Prop} : ∀ {xs : List α} {ys : List β}, List.Forall₂ R xs ys → ∀ {i : Nat} {a : α} {b : β}, xs[i]? = some a → ys[i]? = some b → R a b
  | _, _, .cons h hs, 0, a, b, h1, h2 => by cases h1; cases h2; exact h
  | _, _, .cons h hs, i + 1, a, b, h1, h2 => forall₂_get hs (i := i) h1 h2

theorem switchM {R : Val → Val → Prop} (i : Nat) {ms ns : List (M LW Val)} (h : List.Forall₂ (Obl R) ms ns) : Obl R (switchM localMach i ms) (switchM localMach i ns) :=
  bind reserve fun _ _ _ => bind (internal true) fun st st' e => by
    subst e
    intro s t hn v s' v' t' h1 h2
    unfold switchFrom at h1 h2
    rcases hr : Verif.runBranches localMach st ms s with ⟨_, _⟩ | rs <;> rw [hr] at h1
    · cases h1
    rcases hr' : Verif.runBranches localMach st ns t with ⟨_, _⟩ | rs' <;> rw [hr'] at h2
    · cases h2
    dsimp only at h1 h2
    have hall := runBranches hn h hr hr'
    rcases hi : rs[i]? with _ | ⟨⟨x, sx⟩, s1⟩ <;> rw [hi] at h1
    · cases h1
    rcases hi' : rs'[i]? with _ | ⟨⟨y, sy⟩, t1⟩ <;> rw [hi'] at h2
    · cases h2
    dsimp only at h1 h2
    have k := forall₂_get hall hi hi'
    split at h1
    · split at h2
      · obtain ⟨⟨kr, ks⟩, kl, ke, ke'⟩ := k
        dsimp only at kr ks kl ke ke'
        subst ks
        have := bind (update sy.full) (fun _ _ _ => pure (R := R) kr) s1 t1 (hn.after kl ke ke') _ _ _ _ h1 h2
        exact ⟨this.1, this.2.1, this.2.2.1.trans ke, this.2.2.2.trans ke'⟩
      · cases h2
    · cases h1

theorem asPair {e : Bool} {v v' : Val} (h : Tied e v v') : Obl (Tied e) (asPair v : M LW (Val × Val)) (asPair v') := by
  unfold Verif.asPair
  cases v with
  | pair a b =>
    cases v' with
    | pair a' b' => exact pure fun k => by have := h k; injection this with h1 h2; rw [h1, h2]
    | _ => exact throwR
  | _ => exact throwL

/-- Two values tied, and the same state. -/
def Tied3 (e : Bool) (a b : Val × β × γ) : Prop := Tied e a.1 b.1 ∧ Tied e a.2.1 b.2.1 ∧ b.2.2 = a.2.2

theorem scanStep {e : Bool} {f g : Val → Val → M LW Val} (hf : ∀ c c' x x', Tied e c c' → Tied e x x' → Obl (Tied e) (f c x) (g c' x')) {c c' x x' : Val}
    (hc : Tied e c c') (hx : Tied e x x') (st : IState) : Obl (Tied3 e) (scanStep localMach f c x st) (scanStep localMach g c' x' st) := by
  refine bind (R := Tied3 e) (temp st ?_) fun r r' hr => check (pure hr)
  refine bind (internal true) fun b b' hb => bind (hf _ _ _ _ hc hx) fun r r' hr => bind (asPair hr) fun cy cy' hcy => bind (internal true) fun a a' ha => ?_
  subst hb ha
  refine ite throwL (bind reserve fun _ _ _ => bind (internal false) fun z z' hz => pure ⟨hcy.map Prod.fst, hcy.map Prod.snd, hz.symm⟩)

theorem scanLoop {e : Bool} {f g : Val → Val → IState → M LW (Val × Val × IState)} (hf : ∀ c c' x x' st, Tied e c c' → Tied e x x' → Obl (Tied3 e) (f c x st) (g c' x' st)) :
    ∀ {xs xs' : List Val}, List.Forall₂ (Tied e) xs xs' → ∀ {c c' : Val} (st : IState), Tied e c c' → Obl (Tied3 e) (scanLoop f xs c st) (scanLoop g xs' c' st)
  | _, _, .nil, c, c', st, hc => pure ⟨hc, Tied.refl _, rfl⟩
  | _, _, .cons h hs, c, c', st, hc => bind (hf _ _ _ _ st hc h) fun r r' hr => by
    obtain ⟨h1, h2, h3⟩ := hr
    rw [h3]
    exact bind (scanLoop hf hs _ h1) fun q q' hq => pure ⟨hq.1, h2.map2 hq.2.1 List.cons, hq.2.2⟩

theorem forall₂_reverse {R : α → β → Prop} {xs : List α} {ys : List β} (h : List.Forall₂ R xs ys) : List.Forall₂ R xs.reverse ys.reverse := by
  have key : ∀ {xs : List α} {ys : List β}, List.Forall₂ R xs ys → ∀ {us : List α} {vs : List β}, List.Forall₂ R us vs → List.Forall₂ R (xs.reverseAux us) (ys.reverseAux vs) := by
    intro xs ys h
    induction h with
    | nil => exact fun k => k
    | cons h hs ih => exact fun k => ih (.cons h k)
  exact key h .nil

theorem scanTail {e : Bool} {f g : Val → Val → M LW Val} (hf : ∀ c c' x x', Tied e c c' → Tied e x x' → Obl (Tied e) (f c x) (g c' x')) {xs xs' : List Val}
    (hx : List.Forall₂ (Tied e) xs xs') {c c' : Val} (hc : Tied e c c') (rev : Bool) : Obl (Tied e) (scanTail localMach f c xs rev) (scanTail localMach g c' xs' rev) := by
  refine bind reserve fun _ _ _ => bind (internal false) fun st st' h => ?_
  subst h
  have hx' : List.Forall₂ (Tied e) (if rev then xs.reverse else xs) (if rev then xs'.reverse else xs') := by
    cases rev
    · exact hx
    · exact forall₂_reverse hx
  refine bind (scanLoop (fun c c' x x' st h1 h2 => scanStep hf h1 h2 st) hx' st hc) fun r r' hr => ?_
  rw [hr.2.2]
  refine bind (update _) fun _ _ _ => pure (hr.1.map2 hr.2.1 fun a b => (a, if rev then b.reverse else b))

theorem forall₂_dropLast {R : α → β → Prop} {xs : List α} {ys : List β} (h : List.Forall₂ R xs ys) : List.Forall₂ R xs.dropLast ys.dropLast := by
  induction h with
  | nil => exact .nil
  | cons h hs ih =>
    cases hs with
    | nil => exact .nil
    | cons h' hs' => exact .cons h ih

theorem forall₂_last {R : α → β → Prop} {xs : List α} {ys : List β} (h : List.Forall₂ R xs ys) :
    (xs.getLast? = none ∧ ys.getLast? = none) ∨ ∃ x y, xs.getLast? = some x ∧ ys.getLast? = some y ∧ R x y := by
  have := forall₂_reverse h
  rw [List.getLast?_eq_head?_reverse, List.getLast?_eq_head?_reverse]
  generalize xs.reverse = us at this ⊢
  generalize ys.reverse = vs at this ⊢
  cases this with
  | nil => exact .inl ⟨rfl, rfl⟩
  | cons h hs => exact .inr ⟨_, _, rfl, rfl, h⟩

theorem forall₂_empty {R : α → β → Prop} {xs : List α} {ys : List β} (h : List.Forall₂ R xs ys) : ys.isEmpty = xs.isEmpty := by
  cases h <;> rfl

theorem scanM {e : Bool} {f g : Val → Val → M LW Val} (hf : ∀ c c' x x', Tied e c c' → Tied e x x' → Obl (Tied e) (f c x) (g c' x')) {xs xs' : List Val}
    (hx : List.Forall₂ (Tied e) xs xs') {c c' z z' : Val} (hc : Tied e c c') (hz : Tied e z z') (rev : Bool) :
    Obl (Tied e) (scanM localMach f c z xs rev) (scanM localMach g c' z' xs' rev) := by
  refine bind frozen fun fr fr' h => ?_
  subst h
  refine ite (bind (scanTail hf hx hc rev) fun r r' hr => pure (hr.map fun r => Val.pair r.1 (Val.ofList r.2))) ?_
  have hd : ((if rev then xs.getLast? else xs.head?) = none ∧ (if rev then xs'.getLast? else xs'.head?) = none) ∨
      ∃ x y, (if rev then xs.getLast? else xs.head?) = some x ∧ (if rev then xs'.getLast? else xs'.head?) = some y ∧ Tied e x y := by
    cases rev
    · cases hx with
      | nil => exact .inl ⟨rfl, rfl⟩
      | cons h hs => exact .inr ⟨_, _, rfl, rfl, h⟩
    · exact forall₂_last hx
  have ht : List.Forall₂ (Tied e) (if rev then xs.dropLast else xs.tail) (if rev then xs'.dropLast else xs'.tail) := by
    cases rev
    · cases hx with
      | nil => exact .nil
      | cons h hs => exact hs
    · exact forall₂_dropLast hx
  rcases hd with ⟨h1, h2⟩ | ⟨x, y, h1, h2, hxy⟩
  · rw [h1, h2]
    exact bind (hf _ _ _ _ hc hz) fun r r' hr => bind (asPair hr) fun _ _ _ => pure (hc.map fun c => Val.pair c (Val.ofList []))
  · rw [h1, h2]
    refine bind (hf _ _ _ _ hc hxy) fun r r' hr => bind (asPair hr) fun cy cy' hcy => ?_
    dsimp only
    rw [forall₂_empty ht]
    refine ite (pure (hcy.map fun cy => Val.pair cy.1 (Val.ofList [cy.2]))) ?_
    exact bind (scanTail hf ht (hcy.map Prod.fst) rev) fun q q' hq => pure (hcy.map2 hq fun cy r => Val.pair r.1 (Val.ofList (cy.2 :: r.2)))

theorem foriStep {e : Bool} {f g : Int → Val → M LW Val} (hf : ∀ i v v', Tied e v v' → Obl (Tied e) (f i v) (g i v')) (i : Int) {v v' : Val} (hv : Tied e v v') (st : IState) :
    Obl (WithState (Tied e)) (foriStep localMach f i v st) (foriStep localMach g i v' st) :=
  bind (branchM st (hf i v v' hv)) fun r r' hr => check (pure hr)

theorem foriLoop {e : Bool} {f g : Int → Val → IState → M LW (Val × IState)} (hf : ∀ i v v' st, Tied e v v' → Obl (WithState (Tied e)) (f i v st) (g i v' st)) :
    ∀ (n : Nat) (i : Int) {v v' : Val} (st : IState), Tied e v v' → Obl (WithState (Tied e)) (foriLoop f n i v st) (foriLoop g n i v' st)
  | 0, i, v, v', st, hv => pure ⟨hv, rfl⟩
  | n + 1, i, v, v', st, hv => bind (hf i _ _ st hv) fun r r' hr => by
    rw [hr.2]
    exact foriLoop hf n (i + 1) _ hr.1

theorem foriTail {e : Bool} {f g : Int → Val → M LW Val} (hf : ∀ i v v', Tied e v v' → Obl (Tied e) (f i v) (g i v')) (lo up : Int) {v v' : Val} (hv : Tied e v v') :
    Obl (Tied e) (foriTail localMach lo up f v) (foriTail localMach lo up g v') := by
  refine bind reserve fun _ _ _ => bind (internal true) fun st st' h => ?_
  subst h
  refine bind (foriLoop (fun i v v' st h => foriStep hf i h st) _ _ st hv) fun r r' hr => ?_
  rw [hr.2]
  exact bind (update _) fun _ _ _ => pure hr.1

theorem foriM {e : Bool} {f g : Int → Val → M LW Val} (hf : ∀ i v v', Tied e v v' → Obl (Tied e) (f i v) (g i v')) (lo up : Int) {v v' : Val} (hv : Tied e v v') :
    Obl (Tied e) (foriM localMach lo up f v) (foriM localMach lo up g v') := by
  refine bind frozen fun fr fr' h => ?_
  subst h
  refine ite (foriTail hf lo up hv) (bind (hf _ _ _ hv) fun r r' hr => ite (pure hr) (foriTail hf _ _ hr))

theorem whileCond {c d : Val → M LW Val} (hc : ∀ v, Obl (Tied true) (c v) (d v)) (v : Val) : Obl Eq (whileCond localMach c v) (whileCond localMach d v) := by
  refine bind (top fun _ _ _ => rfl) fun b b' hb => bind (hc v) fun r r' hr => bind (top fun _ _ _ => rfl) fun a a' ha => ?_
  subst hb ha
  rw [hr rfl]
  refine ite throwL ?_
  cases r <;> first | exact throwL | exact pure rfl

theorem whileBody {f g : Val → M LW Val} (hf : ∀ v, Obl (Tied true) (f v) (g v)) (v : Val) (st : IState) : Obl Eq (whileBody localMach f v st) (whileBody localMach g v st) := by
  refine bind (R := Eq) (temp st (bind (hf v) fun r r' hr => bind (internal true) fun a a' ha => ?_)) fun r r' hr => ?_
  · rw [hr rfl, ha]; exact pure rfl
  · subst hr; exact check (pure rfl)

theorem whileLoopM {c d : Val → M LW Bool} (hc : ∀ v, Obl Eq (c v) (d v)) {f g : Val → IState → M LW (Val × IState)} (hf : ∀ v st, Obl Eq (f v st) (g v st)) {s0 t0 : LW}
    (h0 : Near s0 t0) : ∀ (n : Nat) (v : Val) (st : IState), Obl Eq (whileLoopM c f s0 n v st) (whileLoopM d g t0 n v st)
  | 0, v, st => throwL
  | n + 1, v, st => by
    intro s t hn r s' r' t' h1 h2
    unfold Verif.whileLoopM at h1 h2
    rcases hm : c v s0 with ⟨_ | b, s1⟩ <;> rw [hm] at h1
    · cases h1
    rcases hm' : d v t0 with ⟨_ | b', t1⟩ <;> rw [hm'] at h2
    · cases h2
    have hb : b = b' := (hc v s0 t0 h0 _ _ _ _ hm hm').1
    subst hb
    cases b with
    | false => cases h1; cases h2; exact ⟨rfl, hn.1, rfl, rfl⟩
    | true =>
      refine bind (hf v st) (fun a b hab => ?_) s t hn _ _ _ _ h1 h2
      subst hab
      exact whileLoopM hc hf h0 n _ _

theorem whileM (fuel : Nat) {c d f g : Val → M LW Val} (hc : ∀ v, Obl (Tied true) (c v) (d v)) (hf : ∀ v, Obl (Tied true) (f v) (g v)) (v : Val) :
    Obl Eq (whileM localMach fuel c f v) (whileM localMach fuel d g v) := by
  refine bind (top fun E E' h => by rw [h.frozen]) fun _ _ _ => bind (internal true) fun st st' h => ?_
  subst h
  intro s t hn r s' r' t' h1 h2
  unfold whileFrom at h1 h2
  rcases hm : Verif.whileCond localMach c v s with ⟨_ | b, s1⟩ <;> rw [hm] at h1
  · cases h1
  rcases hm' : Verif.whileCond localMach d v t with ⟨_ | b', t1⟩ <;> rw [hm'] at h2
  · cases h2
  dsimp only at h1 h2
  obtain ⟨_, kl, ke, ke'⟩ := whileCond hc v s t hn _ _ _ _ hm hm'
  have := bind (whileLoopM (whileCond hc) (whileBody hf) hn fuel v st) (fun a b hab => by
    subst hab
    exact bind (update a.2.full) fun _ _ _ => pure (R := Eq) rfl) s1 t1 (hn.after kl ke ke') _ _ _ _ h1 h2
  exact ⟨this.1, this.2.1, this.2.2.1.trans ke, this.2.2.2.trans ke'⟩

theorem vmapBody {R : Val → Val → Prop} (st : IState) {m n : M LW Val} (h : Obl R m n) : Obl (WithState R) (vmapBody localMach st m) (vmapBody localMach st n) :=
  temp st (bind h fun v v' hv => bind (internal true) fun x x' e => by subst e; exact pure ⟨hv, rfl⟩)

theorem vmapRest {e : Bool} {st : IState} {d : Diff} {f g : Val → M LW Val} (hf : ∀ v v', Tied e v v' → Obl (Tied e) (f v) (g v')) {s t : LW} (hn : Near s t) :
    ∀ {xs xs' : List Val}, List.Forall₂ (Tied e) xs xs' → ∀ {vs vs' : List Val}, vmapRest localMach st d f s xs = .ok vs → vmapRest localMach st d g t xs' = .ok vs' → Tied e vs vs'
  | _, _, .nil, vs, vs', h1, h2 => by cases h1; cases h2; exact Tied.refl _
  | _, _, .cons (a := x) (b := y) (l₁ := xs) (l₂ := ys) h hs, vs, vs', h1, h2 => by
    unfold Verif.vmapRest at h1 h2
    rcases hm : Verif.vmapBody localMach st (f x) s with ⟨_ | ⟨a, da⟩, s1⟩ <;> rw [hm] at h1
    · cases h1
    rcases hm' : Verif.vmapBody localMach st (g y) t with ⟨_ | ⟨b, db⟩, t1⟩ <;> rw [hm'] at h2
    · cases h2
    dsimp only at h1 h2
    split at h1
    · split at h2
      · rcases hr : Verif.vmapRest localMach st d f s xs with _ | us <;> rw [hr] at h1
        · cases h1
        rcases hr' : Verif.vmapRest localMach st d g t ys with _ | us' <;> rw [hr'] at h2
        · cases h2
        cases h1; cases h2
        exact (vmapBody st (hf x y h) s t hn _ _ _ _ hm hm').1.1.map2 (vmapRest hf hn hs hr hr') List.cons
      · cases h2
    · cases h1

theorem vmapM {e : Bool} {f g : Val → M LW Val} (hf : ∀ v v', Tied e v v' → Obl (Tied e) (f v) (g v')) {x x' : Val} {xs xs' : List Val} (hx : Tied e x x')
    (hxs : List.Forall₂ (Tied e) xs xs') : Obl (Tied e) (vmapM localMach f x xs) (vmapM localMach g x' xs') := by
  refine bind (internal true) fun st st' h => ?_
  subst h
  intro s t hn r s' r' t' h1 h2
  unfold vmapFrom at h1 h2
  rcases hm : Verif.vmapBody localMach st (f x) s with ⟨_ | ⟨a, da⟩, s1⟩ <;> rw [hm] at h1
  · cases h1
  rcases hm' : Verif.vmapBody localMach st (g x') t with ⟨_ | ⟨b, db⟩, t1⟩ <;> rw [hm'] at h2
  · cases h2
  dsimp only at h1 h2
  obtain ⟨⟨kr, kd⟩, kl, ke, ke'⟩ := vmapBody st (hf x x' hx) s t hn _ _ _ _ hm hm'
  dsimp only at kr kd
  subst kd
  rcases hr : Verif.vmapRest localMach st db f s xs with ⟨_, _⟩ | us <;> rw [hr] at h1
  · cases h1
  rcases hr' : Verif.vmapRest localMach st db g t xs' with ⟨_, _⟩ | us' <;> rw [hr'] at h2
  · cases h2
  dsimp only at h1 h2
  have hv : Tied e (Val.ofList (a :: us)) (Val.ofList (b :: us')) := kr.map2 (vmapRest hf hn hxs hr hr') fun a us => Val.ofList (a :: us)
  have := bind (update db) (fun _ _ _ => pure (R := Tied e) hv) s1 t1 (hn.after kl ke ke') _ _ _ _ h1 h2
  exact ⟨this.1, this.2.1, this.2.2.1.trans ke, this.2.2.2.trans ke'⟩

theorem evalShapeM {e : Bool} {m n : M LW Val} (h : Obl (Tied e) m n) : Obl (Tied e) (evalShapeM localMach m) (evalShapeM localMach n) :=
  bind (internal true) fun st st' k => by
    subst k
    exact bind (temp st h) fun v v' hv => pure (hv.map Val.shapeOnly)

theorem initM {e : Bool} (rng : RngArg) {m n : M LW Val} (h : Obl (Tied e) m n) : Obl Eq (initM localMach rng m) (initM localMach rng n) := by
  unfold Verif.initM
  cases rng.toSeq with
  | error x => exact throwL
  | ok r => exact inCtx _ h (fun _ _ => rfl) (fun _ _ => rfl) fun a b c _ => pure rfl

/-- `apply`: the returned state is the same, the returned value as tied as that of the function. -/
theorem applyM {e : Bool} (params state : Option PDict) (rng : RngArg) {m n : M LW Val} (h : Obl (Tied e) m n) :
    Obl (fun a b => ∃ v v' st, a = Val.pair v st ∧ b = Val.pair v' st ∧ Tied e v v') (applyM localMach params state rng m) (applyM localMach params state rng n) := by
  unfold Verif.applyM
  cases rng.toSeq with
  | error x => exact throwL
  | ok r => exact inCtx _ h (fun _ _ => rfl) (fun _ _ => rfl) fun a b c hab => pure ⟨_, _, _, rfl, rfl, hab⟩

end Obl
end Verif
