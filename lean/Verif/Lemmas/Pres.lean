import Verif.Model.Local

/-!
# Relations preserved by computations

`Pres R m`: running `m` from `s` ends in a state related to `s`, whether or not it raises.
-/

set_option linter.unusedSectionVars false
set_option linter.unusedVariables false

namespace Verif
open Names Frame

variable {σ α β : Type}

/-- Every run of `m`, also a failing one, ends in a state related to the starting state. -/
def Pres (R : σ → σ → Prop) (m : M σ α) : Prop := ∀ s, R s (m s).2

/-- Reflexive and transitive. -/
structure Preord (R : σ → σ → Prop) : Prop where
  refl : ∀ s, R s s
  trans : ∀ {a b c}, R a b → R b c → R a c

namespace Pres
variable {R : σ → σ → Prop} (O : Preord R)
include O

theorem pure (a : α) : Pres R (M.pure a : M σ α) := fun s => O.refl s
theorem throw (e : Exc) : Pres R (M.throw e : M σ α) := fun s => O.refl s
theorem get : Pres R (M.get : M σ σ) := fun s => O.refl s

theorem bind {m : M σ α} {f : α → M σ β} (hm : Pres R m) (hf : ∀ a, Pres R (f a)) : Pres R (m >>- f) := by
  intro s
  have h := hm s
  unfold M.bind
  rcases hms : m s with ⟨_ | a, s'⟩
  · rw [hms] at h; exact h
  · rw [hms] at h; exact O.trans h (hf a s')

theorem tryCatch {m : M σ α} {f : Exc → M σ α} (hm : Pres R m) (hf : ∀ a, Pres R (f a)) : Pres R (M.tryCatch m f) := by
  intro s
  have h := hm s
  unfold M.tryCatch
  rcases hms : m s with ⟨e | a, s'⟩
  · rw [hms] at h; exact O.trans h (hf e s')
  · rw [hms] at h; exact h

end Pres

/-- `m` does not change the state. -/
def ReadOnly (m : M σ α) : Prop := ∀ s, (m s).2 = s

theorem ReadOnly.pure (a : α) : ReadOnly (M.pure a : M σ α) := fun _ => rfl
theorem ReadOnly.throw (e : Exc) : ReadOnly (M.throw e : M σ α) := fun _ => rfl
theorem ReadOnly.get : ReadOnly (M.get : M σ σ) := fun _ => rfl
theorem ReadOnly.bind {m : M σ α} {f : α → M σ β} (hm : ReadOnly m) (hf : ∀ a, ReadOnly (f a)) : ReadOnly (m >>- f) := by
  intro s
  have h := hm s
  unfold M.bind
  rcases hms : m s with ⟨_ | a, s'⟩
  · rw [hms] at h; exact h
  · rw [hms] at h; show (f a s').2 = s; rw [hf a s']; exact h

theorem ReadOnly.ite {c : Prop} [Decidable c] {a b : M σ α} (ha : ReadOnly a) (hb : ReadOnly b) : ReadOnly (if c then a else b) := by
  split
  · exact ha
  · exact hb

theorem readOnly_internalState (b : Bool) : ReadOnly (internalState b) := fun _ => rfl
theorem readOnly_getModuleName (m : ModId) : ReadOnly (getModuleName m) := fun _ => rfl
theorem readOnly_checkCtor (m : ModId) : ReadOnly (checkCtor m) := by
  apply ReadOnly.bind (readOnly_getModuleName m)
  intro nm
  cases nm
  · exact ReadOnly.throw _
  · exact ReadOnly.pure _

/-- The frame operations the interpreter runs preserve `R`. -/
structure TopPres (K : Mach σ) (R : σ → σ → Prop) : Prop where
  op : ∀ o, Pres R (K.top (Op.run o))
  read : ∀ {α : Type} (f : FOp α), (∀ E, ReadOnly (f E)) → Pres R (K.top f)
  update : ∀ d, Pres R (K.top (updateInternalState d))
  reserve : Pres R (K.top fun _ => reserveFull)
  alloc : Pres R (K.top fun _ => allocModule)
  notify : ∀ self nm, Pres R (K.top (Frame.notify self nm))

/-- The `with` blocks preserve `R` when their body does. -/
structure BlockPres (K : Mach σ) (R : σ → σ → Prop) : Prop where
  temp : ∀ {α : Type} st (m : M σ α), Pres R m → Pres R (K.temp st m)
  inModule : ∀ {α : Type} ms (m : M σ α), Pres R m → Pres R (K.inModule ms m)
  inRng : ∀ {α : Type} q (m : M σ α), Pres R m → Pres R (K.inRng q m)
  inHook : ∀ {α : Type} h (m : M σ α), Pres R m → Pres R (K.inHook h m)
  inCtx : ∀ {α : Type} c (m : M σ α), Pres R m → Pres R (K.inCtx c m)

section
variable {K : Mach σ} {R : σ → σ → Prop} (O : Preord R) (T : TopPres K R) (B : BlockPres K R)
include O

omit O in
theorem TopPres.internal (T : TopPres K R) (b : Bool) : Pres R (K.top fun _ => internalState b) :=
  T.read _ fun _ => readOnly_internalState b

theorem pres_runInterceptors {self : ModId} {method : Str} {body : Val → M σ Val} (hb : ∀ v, Pres R (body v)) :
    ∀ (is : List Interceptor) (args : Val), Pres R (runInterceptors self method body is args) := by
  intro is
  induction is with
  | nil => exact hb
  | cons i is ih =>
    intro args
    unfold runInterceptors
    cases i self method args with
    | done v => exact Pres.pure O v
    | raise e => exact Pres.throw O e
    | next a post => exact Pres.bind O (ih a) fun v => Pres.pure O _
    | orig a post => exact Pres.bind O (hb a) fun v => Pres.pure O _

include T B

theorem pres_jitM {m : M σ Val} (hm : Pres R m) : Pres R (jitM K m) :=
  Pres.bind O (T.internal true) fun st =>
  Pres.bind O (B.temp st _ (Pres.bind O hm fun _ => Pres.bind O (T.internal true) fun _ => Pres.pure O _)) fun r =>
  Pres.bind O (T.update r.2) fun _ => Pres.pure O _

theorem pres_wrapMethod {self : ModId} {method : Str} {args : Val} {body : Val → M σ Val} (hb : ∀ v, Pres R (body v)) :
    Pres R (wrapMethod K self method args body) := by
  refine B.inModule _ _ (Pres.bind O (T.read _ fun E => ReadOnly.bind (readOnly_getModuleName self) fun _ => ReadOnly.pure _) fun r => ?_)
  have hi := pres_runInterceptors O (self := self) (method := method) hb r.2.1 args
  refine Pres.bind O ?_ fun v => Pres.bind O (T.notify _ _) fun _ => Pres.pure O _
  split
  · exact pres_jitM O T B hi
  · exact hi

theorem pres_construct {args : Val} {ctor : ModId → Val → M σ Val} (hc : ∀ i v, Pres R (ctor i v)) : Pres R (construct K args ctor) :=
  Pres.bind O T.alloc fun id => Pres.bind O (pres_wrapMethod O T B (hc id)) fun _ =>
    Pres.bind O (T.read _ fun _ => readOnly_checkCtor id) fun _ => Pres.pure O _

theorem pres_nameScopeCtor : ∀ parts : List Str, Pres R (nameScopeCtor K parts)
  | [] => Pres.throw O _
  | [n] => pres_construct O T B fun _ _ => T.op _
  | n :: m :: ns => Pres.bind O (pres_construct O T B fun _ _ => T.op _) fun id => B.inModule _ _ (pres_nameScopeCtor (m :: ns))

theorem pres_nameScopeM {name : Str} {m : M σ Val} (hm : Pres R m) : Pres R (nameScopeM K name m) := by
  refine Pres.bind O (T.read _ fun _ => ReadOnly.pure _) fun _ => ?_
  split
  · exact Pres.throw O _
  · exact Pres.bind O (pres_nameScopeCtor O T B _) fun id => B.inModule _ _ hm

theorem pres_branchM {st : IState} {m : M σ Val} (hm : Pres R m) : Pres R (branchM K st m) :=
  B.temp _ _ (Pres.bind O hm fun _ => Pres.bind O T.reserve fun _ => Pres.bind O (T.internal true) fun _ => Pres.pure O _)

theorem pres_runBranches {st : IState} {s : σ} : ∀ {ms : List (M σ Val)}, (∀ m ∈ ms, Pres R m) →
    (∀ e s', runBranches K st ms s = .error (e, s') → R s s') ∧
    (∀ rs, runBranches K st ms s = .ok rs → ∀ r ∈ rs, R s r.2) := by
  intro ms
  induction ms with
  | nil =>
    intro _
    exact ⟨fun e s' h => (by simp [runBranches] at h), fun rs h r hr => by
      simp [runBranches] at h; subst h; simp at hr⟩
  | cons m ms ih =>
    intro hms
    have hb := pres_branchM O T B (st := st) (hms m (by simp)) s
    obtain ⟨ih1, ih2⟩ := ih fun m hm => hms m (by simp [hm])
    unfold runBranches
    rcases hbs : branchM K st m s with ⟨e | r, s'⟩ <;> rw [hbs] at hb
    · refine ⟨fun e' s'' h => ?_, fun rs h => by simp at h⟩
      simp only [Except.error.injEq, Prod.mk.injEq] at h
      rw [← h.2]; exact hb
    · rcases hrs : runBranches K st ms s with x | rs
      · refine ⟨fun e' s'' h => ?_, fun rs h => by simp at h⟩
        simp only [Except.error.injEq] at h
        exact ih1 e' s'' (by rw [hrs, h])
      · refine ⟨fun e' s'' h => by simp at h, fun rs' h r' hr' => ?_⟩
        simp only [Except.ok.injEq] at h
        subst h
        rcases List.mem_cons.1 hr' with rfl | hr'
        · exact hb
        · exact ih2 rs hrs r' hr'

theorem pres_switchFrom {i : Nat} {ms : List (M σ Val)} (hms : ∀ m ∈ ms, Pres R m) (st : IState) : Pres R (switchFrom K i ms st) := by
  intro s
  obtain ⟨h1, h2⟩ := pres_runBranches O T B (st := st) (s := s) hms
  unfold switchFrom
  rcases hrs : runBranches K st ms s with ⟨e, s'⟩ | rs
  · exact h1 e s' hrs
  · dsimp only
    rcases hi : rs[i]? with _ | ⟨⟨v, st'⟩, s'⟩
    · exact O.refl s
    · dsimp only
      split
      · exact O.trans (h2 rs hrs _ (List.mem_of_getElem? hi)) (Pres.bind O (T.update _) (fun _ => Pres.pure O _) s')
      · exact O.refl s

theorem pres_switchM {i : Nat} {ms : List (M σ Val)} (hms : ∀ m ∈ ms, Pres R m) : Pres R (switchM K i ms) :=
  Pres.bind O T.reserve fun _ => Pres.bind O (T.internal true) (pres_switchFrom O T B hms)

omit T B in
theorem pres_asPair (v : Val) : Pres R (asPair v : M σ _) := by
  cases v <;> first | exact Pres.pure O _ | exact Pres.throw O _

theorem pres_scanStep {f : Val → Val → M σ Val} (hf : ∀ c x, Pres R (f c x)) (c x : Val) (st : IState) :
    Pres R (scanStep K f c x st) := by
  refine Pres.bind O (B.temp _ _ (Pres.bind O (T.internal true) fun _ => Pres.bind O (hf c x) fun r =>
    Pres.bind O (pres_asPair O r) fun cy => Pres.bind O (T.internal true) fun _ => ?_)) fun r => ?_
  · split
    · exact Pres.throw O _
    · exact Pres.bind O T.reserve fun _ => Pres.bind O (T.internal false) fun _ => Pres.pure O _
  · split
    · exact Pres.pure O _
    · exact Pres.throw O _

omit T B in
theorem pres_scanLoop {step : Val → Val → IState → M σ (Val × Val × IState)} (hs : ∀ c x st, Pres R (step c x st)) :
    ∀ xs c st, Pres R (scanLoop step xs c st) := by
  intro xs
  induction xs with
  | nil => intro c st; exact Pres.pure O _
  | cons x xs ih => intro c st; exact Pres.bind O (hs c x st) fun r => Pres.bind O (ih _ _) fun _ => Pres.pure O _

theorem pres_scanTail {f : Val → Val → M σ Val} (hf : ∀ c x, Pres R (f c x)) (c : Val) (xs : List Val) (rev : Bool) :
    Pres R (scanTail K f c xs rev) :=
  Pres.bind O T.reserve fun _ => Pres.bind O (T.internal false) fun _ =>
    Pres.bind O (pres_scanLoop O (pres_scanStep O T B hf) _ _ _) fun _ => Pres.bind O (T.update _) fun _ => Pres.pure O _

theorem pres_scanM {f : Val → Val → M σ Val} (hf : ∀ c x, Pres R (f c x)) (init zero : Val) (xs : List Val) (rev : Bool) :
    Pres R (scanM K f init zero xs rev) := by
  refine Pres.bind O (T.read _ fun _ => ReadOnly.pure _) fun fr => ?_
  split
  · exact Pres.bind O (pres_scanTail O T B hf _ _ _) fun _ => Pres.pure O _
  · split
    · exact Pres.bind O (hf _ _) fun r => Pres.bind O (pres_asPair O r) fun _ => Pres.pure O _
    · refine Pres.bind O (hf _ _) fun r => Pres.bind O (pres_asPair O r) fun cy => ?_
      dsimp only
      generalize (if rev = true then xs.dropLast else xs.tail) = ys
      split
      · exact Pres.pure O _
      · exact Pres.bind O (pres_scanTail O T B hf _ _ _) fun _ => Pres.pure O _

theorem pres_foriStep {body : Int → Val → M σ Val} (hf : ∀ i v, Pres R (body i v)) (i : Int) (v : Val) (st : IState) :
    Pres R (foriStep K body i v st) := by
  refine Pres.bind O (pres_branchM O T B (hf i v)) fun r => ?_
  split
  · exact Pres.pure O _
  · exact Pres.throw O _

omit T B in
theorem pres_foriLoop {step : Int → Val → IState → M σ (Val × IState)} (hs : ∀ i v st, Pres R (step i v st)) :
    ∀ n i v st, Pres R (foriLoop step n i v st) := by
  intro n
  induction n with
  | zero => intro i v st; exact Pres.pure O _
  | succ n ih => intro i v st; exact Pres.bind O (hs i v st) fun r => ih _ _ _

theorem pres_foriTail {body : Int → Val → M σ Val} (hf : ∀ i v, Pres R (body i v)) (lo up : Int) (init : Val) :
    Pres R (foriTail K lo up body init) :=
  Pres.bind O T.reserve fun _ => Pres.bind O (T.internal true) fun _ =>
    Pres.bind O (pres_foriLoop O (pres_foriStep O T B hf) _ _ _ _) fun _ => Pres.bind O (T.update _) fun _ => Pres.pure O _

theorem pres_foriM {body : Int → Val → M σ Val} (hf : ∀ i v, Pres R (body i v)) (lo up : Int) (init : Val) :
    Pres R (foriM K lo up body init) := by
  refine Pres.bind O (T.read _ fun _ => ReadOnly.pure _) fun fr => ?_
  split
  · exact pres_foriTail O T B hf _ _ _
  · refine Pres.bind O (hf _ _) fun v => ?_
    split
    · exact Pres.pure O _
    · exact pres_foriTail O T B hf _ _ _

omit B in
theorem pres_whileCond {c : Val → M σ Val} (hc : ∀ v, Pres R (c v)) (v : Val) : Pres R (whileCond K c v) := by
  refine Pres.bind O (T.read _ fun _ => ReadOnly.get) fun _ => Pres.bind O (hc v) fun r =>
    Pres.bind O (T.read _ fun _ => ReadOnly.get) fun _ => ?_
  split
  · exact Pres.throw O _
  · cases r <;> first | exact Pres.pure O _ | exact Pres.throw O _

theorem pres_whileBody {body : Val → M σ Val} (hb : ∀ v, Pres R (body v)) (v : Val) (st : IState) : Pres R (whileBody K body v st) := by
  refine Pres.bind O (B.temp _ _ (Pres.bind O (hb v) fun _ => Pres.bind O (T.internal true) fun _ => Pres.pure O _)) fun r => ?_
  split
  · exact Pres.pure O _
  · exact Pres.throw O _

omit T B in
theorem pres_whileLoopM {c : Val → M σ Bool} {body : Val → IState → M σ (Val × IState)} {s0 : σ} {S : σ → σ → Prop}
    (hS : ∀ {a b d}, S a b → R b d → S a d)
    (hc : ∀ v, S s0 (c v s0).2) (hb : ∀ v st, Pres R (body v st)) :
    ∀ n v st s, S s0 s → S s0 (whileLoopM c body s0 n v st s).2 := by
  intro n
  induction n with
  | zero => intro v st s h; exact h
  | succ n ih =>
    intro v st s h
    have h0 := hc v
    unfold whileLoopM
    rcases hcs : c v s0 with ⟨e | b, s'⟩ <;> rw [hcs] at h0
    · exact h0
    · cases b
      · exact h
      · dsimp only
        have h1 := hb v st s
        unfold M.bind
        rcases hbs : body v st s with ⟨e | r, s''⟩ <;> rw [hbs] at h1
        · exact hS h h1
        · exact ih r.1 r.2 s'' (hS h h1)

theorem pres_whileFrom {c body : Val → M σ Val} (hc : ∀ v, Pres R (c v)) (hb : ∀ v, Pres R (body v)) (fuel : Nat) (init : Val)
    (st : IState) : Pres R (whileFrom K fuel c body init st) := by
  intro s
  have h0 := pres_whileCond O T hc init s
  unfold whileFrom
  rcases hcs : whileCond K c init s with ⟨e | b, s1⟩ <;> rw [hcs] at h0
  · exact h0
  · dsimp only
    have hl := pres_whileLoopM (R := R) (S := R) O O.trans (s0 := s) (c := whileCond K c) (body := whileBody K body)
      (fun v => pres_whileCond O T hc v s) (pres_whileBody O T B hb) fuel init st s1 h0
    show R s (M.bind _ _ s1).2
    unfold M.bind
    rcases hls : whileLoopM (whileCond K c) (whileBody K body) s fuel init st s1 with ⟨e | r, s2⟩ <;> rw [hls] at hl
    · exact hl
    · exact O.trans hl (Pres.bind O (T.update _) (fun _ => Pres.pure O r.1) s2)

theorem pres_whileM {c body : Val → M σ Val} (hc : ∀ v, Pres R (c v)) (hb : ∀ v, Pres R (body v)) (fuel : Nat) (init : Val) :
    Pres R (whileM K fuel c body init) :=
  Pres.bind O (T.read _ fun E => ReadOnly.ite (ReadOnly.pure _) (ReadOnly.throw _)) fun _ =>
    Pres.bind O (T.internal true) (pres_whileFrom O T B hc hb fuel init)

theorem pres_vmapBody {m : M σ Val} (hm : Pres R m) (st : IState) : Pres R (vmapBody K st m) :=
  B.temp _ _ (Pres.bind O hm fun _ => Pres.bind O (T.internal true) fun _ => Pres.pure O _)

theorem pres_vmapRest {st : IState} {d : Diff} {f : Val → M σ Val} {s : σ} (hf : ∀ v, Pres R (f v)) :
    ∀ xs e s', vmapRest K st d f s xs = .error (e, s') → R s s' := by
  intro xs
  induction xs with
  | nil => intro e s' h; simp [vmapRest] at h
  | cons x xs ih =>
    intro e s' h
    have h0 := pres_vmapBody O T B (hf x) st s
    unfold vmapRest at h
    rcases hb : vmapBody K st (f x) s with ⟨e1 | ⟨v, d'⟩, s1⟩ <;> rw [hb] at h h0
    · simp only [Except.error.injEq, Prod.mk.injEq] at h
      rw [← h.2]; exact h0
    · dsimp only at h
      split at h
      · rcases hr : vmapRest K st d f s xs with x | vs <;> rw [hr] at h
        · simp only [Except.error.injEq] at h
          exact ih e s' (by rw [hr, h])
        · simp at h
      · simp only [Except.error.injEq, Prod.mk.injEq] at h
        rw [← h.2]; exact h0

theorem pres_vmapFrom {f : Val → M σ Val} (hf : ∀ v, Pres R (f v)) (x : Val) (xs : List Val) (st : IState) :
    Pres R (vmapFrom K f x xs st) := by
  intro s
  have h0 := pres_vmapBody O T B (hf x) st s
  unfold vmapFrom
  rcases hb : vmapBody K st (f x) s with ⟨e | ⟨v, d⟩, s1⟩ <;> rw [hb] at h0
  · exact h0
  · dsimp only
    rcases hr : vmapRest K st d f s xs with ⟨e, s'⟩ | vs
    · exact pres_vmapRest O T B hf xs e s' hr
    · exact O.trans h0 (Pres.bind O (T.update _) (fun _ => Pres.pure O _) s1)

theorem pres_vmapM {f : Val → M σ Val} (hf : ∀ v, Pres R (f v)) (x : Val) (xs : List Val) : Pres R (vmapM K f x xs) :=
  Pres.bind O (T.internal true) (pres_vmapFrom O T B hf x xs)

theorem pres_evalShapeM {m : M σ Val} (hm : Pres R m) : Pres R (evalShapeM K m) :=
  Pres.bind O (T.internal true) fun _ => Pres.bind O (B.temp _ _ hm) fun _ => Pres.pure O _

theorem pres_initM {m : M σ Val} (hm : Pres R m) (rng : RngArg) : Pres R (initM K rng m) := by
  unfold initM
  split
  · exact Pres.throw O _
  · refine Pres.bind O (B.inCtx _ _ hm) fun q => ?_
    split
    · exact Pres.throw O _
    · exact Pres.pure O _

theorem pres_applyM {m : M σ Val} (hm : Pres R m) (params state : Option PDict) (rng : RngArg) :
    Pres R (applyM K params state rng m) := by
  unfold applyM
  split
  · exact Pres.throw O _
  · refine Pres.bind O (B.inCtx _ _ hm) fun q => ?_
    split
    · exact Pres.throw O _
    · exact Pres.pure O _

/-- A relation preserved by every frame operation and every `with` block is preserved by every program. -/
theorem pres_run (p : Prog) : Pres R (p.run K) := by
  induction p with
  | ret v => exact Pres.pure O v
  | raise e => exact Pres.throw O e
  | bind p k ihp ihk => exact Pres.bind O ihp ihk
  | tryCatch p h ihp ihh => exact Pres.tryCatch O ihp ihh
  | op o => exact T.op o
  | withRng r p ih =>
    refine Pres.bind O (T.read _ fun _ => ReadOnly.pure _) fun _ => ?_
    split
    · exact Pres.throw O _
    · exact B.inRng _ _ ih
  | withHook h p ih => exact Pres.bind O (T.read _ fun _ => ReadOnly.pure _) fun _ => B.inHook _ _ ih
  | newModule args ctor ih => exact Pres.bind O (pres_construct O T B ih) fun _ => Pres.pure O _
  | callMethod self method args body ih => exact pres_wrapMethod O T B ih
  | nameScope name p ih => exact pres_nameScopeM O T B ih
  | jit p ih => exact pres_jitM O T B ih
  | cond b t f iht ihf => exact pres_switchM O T B (by simp [iht, ihf])
  | switch i n br ih => exact pres_switchM O T B (by simp [ih])
  | scan f init zero xs rev ih => exact pres_scanM O T B ih _ _ _ _
  | fori lo up body init ih => exact pres_foriM O T B ih _ _ _
  | whileLoop fuel c body init ihc ihb => exact pres_whileM O T B ihc ihb _ _
  | vmap f x xs ih => exact pres_vmapM O T B ih _ _
  | evalShape p ih => exact pres_evalShapeM O T B ih
  | initT rng p ih => exact pres_initM O T B ih _
  | applyT params state rng p ih => exact pres_applyM O T B ih _ _ _

end
end Verif
