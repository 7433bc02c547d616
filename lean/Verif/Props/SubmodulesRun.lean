import Verif.Props.Submodules

/-!
# Which accesses `params_dict` and `state_dict` show, over whole runs (C45)
-/

set_option linter.unusedVariables false

namespace Verif.Props.Submodules
open Verif Names Frame
open Verif.Props.Context Verif.Props.Control Verif.Props.Params Verif.Props.State

variable {α β : Type}

/-! ### Specification vocabulary -/

/-- The bundle of an access. -/
def bundleOf : Event → Str
  | .paramNew b _ _ => b
  | .paramRead b _ _ => b
  | .stateNew b _ _ => b
  | .stateRead b _ _ => b
  | .stateSet b _ _ => b

/-- The accesses to the dictionaries of the current frame so far. -/
def accesses (w : World) : List Event := (w.frames.head?.map FrameS.trace).getD []

mutual
/-- Programs that catch no exception and call `super().__init__()` only in constructors of the module itself, once. -/
inductive Orderly : Prog → Prop
  | ret (v) : Orderly (.ret v)
  | raise (e) : Orderly (.raise e)
  | bind {p k} : Orderly p → (∀ v, Orderly (k v)) → Orderly (.bind p k)
  | op {o} : (∀ m n cls, o ≠ .superInit m n cls) → Orderly (.op o)
  | withRng {r p} : Orderly p → Orderly (.withRng r p)
  | withHook {h p} : Orderly p → Orderly (.withHook h p)
  | newModule {args ctor} : (∀ id a, Ctor id (ctor id a)) → Orderly (.newModule args ctor)
  | callMethod {self method args body} : (∀ a, Orderly (body a)) → Orderly (.callMethod self method args body)
  | nameScope {name p} : Orderly p → Orderly (.nameScope name p)
  | jit {p} : Orderly p → Orderly (.jit p)
  | cond {b t f} : Orderly t → Orderly f → Orderly (.cond b t f)
  | switch {i n br} : (∀ j, Orderly (br j)) → Orderly (.switch i n br)
  | scan {f init zero xs rev} : (∀ c x, Orderly (f c x)) → Orderly (.scan f init zero xs rev)
  | fori {lo up body init} : (∀ i v, Orderly (body i v)) → Orderly (.fori lo up body init)
  | whileLoop {fuel c body init} : (∀ v, Orderly (c v)) → (∀ v, Orderly (body v)) → Orderly (.whileLoop fuel c body init)
  | vmap {f x xs} : (∀ v, Orderly (f v)) → Orderly (.vmap f x xs)
  | evalShape {p} : Orderly p → Orderly (.evalShape p)
  | initT {rng p} : Orderly p → Orderly (.initT rng p)
  | applyT {params state rng p} : Orderly p → Orderly (.applyT params state rng p)

/-- Constructors of module `id`: some statements, then `super().__init__()` once, then other statements. -/
inductive Ctor : ModId → Prog → Prop
  | now {id n cls} : Ctor id (.op (.superInit id n cls))
  | first {id n cls k} : (∀ v, Orderly (k v)) → Ctor id (.bind (.op (.superInit id n cls)) k)
  | later {id p k} : Orderly p → (∀ v, Ctor id (k v)) → Ctor id (.bind p k)
  | never {id p} : Orderly p → Ctor id p
end

/-! ### The invariant -/

/-- The name in a store of module objects. -/
def nm (h : List ModObj) (m : ModId) : Option Str := h[m]?.bind ModObj.name

/-- The submodules recorded in a store of module objects. -/
def sb (h : List ModObj) (m : ModId) : List Str := (h[m]?.bind ModObj.subs).getD []

/-- A store of module objects after some steps: names are kept, submodules only added, and constructors that have not called `super().__init__()` have not yet been finished by others.  All of it except for module `x`. -/
structure GrowX (x : Option ModId) (h h' : List ModObj) : Prop where
  len : h.length ≤ h'.length
  name : ∀ m n, some m ≠ x → nm h m = some n → nm h' m = some n
  subs : ∀ m b, some m ≠ x → b ∈ sb h m → b ∈ sb h' m
  bare : ∀ m, some m ≠ x → h[m]? = some ⟨none, none⟩ → h'[m]? = some ⟨none, none⟩

theorem GrowX.refl (x : Option ModId) (h : List ModObj) : GrowX x h h := ⟨Nat.le_refl _, fun _ _ _ e => e, fun _ _ _ e => e, fun _ _ e => e⟩

theorem GrowX.trans {x : Option ModId} {a b c : List ModObj} (h : GrowX x a b) (k : GrowX x b c) : GrowX x a c :=
  ⟨Nat.le_trans h.len k.len, fun m n hx e => k.name m n hx (h.name m n hx e), fun m b hx e => k.subs m b hx (h.subs m b hx e), fun m hx e => k.bare m hx (h.bare m hx e)⟩

theorem GrowX.weaken {x : Option ModId} {a b : List ModObj} (h : GrowX none a b) : GrowX x a b :=
  ⟨h.len, fun m n _ => h.name m n (by simp), fun m b _ => h.subs m b (by simp), fun m _ => h.bare m (by simp)⟩

/-- Bundle `b` is that of the running method, or shown by all modules with running methods. -/
def Cov (ms : List (ModId × Str)) (h : List ModObj) (b : Str) : Prop :=
  (∃ t, ms.head?.map Prod.fst = some t ∧ nm h t = some b) ∨ ∀ m ∈ ms.map Prod.fst, nm h m = some b ∨ b ∈ sb h m

theorem Cov.mono {ms : List (ModId × Str)} {h h' : List ModObj} {b : Str} (g : GrowX none h h') (c : Cov ms h b) : Cov ms h' b := by
  rcases c with ⟨t, h1, h2⟩ | c
  · exact .inl ⟨t, h1, g.name t b (by simp) h2⟩
  · exact .inr fun m hm => (c m hm).imp (g.name m b (by simp)) (g.subs m b (by simp))

/-- The accesses `t` became `t'` by accesses to covered bundles. -/
def Ext (ms : List (ModId × Str)) (h' : List ModObj) (t t' : List Event) : Prop := ∃ new, t' = t ++ new ∧ ∀ e ∈ new, Cov ms h' (bundleOf e)

theorem Ext.refl (ms : List (ModId × Str)) (h : List ModObj) (t : List Event) : Ext ms h t t := ⟨[], (List.append_nil t).symm, fun e he => nomatch he⟩

/-- What an orderly program does to the module objects and to the accesses. -/
def Rel (ms : List (ModId × Str)) (h : List ModObj) (t : List Event) (h' : List ModObj) (t' : List Event) : Prop := GrowX none h h' ∧ Ext ms h' t t'

theorem Rel.refl (ms : List (ModId × Str)) (h : List ModObj) (t : List Event) : Rel ms h t h t := ⟨GrowX.refl _ _, Ext.refl _ _ _⟩

theorem Ext.trans {ms : List (ModId × Str)} {h h' : List ModObj} {t t' t'' : List Event} (g : GrowX none h h') (a : Ext ms h t t') (b : Ext ms h' t' t'') : Ext ms h' t t'' := by
  obtain ⟨n1, rfl, c1⟩ := a
  obtain ⟨n2, rfl, c2⟩ := b
  refine ⟨n1 ++ n2, List.append_assoc _ _ _, fun e he => ?_⟩
  rcases List.mem_append.mp he with h | h
  · exact (c1 e h).mono g
  · exact c2 e h

theorem Rel.trans {ms : List (ModId × Str)} {h h' h'' : List ModObj} {t t' t'' : List Event} (a : Rel ms h t h' t') (b : Rel ms h' t' h'' t'') : Rel ms h t h'' t'' :=
  ⟨a.1.trans b.1, Ext.trans b.1 a.2 b.2⟩

/-- Runs of `f` that return keep the surroundings and are as orderly programs are. -/
def Good (f : M LW α) : Prop := ∀ s v s', f s = (.ok v, s') → s'.env = s.env ∧ Rel s.env.modules s.loc.heap s.loc.trace s'.loc.heap s'.loc.trace

theorem bind_ok {σ : Type} {m : M σ α} {f : α → M σ β} {s s' : σ} {v : β} (h : (m >>- f) s = (.ok v, s')) : ∃ a s1, m s = (.ok a, s1) ∧ f a s1 = (.ok v, s') := by
  unfold M.bind at h
  rcases hm : m s with ⟨e | a, s1⟩
  · rw [hm] at h; cases h
  · rw [hm] at h; exact ⟨a, s1, rfl, h⟩

theorem Good.pure (a : α) : Good (M.pure a : M LW α) := fun s v s' h => by cases h; exact ⟨rfl, Rel.refl _ _ _⟩

theorem Good.throw (e : Exc) : Good (M.throw e : M LW α) := fun s v s' h => by cases h

theorem Good.bind {m : M LW α} {f : α → M LW β} (hm : Good m) (hf : ∀ a, Good (f a)) : Good (m >>- f) := by
  intro s v s' h
  obtain ⟨a, s1, h1, h2⟩ := bind_ok h
  obtain ⟨e1, r1⟩ := hm _ _ _ h1
  obtain ⟨e2, r2⟩ := hf _ _ _ _ h2
  rw [e1] at e2 r2
  exact ⟨e2, r1.trans r2⟩

/-- Operations on the frame that leave module objects and accesses alone. -/
theorem Good.still {f : FOp α} (h : ∀ E s, (f E s).2.heap = s.heap ∧ (f E s).2.trace = s.trace) : Good (localMach.top f) := by
  intro s v s' hs
  rw [top_eq] at hs
  obtain ⟨-, rfl⟩ := Prod.mk.inj hs
  refine ⟨rfl, ?_⟩
  show Rel _ _ _ (f s.env s.loc).2.heap (f s.env s.loc).2.trace
  rw [(h _ _).1, (h _ _).2]
  exact Rel.refl _ _ _

theorem Good.read {f : FOp α} (h : ∀ E, ReadOnly (f E)) : Good (localMach.top f) := Good.still fun E s => by rw [h E s]; exact ⟨rfl, rfl⟩

/-! ### Frame operations -/

/-- The module objects are the same and all new accesses are to bundle `b`. -/
def Only (b : Str) (s s' : Loc) : Prop := s'.heap = s.heap ∧ ∃ new, s'.trace = s.trace ++ new ∧ ∀ e ∈ new, bundleOf e = b

theorem Only.preord (b : Str) : Preord (Only b) where
  refl s := ⟨rfl, [], (List.append_nil _).symm, fun e he => nomatch he⟩
  trans := by
    rintro s1 s2 s3 ⟨h1, n1, t1, c1⟩ ⟨h2, n2, t2, c2⟩
    refine ⟨h2.trans h1, n1 ++ n2, by rw [t2, t1, List.append_assoc], fun e he => ?_⟩
    rcases List.mem_append.mp he with h | h
    · exact c1 e h
    · exact c2 e h

theorem Only.still {b : Str} {s s' : Loc} (h : s'.heap = s.heap) (t : s'.trace = s.trace) : Only b s s' := ⟨h, [], by rw [t, List.append_nil], fun e he => nomatch he⟩

theorem Only.ofNoRng {b : Str} {f : M Loc α} (h : Pres (Keep Loc.noRng) f) : Pres (Only b) f := by
  intro s
  have := h s
  simp only [Keep, Loc.noRng, Prod.mk.injEq] at this
  exact Only.still this.2.2.2.1 this.2.2.2.2

theorem Only.record {b : Str} {e : Event} (h : bundleOf e = b) : Pres (Only b) (record e) := fun s =>
  ⟨rfl, [e], rfl, fun e' he => by rw [List.mem_singleton.mp he]; exact h⟩

theorem Only.modify {b : Str} {g : Loc → Loc} (h : ∀ s, (g s).heap = s.heap ∧ (g s).trace = s.trace) : Pres (Only b) (M.modify g) := fun s => Only.still (h s).1 (h s).2

/-- After the name of the bundle is known, everything is about this bundle. -/
theorem only_named {E : Env} {f : Str → M Loc α} (h : ∀ b, Pres (Only b) (f b)) (s : Loc) :
    ((bundleName E >>- f) s).2.heap = s.heap ∧ Ext E.modules s.heap s.trace ((bundleName E >>- f) s).2.trace := by
  rcases hb : bundleName E s with ⟨e | b, s1⟩
  · have h1 : s1 = s := by have := readOnly_bundleName E s; rw [hb] at this; exact this
    have h2 : (bundleName E >>- f) s = (.error e, s1) := by unfold M.bind; rw [hb]
    rw [h2, h1]
    exact ⟨rfl, Ext.refl _ _ _⟩
  · have h1 : s1 = s := by have := readOnly_bundleName E s; rw [hb] at this; exact this
    have h2 : (bundleName E >>- f) s = f b s1 := by unfold M.bind; rw [hb]
    rw [h2, h1]
    obtain ⟨k1, new, k2, k3⟩ := h b s
    refine ⟨k1, new, k2, fun e he => ?_⟩
    rw [k3 e he]
    unfold bundleName currentModule at hb
    rcases hm : E.modules with _ | ⟨t, ms⟩
    · exact .inr fun m hm => nomatch hm
    · rw [hm] at hb
      dsimp only [List.head?_cons, Option.map_some] at hb
      obtain ⟨hb, -⟩ := Prod.mk.inj hb
      refine .inl ⟨t.1, rfl, ?_⟩
      unfold moduleName at hb
      unfold nm
      rcases ho : s.heap[t.1]? with _ | ⟨_ | n, q⟩
      · rw [ho] at hb; cases hb
      · rw [ho] at hb; cases hb
      · rw [ho] at hb
        cases hb
        rfl

theorem op_trace {E : Env} (o : Op) (ho : ∀ m n cls, o ≠ .superInit m n cls) (s : Loc) : (o.run E s).2.heap = s.heap ∧ Ext E.modules s.heap s.trace (o.run E s).2.trace := by
  have O := Only.preord
  have fin : ∀ {γ : Type} {f : M Loc γ} {g : γ → Val} {s : Loc}, ((f >>- fun a => M.pure (g a)) s).2 = (f s).2 := by
    intro γ f g s
    unfold M.bind
    rcases f s with ⟨e | a, s1⟩ <;> rfl
  have still : ∀ {s' : Loc}, s'.heap = s.heap → s'.trace = s.trace → s'.heap = s.heap ∧ Ext E.modules s.heap s.trace s'.trace := fun h t => ⟨h, by rw [t]; exact Ext.refl _ _ _⟩
  have kept : ∀ {γ : Type} {f : M Loc γ}, Pres (Only []) f → (∀ s, (f s).2.trace = s.trace) → (f s).2.heap = s.heap ∧ Ext E.modules s.heap s.trace (f s).2.trace := fun h t => still (h s).1 (t s)
  have seq : ∀ {γ : Type} {f : PRNGSeq → M Loc γ}, (∀ q, (f q s).2.heap = s.heap ∧ (f q s).2.trace = s.trace) → ((rngSeqOrFail >>- f) s).2.heap = s.heap ∧ ((rngSeqOrFail >>- f) s).2.trace = s.trace := by
    intro γ f h
    rw [rngSeqOrFail_eq]
    split
    · exact ⟨rfl, rfl⟩
    · exact h _
  have draw : ∀ q, (drawKey q s).2.heap = s.heap ∧ (drawKey q s).2.trace = s.trace := by
    intro q
    have := keep_noRng_draw q s
    simp only [Keep, Loc.noRng, Prod.mk.injEq] at this
    exact ⟨this.2.2.2.1, this.2.2.2.2⟩
  have ro : ∀ {γ : Type} {f : M Loc γ}, ReadOnly f → (f s).2.heap = s.heap ∧ Ext E.modules s.heap s.trace (f s).2.trace := fun h => by rw [h s]; exact still rfl rfl
  cases o with
  | getParam n sh dt i =>
    show ((getParameter n sh dt i E >>- fun a => M.pure (Val.arr a)) s).2.heap = _ ∧ Ext _ _ _ ((getParameter n sh dt i E >>- fun a => M.pure (Val.arr a)) s).2.trace
    rw [fin]
    unfold getParameter
    cases i with
    | none => exact still rfl rfl
    | some i =>
      refine only_named (fun b => Pres.bind (O b) (Pres.get (O b)) fun s0 => ?_) s
      split
      · exact Pres.throw (O b) _
      · refine Pres.bind (O b) ?_ fun _ => Pres.bind (O b) ?_ fun a => Pres.bind (O b) (Pres.readOnly (O b) (readOnly_liftExcept _)) fun r => ?_
        · split
          · exact Pres.pure (O b) _
          · exact Only.modify fun _ => ⟨rfl, rfl⟩
        · split
          · exact Pres.bind (O b) (Only.record rfl) fun _ => Pres.pure (O b) _
          · split
            · exact Pres.throw (O b) _
            · exact Pres.bind (O b) (Only.ofNoRng (keep_noRng_runCreators _ _ _ _ _)) fun a => Pres.bind (O b) (Only.modify fun _ => ⟨rfl, rfl⟩) fun _ =>
                Pres.bind (O b) (Only.record rfl) fun _ => Pres.pure (O b) _
        · split
          · exact Pres.pure (O b) _
          · exact Pres.throw (O b) _
  | getState n sh dt i =>
    show ((getState n sh dt i E >>- fun a => M.pure (Val.arr a)) s).2.heap = _ ∧ Ext _ _ _ ((getState n sh dt i E >>- fun a => M.pure (Val.arr a)) s).2.trace
    rw [fin]
    unfold getState
    apply only_named
    intro b
    refine Pres.bind (O b) (Only.modify fun _ => ⟨rfl, rfl⟩) fun _ => Pres.bind (O b) (Pres.get (O b)) fun s0 =>
        Pres.bind (O b) ?_ fun _ => Pres.readOnly (O b) (readOnly_liftExcept _)
    split
    · exact Pres.bind (O b) (Only.record rfl) fun _ => Pres.pure (O b) _
    · split
      · exact Pres.throw (O b) _
      · split
        · exact Pres.bind (O b) (Only.ofNoRng (keep_noRng_runCreators _ _ _ _ _)) fun a => Pres.bind (O b) (Only.modify fun _ => ⟨rfl, rfl⟩) fun _ =>
            Pres.bind (O b) (Only.record rfl) fun _ => Pres.pure (O b) _
        · exact Pres.throw (O b) _
  | setState n v =>
    show ((setState n v E >>- fun _ => M.pure Val.unit) s).2.heap = _ ∧ Ext _ _ _ ((setState n v E >>- fun _ => M.pure Val.unit) s).2.trace
    rw [fin]
    unfold setState
    apply only_named
    intro b
    exact Pres.bind (O b) (Only.modify fun _ => ⟨rfl, rfl⟩) fun _ => Pres.bind (O b) (Pres.get (O b)) fun s0 =>
        Pres.bind (O b) (Only.modify fun _ => ⟨rfl, rfl⟩) fun _ => Only.record rfl
  | nextKey =>
    show ((nextRngKey >>- fun k => M.pure (Val.key k)) s).2.heap = _ ∧ Ext _ _ _ ((nextRngKey >>- fun k => M.pure (Val.key k)) s).2.trace
    rw [fin]
    exact still (seq draw).1 (seq draw).2
  | nextKeys n =>
    show ((nextRngKeys n >>- fun ks => M.pure (Val.ofList (ks.map .key))) s).2.heap = _ ∧ Ext _ _ _ ((nextRngKeys n >>- fun ks => M.pure (Val.ofList (ks.map .key))) s).2.trace
    rw [fin]
    exact still (seq fun q => ⟨rfl, rfl⟩).1 (seq fun q => ⟨rfl, rfl⟩).2
  | maybeNextKey =>
    have hm : (maybeNextRngKey s).2.heap = s.heap ∧ (maybeNextRngKey s).2.trace = s.trace := by
      unfold maybeNextRngKey
      split
      · exact ⟨rfl, rfl⟩
      · rename_i q _
        have : ((drawKey q >>- fun k => M.pure (some k)) s).2 = (drawKey q s).2 := by
          unfold M.bind
          rcases drawKey q s with ⟨e | a, s1⟩ <;> rfl
        rw [this]
        exact draw q
    show ((maybeNextRngKey >>- fun k => M.pure (match k with | some k => Val.key k | none => .none)) s).2.heap = _ ∧ Ext _ _ _ ((maybeNextRngKey >>- fun k => M.pure (match k with | some k => Val.key k | none => .none)) s).2.trace
    rw [fin]
    exact still hm.1 hm.2
  | reserve n =>
    show ((reserveRngKeys n >>- fun _ => M.pure Val.unit) s).2.heap = _ ∧ Ext _ _ _ ((reserveRngKeys n >>- fun _ => M.pure Val.unit) s).2.trace
    rw [fin]
    exact still (seq fun q => ⟨rfl, rfl⟩).1 (seq fun q => ⟨rfl, rfl⟩).2
  | runningInit => exact still rfl rfl
  | superInit m n cls => exact absurd rfl (ho m n cls)
  | modDict m b => exact ro (readOnly_modDict m b)
  | liftUnpack m =>
    show ((liftUnpack m E >>- fun d => M.pure (match d with | some d => Val.bundle d | none => .none)) s).2.heap = _ ∧ Ext _ _ _ ((liftUnpack m E >>- fun d => M.pure (match d with | some d => Val.bundle d | none => .none)) s).2.trace
    rw [fin]
    exact ro (readOnly_liftUnpack m E)
  | liftPack m p =>
    show ((liftPack m p E >>- fun _ => M.pure Val.unit) s).2.heap = _ ∧ Ext _ _ _ ((liftPack m p E >>- fun _ => M.pure Val.unit) s).2.trace
    rw [fin]
    unfold liftPack
    split
    · exact still rfl rfl
    · split
      · exact still rfl rfl
      · exact still rfl rfl

theorem Good.op {o : Op} (ho : ∀ m n cls, o ≠ .superInit m n cls) : Good (localMach.top o.run) := by
  intro s v s' hs
  rw [top_eq] at hs
  obtain ⟨-, rfl⟩ := Prod.mk.inj hs
  obtain ⟨h1, h2⟩ := op_trace (E := s.env) o ho s.loc
  refine ⟨rfl, ?_⟩
  show Rel _ _ _ (o.run s.env s.loc).2.heap (o.run s.env s.loc).2.trace
  rw [h1]
  exact ⟨GrowX.refl _ _, h2⟩

/-! ### Blocks and control flow -/

theorem temp_ok {st : IState} {m : M LW α} {s s' : LW} {v : α} (hm : Good m) (h : localMach.temp st m s = (.ok v, s')) :
    ∃ s1, m (s.load st) = (.ok v, s1) ∧ s' = s.back s1 ∧ Rel s.env.modules s.loc.heap st.trace s1.loc.heap s1.loc.trace := by
  rw [temp_eq] at h
  obtain ⟨h1, h2⟩ := Prod.mk.inj h
  exact ⟨(m (s.load st)).2, Prod.ext h1 rfl, h2.symm, (hm (s.load st) v _ (Prod.ext h1 rfl)).2⟩

theorem update_ok {d : Diff} {s s' : LW} {v : Unit} (h : localMach.top (updateInternalState d) s = (.ok v, s')) : s'.env = s.env ∧ s'.loc.heap = s.loc.heap ∧ s'.loc.trace = d.trace := by
  rw [top_eq] at h
  obtain ⟨h1, rfl⟩ := Prod.mk.inj h
  refine ⟨rfl, ?_, ?_⟩
  · show (updateInternalState d s.env s.loc).2.heap = _
    unfold updateInternalState
    dsimp only
    split <;> (try split) <;> (try split) <;> (try split) <;> rfl
  · show (updateInternalState d s.env s.loc).2.trace = _
    unfold updateInternalState
    dsimp only
    split <;> (try split) <;> (try split) <;> (try split) <;> rfl

theorem internal_ok {b : Bool} {s s' : LW} {st : IState} (h : localMach.top (fun _ => internalState b) s = (.ok st, s')) : s' = s ∧ st.trace = s.loc.trace := by
  obtain ⟨h1, h2⟩ := Prod.mk.inj h
  cases h1
  exact ⟨h2.symm, rfl⟩

theorem internal_bind {b : Bool} {s s' : LW} {k : IState → M LW α} {v : α} (h : (localMach.top (fun _ => internalState b) >>- k) s = (.ok v, s')) : ∃ st : IState, st.trace = s.loc.trace ∧ k st s = (.ok v, s') :=
  ⟨_, rfl, h⟩

theorem Good.reserve : Good (localMach.top fun _ => reserveFull) := Good.still fun _ _ => ⟨rfl, rfl⟩

theorem Good.internal (b : Bool) : Good (localMach.top fun _ => internalState b) := Good.read fun _ => readOnly_internalState b

theorem Good.jit {m : M LW Val} (hm : Good m) : Good (jitM localMach m) := by
  intro s v s' h
  unfold jitM at h
  obtain ⟨st, t1, h⟩ := internal_bind h
  obtain ⟨r, s2, h2, h⟩ := bind_ok h
  obtain ⟨_, s3, h8, h9⟩ := bind_ok h
  cases h9
  obtain ⟨e8, p8, t8⟩ := update_ok h8
  have g : Good (m >>- fun v => localMach.top (fun _ => internalState true) >>- fun after => M.pure (v, difference st after)) := hm.bind fun _ => (Good.internal true).bind fun _ => Good.pure _
  obtain ⟨q, hq1, rfl, k⟩ := temp_ok g h2
  obtain ⟨v', q1, a1, hq1⟩ := bind_ok hq1
  obtain ⟨af, t2, hq1⟩ := internal_bind hq1
  cases hq1
  refine ⟨e8, ?_⟩
  rw [p8, t8]
  show Rel _ _ _ q.loc.heap af.trace
  rw [t2, ← t1]
  exact k

theorem branch_ok {st : IState} {m : M LW Val} (hm : Good m) {s s' : LW} {r : Val × IState} (h : branchM localMach st m s = (.ok r, s')) :
    s'.env = s.env ∧ s'.loc.trace = s.loc.trace ∧ Rel s.env.modules s.loc.heap st.trace s'.loc.heap r.2.trace := by
  unfold branchM at h
  have g : Good (m >>- fun v => localMach.top (fun _ => reserveFull) >>- fun _ => localMach.top (fun _ => internalState true) >>- fun st' => M.pure (v, st')) :=
    hm.bind fun v => Good.reserve.bind fun _ => (Good.internal true).bind fun st' => Good.pure _
  obtain ⟨s1, h1, rfl, h2⟩ := temp_ok g h
  refine ⟨rfl, rfl, ?_⟩
  obtain ⟨v, q1, a1, h1⟩ := bind_ok h1
  obtain ⟨_, q2, a2, h1⟩ := bind_ok h1
  obtain ⟨st', t3, h1⟩ := internal_bind h1
  cases h1
  show Rel _ _ _ s1.loc.heap st'.trace
  rw [t3]
  exact h2

theorem runBranches_get {st : IState} : ∀ {ms : List (M LW Val)} {s : LW} {rs : List ((Val × IState) × LW)}, runBranches localMach st ms s = .ok rs →
    ∀ (i : Nat) r s', rs[i]? = some (r, s') → ∃ m ∈ ms, branchM localMach st m s = (.ok r, s') := by
  intro ms
  induction ms with
  | nil =>
    intro s rs h i r s' hi
    cases h
    cases hi
  | cons m ms ih =>
    intro s rs h i r s' hi
    unfold runBranches at h
    rcases hb : branchM localMach st m s with ⟨e | r0, s0⟩
    · rw [hb] at h; cases h
    · rw [hb] at h
      dsimp only at h
      rcases hr : runBranches localMach st ms s with x | rs'
      · rw [hr] at h; cases h
      · rw [hr] at h
        cases h
        cases i with
        | zero =>
          cases hi
          exact ⟨m, List.mem_cons_self, hb⟩
        | succ i =>
          obtain ⟨m', hm', h'⟩ := ih hr i r s' hi
          exact ⟨m', List.mem_cons_of_mem _ hm', h'⟩

theorem Good.switch {i : Nat} {ms : List (M LW Val)} (hm : ∀ m ∈ ms, Good m) : Good (switchM localMach i ms) := by
  refine Good.reserve.bind fun _ => ?_
  intro s v s' h
  obtain ⟨st, t1, h⟩ := internal_bind h
  unfold switchFrom at h
  rcases hb : runBranches localMach st ms s with x | rs
  · rw [hb] at h
    cases h
  · rw [hb] at h
    dsimp only at h
    rcases hi : rs[i]? with _ | ⟨⟨v0, st'⟩, s2⟩
    · rw [hi] at h; cases h
    · rw [hi] at h
      dsimp only at h
      split at h
      · obtain ⟨m, hmm, h2⟩ := runBranches_get hb i _ _ hi
        obtain ⟨e2, t2, r2⟩ := branch_ok (hm m hmm) h2
        obtain ⟨_, s3, h3, h4⟩ := bind_ok h
        cases h4
        obtain ⟨e3, p3, t3⟩ := update_ok h3
        refine ⟨e3.trans e2, ?_⟩
        rw [p3, t3, ← t1]
        exact r2
      · cases h

/-- Steps of loops that thread the data of the frame: the frame itself only changes in its module objects. -/
def StepGood (st : IState) (out : α → IState) (f : M LW α) : Prop :=
  ∀ s r s', f s = (.ok r, s') → s'.env = s.env ∧ s'.loc.trace = s.loc.trace ∧ Rel s.env.modules s.loc.heap st.trace s'.loc.heap (out r).trace

theorem scanStep_good {f : Val → Val → M LW Val} (hf : ∀ c x, Good (f c x)) (c x : Val) (st : IState) : StepGood st (fun r => r.2.2) (scanStep localMach f c x st) := by
  intro s r s' h
  unfold scanStep at h
  obtain ⟨r0, s0, h0, h⟩ := bind_ok h
  have hr : r0 = r ∧ s0 = s' := by
    split at h
    · cases h
      exact ⟨rfl, rfl⟩
    · cases h
  obtain ⟨rfl, rfl⟩ := hr
  clear h
  have pairGood : ∀ v, Good (asPair v : M LW (Val × Val)) := by
    intro v
    unfold asPair
    split
    · exact Good.pure _
    · exact Good.throw _
  have g : Good (localMach.top (fun _ => internalState true) >>- fun before => f c x >>- fun r => asPair r >>- fun cy => localMach.top (fun _ => internalState true) >>- fun after =>
      if hasNewParams (before.params.getD []) (after.params.getD []) then M.throw .newParams
      else localMach.top (fun _ => reserveFull) >>- fun _ => localMach.top (fun _ => internalState false) >>- fun st' => M.pure (cy.1, cy.2, st')) := by
    refine (Good.internal true).bind fun before => (hf c x).bind fun r => (pairGood r).bind fun cy => (Good.internal true).bind fun after => ?_
    split
    · exact Good.throw _
    · exact Good.reserve.bind fun _ => (Good.internal false).bind fun st' => Good.pure _
  obtain ⟨s1, h1, hs, hr⟩ := temp_ok g h0
  refine ⟨by rw [hs]; rfl, by rw [hs]; rfl, ?_⟩
  obtain ⟨before, t1, h1⟩ := internal_bind h1
  obtain ⟨y, q2, a2, h1⟩ := bind_ok h1
  obtain ⟨cy, q3, a3, h1⟩ := bind_ok h1
  obtain ⟨after, t4, h1⟩ := internal_bind h1
  by_cases hn : hasNewParams (before.params.getD []) (after.params.getD []) = true
  · rw [if_pos hn] at h1
    cases h1
  · rw [if_neg hn] at h1
    obtain ⟨_, q5, a5, h1⟩ := bind_ok h1
    obtain ⟨st', t6, h1⟩ := internal_bind h1
    cases h1
    rw [hs]
    show Rel _ _ _ s1.loc.heap st'.trace
    rw [t6]
    exact hr

theorem scanLoop_good {step : Val → Val → IState → M LW (Val × Val × IState)} (hs : ∀ c x st, StepGood st (fun r => r.2.2) (step c x st)) :
    ∀ (xs : List Val) (c : Val) (st : IState), StepGood st (fun r => r.2.2) (scanLoop step xs c st) := by
  intro xs
  induction xs with
  | nil =>
    intro c st s r s' h
    cases h
    exact ⟨rfl, rfl, Rel.refl _ _ _⟩
  | cons x xs ih =>
    intro c st s r s' h
    unfold scanLoop at h
    obtain ⟨r1, s1, h1, h⟩ := bind_ok h
    obtain ⟨r2, s2, h2, h⟩ := bind_ok h
    cases h
    obtain ⟨e1, t1, k1⟩ := hs _ _ _ _ _ _ h1
    obtain ⟨e2, t2, k2⟩ := ih _ _ _ _ _ h2
    rw [e1] at k2
    exact ⟨e2.trans e1, t2.trans t1, k1.trans k2⟩

theorem Good.scanTail {f : Val → Val → M LW Val} (hf : ∀ c x, Good (f c x)) (c : Val) (xs : List Val) (rev : Bool) : Good (scanTail localMach f c xs rev) := by
  refine Good.reserve.bind fun _ => ?_
  intro s v s' h
  obtain ⟨st, t1, h⟩ := internal_bind h
  obtain ⟨r, s2, h2, h⟩ := bind_ok h
  obtain ⟨_, s3, h3, h4⟩ := bind_ok h
  cases h4
  obtain ⟨e2, t2, k2⟩ := scanLoop_good (fun c x st => scanStep_good hf c x st) _ _ _ _ _ _ h2
  obtain ⟨e3, p3, t3⟩ := update_ok h3
  refine ⟨e3.trans e2, ?_⟩
  rw [p3, t3, ← t1]
  exact k2

theorem Good.asPair (v : Val) : Good (asPair v : M LW (Val × Val)) := by
  unfold Verif.asPair
  split
  · exact Good.pure _
  · exact Good.throw _

theorem Good.scan {f : Val → Val → M LW Val} (hf : ∀ c x, Good (f c x)) (init zero : Val) (xs : List Val) (rev : Bool) : Good (scanM localMach f init zero xs rev) := by
  refine (Good.read fun _ => ReadOnly.pure _).bind fun frozen => ?_
  split
  · exact (Good.scanTail hf _ _ _).bind fun _ => Good.pure _
  · split
    · exact (hf _ _).bind fun r => (Good.asPair r).bind fun _ => Good.pure _
    · refine (hf _ _).bind fun r => (Good.asPair r).bind fun cy => ?_
      generalize (if rev then xs.dropLast else xs.tail) = rest
      dsimp only
      split
      · exact Good.pure _
      · exact (Good.scanTail hf _ _ _).bind fun _ => Good.pure _

theorem foriStep_good {body : Int → Val → M LW Val} (hb : ∀ i v, Good (body i v)) (i : Int) (v : Val) (st : IState) : StepGood st (fun r => r.2) (foriStep localMach body i v st) := by
  intro s r s' h
  unfold foriStep at h
  obtain ⟨r0, s0, h0, h⟩ := bind_ok h
  have hr : r0 = r ∧ s0 = s' := by
    split at h
    · cases h
      exact ⟨rfl, rfl⟩
    · cases h
  obtain ⟨rfl, rfl⟩ := hr
  exact branch_ok (hb i v) h0

theorem foriLoop_good {step : Int → Val → IState → M LW (Val × IState)} (hs : ∀ i v st, StepGood st (fun r => r.2) (step i v st)) :
    ∀ (n : Nat) (i : Int) (v : Val) (st : IState), StepGood st (fun r => r.2) (foriLoop step n i v st) := by
  intro n
  induction n with
  | zero =>
    intro i v st s r s' h
    cases h
    exact ⟨rfl, rfl, Rel.refl _ _ _⟩
  | succ n ih =>
    intro i v st s r s' h
    unfold foriLoop at h
    obtain ⟨r1, s1, h1, h2⟩ := bind_ok h
    obtain ⟨e1, t1, k1⟩ := hs _ _ _ _ _ _ h1
    obtain ⟨e2, t2, k2⟩ := ih _ _ _ _ _ _ h2
    rw [e1] at k2
    exact ⟨e2.trans e1, t2.trans t1, k1.trans k2⟩

theorem Good.foriTail {body : Int → Val → M LW Val} (hb : ∀ i v, Good (body i v)) (lo up : Int) (init : Val) : Good (foriTail localMach lo up body init) := by
  refine Good.reserve.bind fun _ => ?_
  intro s v s' h
  obtain ⟨st, t1, h⟩ := internal_bind h
  obtain ⟨r, s2, h2, h⟩ := bind_ok h
  obtain ⟨_, s3, h3, h4⟩ := bind_ok h
  cases h4
  obtain ⟨e2, t2, k2⟩ := foriLoop_good (fun i v st => foriStep_good hb i v st) _ _ _ _ _ _ _ h2
  obtain ⟨e3, p3, t3⟩ := update_ok h3
  refine ⟨e3.trans e2, ?_⟩
  rw [p3, t3, ← t1]
  exact k2

theorem Good.fori {body : Int → Val → M LW Val} (hb : ∀ i v, Good (body i v)) (lo up : Int) (init : Val) : Good (foriM localMach lo up body init) := by
  refine (Good.read fun _ => ReadOnly.pure _).bind fun frozen => ?_
  split
  · exact Good.foriTail hb _ _ _
  · refine (hb _ _).bind fun v => ?_
    split
    · exact Good.pure _
    · exact Good.foriTail hb _ _ _

theorem Good.whileCond {c : Val → M LW Val} (hc : ∀ v, Good (c v)) (v : Val) : Good (whileCond localMach c v) := by
  refine (Good.read fun _ => ReadOnly.get).bind fun before => (hc v).bind fun r => (Good.read fun _ => ReadOnly.get).bind fun after => ?_
  split
  · exact Good.throw _
  · split
    · exact Good.pure _
    · exact Good.throw _

theorem whileBody_good {body : Val → M LW Val} (hb : ∀ v, Good (body v)) (v : Val) (st : IState) : StepGood st (fun r => r.2) (whileBody localMach body v st) := by
  intro s r s' h
  unfold whileBody at h
  obtain ⟨r0, s0, h0, h⟩ := bind_ok h
  have hr : r0 = r ∧ s0 = s' := by
    split at h
    · cases h
      exact ⟨rfl, rfl⟩
    · cases h
  obtain ⟨rfl, rfl⟩ := hr
  have g : Good (body v >>- fun v' => localMach.top (fun _ => internalState true) >>- fun st' => M.pure (v', st')) := (hb v).bind fun _ => (Good.internal true).bind fun _ => Good.pure _
  obtain ⟨s1, h1, rfl, k⟩ := temp_ok g h0
  refine ⟨rfl, rfl, ?_⟩
  obtain ⟨v', q1, a1, h1⟩ := bind_ok h1
  obtain ⟨st', t2, h1⟩ := internal_bind h1
  cases h1
  show Rel _ _ _ s1.loc.heap st'.trace
  rw [t2]
  exact k

theorem whileLoop_good {c : Val → M LW Bool} {body : Val → IState → M LW (Val × IState)} (hb : ∀ v st, StepGood st (fun r => r.2) (body v st)) (s0 : LW) :
    ∀ (n : Nat) (v : Val) (st : IState), StepGood st (fun r => r.2) (whileLoopM c body s0 n v st) := by
  intro n
  induction n with
  | zero =>
    intro v st s r s' h
    cases h
  | succ n ih =>
    intro v st s r s' h
    unfold whileLoopM at h
    rcases hc : c v s0 with ⟨e | b, q⟩
    · rw [hc] at h; cases h
    · rw [hc] at h
      cases b with
      | false =>
        cases h
        exact ⟨rfl, rfl, Rel.refl _ _ _⟩
      | true =>
        obtain ⟨r1, s1, h1, h2⟩ := bind_ok h
        obtain ⟨e1, t1, k1⟩ := hb _ _ _ _ _ h1
        obtain ⟨e2, t2, k2⟩ := ih _ _ _ _ _ h2
        rw [e1] at k2
        exact ⟨e2.trans e1, t2.trans t1, k1.trans k2⟩

theorem Good.whileM {c body : Val → M LW Val} (hc : ∀ v, Good (c v)) (hb : ∀ v, Good (body v)) (fuel : Nat) (init : Val) : Good (whileM localMach fuel c body init) := by
  refine (Good.read fun E => ReadOnly.ite (ReadOnly.pure _) (ReadOnly.throw _)).bind fun _ => ?_
  intro s v s' h
  obtain ⟨st, t1, h⟩ := internal_bind h
  unfold whileFrom at h
  rcases hq : Verif.whileCond localMach c init s with ⟨e | b, s2⟩
  · rw [hq] at h; cases h
  · rw [hq] at h
    obtain ⟨r, s3, h3, h⟩ := bind_ok h
    obtain ⟨_, s4, h4, h5⟩ := bind_ok h
    cases h5
    obtain ⟨e2, k2⟩ := Good.whileCond hc init _ _ _ hq
    obtain ⟨e3, t3, k3⟩ := whileLoop_good (fun v st => whileBody_good hb v st) _ _ _ _ _ _ _ h3
    obtain ⟨e4, p4, t4⟩ := update_ok h4
    refine ⟨e4.trans (e3.trans e2), ?_⟩
    rw [p4, t4, ← t1]
    rw [e2] at k3
    exact ⟨k2.1.trans k3.1, k3.2⟩

theorem Good.vmap {f : Val → M LW Val} (hf : ∀ v, Good (f v)) (x : Val) (xs : List Val) : Good (vmapM localMach f x xs) := by
  intro s v s' h
  obtain ⟨st, t1, h⟩ := internal_bind h
  unfold vmapFrom at h
  rcases hq : vmapBody localMach st (f x) s with ⟨e | ⟨v0, d⟩, s2⟩
  · rw [hq] at h; cases h
  · rw [hq] at h
    dsimp only at h
    rcases hr : vmapRest localMach st d f s xs with e | vs
    · rw [hr] at h; cases h
    · rw [hr] at h
      obtain ⟨_, s3, h3, h4⟩ := bind_ok h
      cases h4
      obtain ⟨e3, p3, t3⟩ := update_ok h3
      have g : Good (f x >>- fun v => localMach.top (fun _ => internalState true) >>- fun after => M.pure (v, difference st after)) := (hf x).bind fun _ => (Good.internal true).bind fun _ => Good.pure _
      obtain ⟨q, hq1, rfl, k⟩ := temp_ok g hq
      obtain ⟨v', q1, a1, hq1⟩ := bind_ok hq1
      obtain ⟨af, t2, hq1⟩ := internal_bind hq1
      cases hq1
      refine ⟨e3, ?_⟩
      rw [p3, t3]
      show Rel _ _ _ q.loc.heap af.trace
      rw [t2, ← t1]
      exact k

theorem Good.evalShape {m : M LW Val} (hm : Good m) : Good (evalShapeM localMach m) := by
  intro s v s' h
  obtain ⟨st, t1, h⟩ := internal_bind h
  obtain ⟨r, s2, h2, h⟩ := bind_ok h
  cases h
  obtain ⟨q, hq1, rfl, k⟩ := temp_ok hm h2
  exact ⟨rfl, k.1, Ext.refl _ _ _⟩

theorem Good.inRng {m : M LW α} (hm : Good m) (q : PRNGSeq) : Good (localMach.inRng q m) := by
  intro s v s' h
  obtain ⟨h1, rfl⟩ := Prod.mk.inj h
  obtain ⟨e, k⟩ := hm { s with loc := { s.loc with rng := some q } } v _ (Prod.ext h1 rfl)
  exact ⟨e, k⟩

theorem Good.inHook {m : M LW α} (hm : Good m) (hk : HookPush) : Good (localMach.inHook hk m) := by
  intro s v s' h
  obtain ⟨h1, rfl⟩ := Prod.mk.inj h
  obtain ⟨e, k⟩ := hm { s with env := { s.env with hooks := World.pushHook s.env.hooks hk } } v _ (Prod.ext h1 rfl)
  exact ⟨rfl, k⟩

theorem inCtx_ok {m : M LW α} (hm : Good m) {c : Ctx} {s s' : LW} {q : Except Exc α × Ctx} {v : α} (hv : q.1 = .ok v) (h : localMach.inCtx c m s = (.ok q, s')) : s'.env = s.env ∧ s'.loc.trace = s.loc.trace ∧ GrowX none s.loc.heap s'.loc.heap := by
  obtain ⟨h1, rfl⟩ := Prod.mk.inj h
  cases h1
  refine ⟨rfl, rfl, ?_⟩
  exact (hm ⟨LW.ctxEnv c s.env, LW.ctxLoc c s.loc.heap⟩ v _ (Prod.ext hv rfl)).2.1

theorem Good.initM {m : M LW Val} (hm : Good m) (rng : RngArg) : Good (initM localMach rng m) := by
  unfold Verif.initM
  split
  · exact Good.throw _
  · intro s v s' h
    obtain ⟨q, s1, h1, h⟩ := bind_ok h
    rcases hq : q.1 with e | u
    · rw [hq] at h; cases h
    · rw [hq] at h
      cases h
      obtain ⟨e1, t1, g1⟩ := inCtx_ok hm hq h1
      exact ⟨e1, g1, by rw [t1]; exact Ext.refl _ _ _⟩

theorem Good.applyM {m : M LW Val} (hm : Good m) (params state : Option PDict) (rng : RngArg) : Good (applyM localMach params state rng m) := by
  unfold Verif.applyM
  split
  · exact Good.throw _
  · intro s v s' h
    obtain ⟨q, s1, h1, h⟩ := bind_ok h
    rcases hq : q.1 with e | u
    · rw [hq] at h; cases h
    · rw [hq] at h
      cases h
      obtain ⟨e1, t1, g1⟩ := inCtx_ok hm hq h1
      exact ⟨e1, g1, by rw [t1]; exact Ext.refl _ _ _⟩

/-! ### Modules -/

/-- Bundle `b` is shown by module `m`: it is the module's own, or that of a recorded submodule. -/
def Shows (h : List ModObj) (m : ModId) (b : Str) : Prop := nm h m = some b ∨ b ∈ sb h m

theorem Shows.mono {h h' : List ModObj} {m : ModId} {b : Str} (g : GrowX none h h') (c : Shows h m b) : Shows h' m b := c.imp (g.name m b (by simp)) (g.subs m b (by simp))

theorem notifyLoop_rest (self : ModId) (n : Str) : ∀ (ms : List (ModId × Str)) (s s' : Loc), notifyLoop self n ms s = (.ok (), s') →
    s'.trace = s.trace ∧ s'.heap.length = s.heap.length ∧ ∀ m : ModId, s.heap[m]? = some ⟨none, none⟩ → s'.heap[m]? = some ⟨none, none⟩ := by
  intro ms
  induction ms with
  | nil =>
    intro s s' h
    obtain ⟨-, rfl⟩ := Prod.mk.inj h
    exact ⟨rfl, rfl, fun m h => h⟩
  | cons p ms ih =>
    obtain ⟨m0, meth⟩ := p
    intro s s' h
    unfold notifyLoop at h
    by_cases h0 : m0 = self
    · rw [if_pos h0] at h
      exact ih s s' h
    · rw [if_neg h0] at h
      rcases ho : s.heap[m0]? with _ | ⟨q, _ | subs⟩
      · rw [ho] at h; cases h
      · rw [ho] at h; cases h
      · rw [ho] at h
        dsimp only at h
        obtain ⟨h1, h2, h3⟩ := ih _ s' h
        refine ⟨h1, h2.trans ?_, fun m hm => h3 m ?_⟩
        · exact List.length_modify _ _ _
        · dsimp only
          rw [heap_modify]
          by_cases e : m0 = m
          · subst e
            rw [ho] at hm
            cases hm
          · rw [if_neg e]
            exact hm

/-- What notifying does. -/
theorem notify_ok {self : ModId} {before : Option Str} {s s' : LW} {v : Unit} (h : localMach.top (notify self before) s = (.ok v, s'))
    (hn : ∀ n, before = some n → nm s.loc.heap self = some n) :
    s'.env = s.env ∧ s'.loc.trace = s.loc.trace ∧ GrowX none s.loc.heap s'.loc.heap ∧ (∀ m, nm s'.loc.heap m = nm s.loc.heap m) ∧
      ∀ n, nm s.loc.heap self = some n → ∀ m ∈ s.env.modules.map Prod.fst, Shows s'.loc.heap m n := by
  rw [top_eq] at h
  obtain ⟨h1, rfl⟩ := Prod.mk.inj h
  have key : (notify self before s.env s.loc) = match nm s.loc.heap self with
      | some n => notifyLoop self n s.env.modules s.loc
      | none => (.ok (), s.loc) := by
    cases before with
    | some n => rw [hn n rfl]; rfl
    | none =>
      show (match nm s.loc.heap self with | some n => notifyLoop self n s.env.modules | none => M.pure ()) s.loc = _
      cases nm s.loc.heap self <;> rfl
  rw [key] at h1
  refine ⟨rfl, ?_⟩
  show (notify self before s.env s.loc).2.trace = _ ∧ GrowX none _ (notify self before s.env s.loc).2.heap ∧ (∀ m, nm (notify self before s.env s.loc).2.heap m = _) ∧
    ∀ n, _ → ∀ m ∈ _, Shows (notify self before s.env s.loc).2.heap m n
  rw [key]
  cases hq : nm s.loc.heap self with
  | none => exact ⟨rfl, GrowX.refl _ _, fun _ => rfl, fun n hn => nomatch hn⟩
  | some n =>
    rw [hq] at h1
    dsimp only at h1 ⊢
    have hl : notifyLoop self n s.env.modules s.loc = (.ok (), (notifyLoop self n s.env.modules s.loc).2) := Prod.ext h1 rfl
    obtain ⟨a1, a2⟩ := notifyLoop_subs self n _ _ _ hl
    obtain ⟨b1, b2, b3⟩ := notifyLoop_rest self n _ _ _ hl
    refine ⟨b1, ⟨Nat.le_of_eq b2.symm, fun m k _ hk => ?_, fun m b _ hb => ?_, fun m _ hm => b3 m hm⟩, a2, fun k hk m hm => ?_⟩
    · exact (a2 m).trans hk
    · exact (a1 m b).2 (.inl hb)
    · cases hk
      by_cases e : m = self
      · subst e
        exact .inl ((a2 m).trans hq)
      · exact .inr ((a1 m n).2 (.inr ⟨rfl, e, hm⟩))

theorem inModule_ok {p : ModId × Str} {m : M LW α} {s s' : LW} {v : α} (h : localMach.inModule p m s = (.ok v, s')) :
    ∃ s1, m ⟨{ s.env with modules := p :: s.env.modules }, { s.loc with scopes := Scope.empty :: s.loc.scopes }⟩ = (.ok v, s1) ∧
      s' = ⟨s.env, { s1.loc with scopes := s1.loc.scopes.tail }⟩ := by
  obtain ⟨h1, h2⟩ := Prod.mk.inj h
  exact ⟨_, Prod.ext h1 rfl, h2.symm⟩

/-- A module is known to everyone with a running method. -/
def Known (ms : List (ModId × Str)) (h : List ModObj) (id : ModId) : Prop := ∃ n, nm h id = some n ∧ ∀ m ∈ ms.map Prod.fst, Shows h m n

theorem Known.mono {ms : List (ModId × Str)} {h h' : List ModObj} {id : ModId} (g : GrowX none h h') (k : Known ms h id) : Known ms h' id := by
  obtain ⟨n, k1, k2⟩ := k
  exact ⟨n, g.name id n (by simp) k1, fun m hm => (k2 m hm).mono g⟩

/-- The accesses `t` became `t'` by accesses to bundles shown by module `self` and all modules with running methods. -/
def Seen (self : ModId) (ms : List (ModId × Str)) (h' : List ModObj) (t t' : List Event) : Prop :=
  ∃ new, t' = t ++ new ∧ ∀ e ∈ new, Shows h' self (bundleOf e) ∧ ∀ m ∈ ms.map Prod.fst, Shows h' m (bundleOf e)

theorem Seen.ext {self : ModId} {ms : List (ModId × Str)} {h' : List ModObj} {t t' : List Event} (h : Seen self ms h' t t') : Ext ms h' t t' := by
  obtain ⟨new, h1, h2⟩ := h
  exact ⟨new, h1, fun e he => .inr (h2 e he).2⟩

/-- A method wrapped by `wrap_method`, given what its body does. -/
theorem wrap_ok {x : Option ModId} {self : ModId} {meth : Str} {args : Val} {body : Val → M LW Val} {s s' : LW} {v : Val}
    (h : wrapMethod localMach self meth args body s = (.ok v, s'))
    (hb : ∀ (I : List Interceptor) (f : M LW Val), (f = runInterceptors self meth body I args ∨ (nm s.loc.heap self ≠ none ∧ f = jitM localMach (runInterceptors self meth body I args))) →
      ∀ v s2, f ⟨{ s.env with modules := (self, meth) :: s.env.modules }, { s.loc with scopes := Scope.empty :: s.loc.scopes }⟩ = (.ok v, s2) →
      s2.env.modules = (self, meth) :: s.env.modules ∧ GrowX x s.loc.heap s2.loc.heap ∧ Ext ((self, meth) :: s.env.modules) s2.loc.heap s.loc.trace s2.loc.trace ∧
        ∀ n, nm s.loc.heap self = some n → nm s2.loc.heap self = some n) :
    s'.env = s.env ∧ GrowX x s.loc.heap s'.loc.heap ∧ Seen self s.env.modules s'.loc.heap s.loc.trace s'.loc.trace ∧
      ∀ n, nm s'.loc.heap self = some n → ∀ m ∈ s.env.modules.map Prod.fst, Shows s'.loc.heap m n := by
  unfold wrapMethod at h
  obtain ⟨s1, h1, rfl⟩ := inModule_ok h
  refine ⟨rfl, ?_⟩
  obtain ⟨r, q0, a0, h1⟩ := bind_ok h1
  have e0 : r = (nm s.loc.heap self, s.env.hooks.interceptors, s.env.namedCall) ∧ q0 = ⟨{ s.env with modules := (self, meth) :: s.env.modules }, { s.loc with scopes := Scope.empty :: s.loc.scopes }⟩ := by
    obtain ⟨b1, b2⟩ := Prod.mk.inj a0
    cases b1
    exact ⟨rfl, b2.symm⟩
  obtain ⟨rfl, rfl⟩ := e0
  obtain ⟨v1, q1, a1, h1⟩ := bind_ok h1
  obtain ⟨_, q2, a2, h1⟩ := bind_ok h1
  have e2 : q2 = s1 := (Prod.mk.inj h1).2
  subst e2
  have hf : q1.env.modules = (self, meth) :: s.env.modules ∧ GrowX x s.loc.heap q1.loc.heap ∧ Ext ((self, meth) :: s.env.modules) q1.loc.heap s.loc.trace q1.loc.trace ∧
        ∀ n, nm s.loc.heap self = some n → nm q1.loc.heap self = some n := by
    dsimp only at a1
    by_cases hc : (s.env.namedCall && (nm s.loc.heap self).isSome && decide (meth = sCall)) = true
    · rw [if_pos hc] at a1
      refine hb _ _ (.inr ⟨?_, rfl⟩) _ _ a1
      intro e
      rw [e] at hc
      simp at hc
    · rw [if_neg hc] at a1
      exact hb _ _ (.inl rfl) _ _ a1
  obtain ⟨f1, f2, f3, f4⟩ := hf
  obtain ⟨n1, n2, n3, n4, n5⟩ := notify_ok a2 f4
  show GrowX x _ q2.loc.heap ∧ Seen self _ q2.loc.heap _ q2.loc.trace ∧ ∀ n, nm q2.loc.heap self = some n → ∀ m ∈ _, Shows q2.loc.heap m n
  rw [f1] at n5
  refine ⟨f2.trans n3.weaken, ?_, fun n hn m hm => n5 n ((n4 self) ▸ hn) m (List.mem_cons_of_mem _ hm)⟩
  obtain ⟨new, t1, c1⟩ := f3
  refine ⟨new, by rw [n2, t1], fun e he => ?_⟩
  rcases c1 e he with ⟨t, ht, hb⟩ | c
  · cases ht
    exact ⟨.inl ((n4 _).trans hb), fun m hm => n5 _ hb m (List.mem_cons_of_mem _ hm)⟩
  · exact ⟨Shows.mono n3 (c self List.mem_cons_self), fun m hm => Shows.mono n3 (c m (List.mem_cons_of_mem _ hm))⟩

theorem Good.interceptors {self : ModId} {meth : Str} {body : Val → M LW Val} (hb : ∀ a, Good (body a)) : ∀ (I : List Interceptor) (args : Val), Good (runInterceptors self meth body I args) := by
  intro I
  induction I with
  | nil => exact hb
  | cons i I ih =>
    intro args
    unfold runInterceptors
    split
    · exact Good.pure _
    · exact Good.throw _
    · exact (ih _).bind fun _ => Good.pure _
    · exact (hb _).bind fun _ => Good.pure _

/-- A method call. -/
theorem method_ok {self : ModId} {meth : Str} {args : Val} {body : Val → M LW Val} (hb : ∀ a, Good (body a)) {s s' : LW} {v : Val}
    (h : wrapMethod localMach self meth args body s = (.ok v, s')) :
    s'.env = s.env ∧ GrowX none s.loc.heap s'.loc.heap ∧ Seen self s.env.modules s'.loc.heap s.loc.trace s'.loc.trace := by
  obtain ⟨a, b, c, -⟩ := wrap_ok (x := none) h (fun I f hf v s2 h2 => by
    have g : Good f := by
      rcases hf with rfl | ⟨-, rfl⟩
      · exact Good.interceptors hb I args
      · exact (Good.interceptors hb I args).jit
    obtain ⟨g1, g2, g3⟩ := g _ _ _ h2
    exact ⟨by rw [g1], g2, g3, fun n hn => g2.name self n (by simp) hn⟩)
  exact ⟨a, b, c⟩

theorem Good.method {self : ModId} {meth : Str} {args : Val} {body : Val → M LW Val} (hb : ∀ a, Good (body a)) : Good (wrapMethod localMach self meth args body) := by
  intro s v s' h
  obtain ⟨a, b, c⟩ := method_ok hb h
  exact ⟨a, b, c.ext⟩

/-! ### Constructors -/

/-- Runs of the constructor of module `id` that return: as for orderly programs, except that module `id` itself may get its name. -/
def CGood (id : ModId) (f : M LW α) : Prop := ∀ s v s', f s = (.ok v, s') → s.env.modules.head?.map Prod.fst = some id → s.loc.heap[id]? = some ⟨none, none⟩ →
  s'.env = s.env ∧ GrowX (some id) s.loc.heap s'.loc.heap ∧ Ext s.env.modules s'.loc.heap s.loc.trace s'.loc.trace

theorem Good.ctor {id : ModId} {f : M LW α} (h : Good f) : CGood id f := fun s v s' hs _ _ => by
  obtain ⟨a, b, c⟩ := h _ _ _ hs
  exact ⟨a, b.weaken, c⟩

/-- Before `super().__init__()` no access is possible that could be covered. -/
theorem Good.silent {id : ModId} {f : M LW α} (h : Good f) {s s' : LW} {v : α} (hs : f s = (.ok v, s')) (ht : s.env.modules.head?.map Prod.fst = some id)
    (hh : s.loc.heap[id]? = some ⟨none, none⟩) : s'.env = s.env ∧ GrowX none s.loc.heap s'.loc.heap ∧ s'.loc.trace = s.loc.trace ∧ s'.loc.heap[id]? = some ⟨none, none⟩ := by
  obtain ⟨a, b, new, c, d⟩ := h _ _ _ hs
  have hb : s'.loc.heap[id]? = some ⟨none, none⟩ := b.bare id (by simp) hh
  refine ⟨a, b, ?_, hb⟩
  cases new with
  | nil => rw [c, List.append_nil]
  | cons e new =>
    exfalso
    have hn : nm s'.loc.heap id = none := by unfold nm; rw [hb]; rfl
    have hsb : sb s'.loc.heap id = [] := by unfold sb; rw [hb]; rfl
    have hm : id ∈ s.env.modules.map Prod.fst := by
      rcases hms : s.env.modules with _ | ⟨p, ms⟩
      · rw [hms] at ht; cases ht
      · rw [hms] at ht; cases ht; exact List.mem_cons_self
    rcases d e List.mem_cons_self with ⟨t, h1, h2⟩ | h1
    · rw [ht] at h1
      cases h1
      rw [hn] at h2
      cases h2
    · rcases h1 id hm with h2 | h2
      · rw [hn] at h2; cases h2
      · rw [hsb] at h2; cases h2

theorem CGood.later {id : ModId} {m : M LW α} {f : α → M LW β} (hm : Good m) (hf : ∀ a, CGood id (f a)) : CGood id (m >>- f) := by
  intro s v s' h ht hh
  obtain ⟨a, s1, h1, h2⟩ := bind_ok h
  obtain ⟨e1, g1, t1, b1⟩ := hm.silent h1 ht hh
  obtain ⟨e2, g2, t2⟩ := hf a _ _ _ h2 (by rw [e1]; exact ht) b1
  rw [e1, t1] at t2
  exact ⟨e2.trans e1, g1.weaken.trans g2, t2⟩

theorem CGood.first {id : ModId} {m : M LW α} {f : α → M LW β} (hm : CGood id m) (hf : ∀ a, Good (f a)) : CGood id (m >>- f) := by
  intro s v s' h ht hh
  obtain ⟨a, s1, h1, h2⟩ := bind_ok h
  obtain ⟨e1, g1, t1⟩ := hm _ _ _ h1 ht hh
  obtain ⟨e2, g2, t2⟩ := hf a _ _ _ h2
  rw [e1] at t2
  exact ⟨e2.trans e1, g1.trans g2.weaken, Ext.trans g2 t1 t2⟩

theorem CGood.super (id : ModId) (n : Option Str) (cls : Str) : CGood id (localMach.top (Op.superInit id n cls).run) := by
  intro s v s' h ht hh
  rw [top_eq] at h
  obtain ⟨h1, rfl⟩ := Prod.mk.inj h
  refine ⟨rfl, ?_⟩
  have key : ∀ l : Loc, ((Op.superInit id n cls).run s.env l).1 = .ok v → ∃ f, ((Op.superInit id n cls).run s.env l).2.heap = l.heap.modify id f ∧ ((Op.superInit id n cls).run s.env l).2.trace = l.trace := by
    intro l hl
    rcases hq : (Op.superInit id n cls).run s.env l with ⟨e | w, l'⟩
    · rw [hq] at hl; cases hl
    obtain ⟨u, l1, hu, hv⟩ := bind_ok (show (superInit id n cls s.env >>- fun _ => M.pure Val.unit) l = (.ok w, l') from hq)
    cases hv
    unfold superInit at hu
    split at hu
    · obtain ⟨_, l2, h2, hu⟩ := bind_ok hu
      obtain ⟨-, rfl⟩ := Prod.mk.inj h2
      obtain ⟨c, l3, h3, hu⟩ := bind_ok hu
      have e3 : l3 = { l with heap := l.heap.modify id fun o => { o with subs := some [] } } := by
        have := readOnly_callerOf s.env { l with heap := l.heap.modify id fun o => { o with subs := some [] } }
        rw [h3] at this
        exact this
      subst e3
      dsimp only at hu
      split at hu
      · split at hu
        · cases hu
          exact ⟨_, List.modify_modify_eq _ _ _ _, rfl⟩
        · cases hu
      · cases hu
    · cases hu
  obtain ⟨f, k1, k2⟩ := key s.loc h1
  show GrowX _ _ ((Op.superInit id n cls).run s.env s.loc).2.heap ∧ Ext _ _ _ ((Op.superInit id n cls).run s.env s.loc).2.trace
  rw [k1, k2]
  have out : ∀ m : ModId, some m ≠ some id → (s.loc.heap.modify id f)[m]? = s.loc.heap[m]? := by
    intro m hm
    rw [heap_modify, if_neg fun e => hm (by rw [e])]
  refine ⟨⟨?_, fun m k hm hk => ?_, fun m b hm hb => ?_, fun m hm hb => ?_⟩, Ext.refl _ _ _⟩
  · exact Nat.le_of_eq (List.length_modify _ _ _).symm
  · unfold nm at hk ⊢; rw [out m hm]; exact hk
  · unfold sb at hb ⊢; rw [out m hm]; exact hb
  · rw [out m hm]; exact hb

theorem CGood.interceptors {id : ModId} {meth : Str} {body : Val → M LW Val} (hb : ∀ a, CGood id (body a)) : ∀ (I : List Interceptor) (args : Val), CGood id (runInterceptors id meth body I args) := by
  intro I
  induction I with
  | nil => exact hb
  | cons i I ih =>
    intro args
    unfold runInterceptors
    split
    · exact (Good.pure _).ctor
    · exact (Good.throw _).ctor
    · exact (ih _).first fun _ => Good.pure _
    · exact (hb _).first fun _ => Good.pure _

/-- A construction. -/
theorem construct_ok {args : Val} {ctor : ModId → Val → M LW Val} (hc : ∀ id a, CGood id (ctor id a)) {s s' : LW} {id : ModId}
    (h : construct localMach args ctor s = (.ok id, s')) :
    s'.env = s.env ∧ GrowX none s.loc.heap s'.loc.heap ∧ Seen id s.env.modules s'.loc.heap s.loc.trace s'.loc.trace ∧ Known s.env.modules s'.loc.heap id := by
  unfold construct at h
  obtain ⟨id', q0, a0, h⟩ := bind_ok h
  obtain ⟨b1, rfl⟩ := Prod.mk.inj a0
  cases b1
  obtain ⟨v, q1, a1, h⟩ := bind_ok h
  obtain ⟨_, q2, a2, h⟩ := bind_ok h
  have e3 : s.loc.heap.length = id ∧ q2 = s' := by
    obtain ⟨b1, b2⟩ := Prod.mk.inj h
    cases b1
    exact ⟨rfl, b2⟩
  obtain ⟨rfl, rfl⟩ := e3
  have hbare : (s.loc.heap ++ [⟨none, none⟩])[s.loc.heap.length]? = some (⟨none, none⟩ : ModObj) := by rw [List.getElem?_append_right (Nat.le_refl _)]; simp
  have hnone : nm (s.loc.heap ++ [⟨none, none⟩]) s.loc.heap.length = none := by unfold nm; rw [hbare]; rfl
  obtain ⟨c1, c2, c3, c4⟩ := wrap_ok (x := some s.loc.heap.length) a1 (fun I f hf v s2 h2 => by
    rcases hf with rfl | ⟨hn, -⟩
    · obtain ⟨g1, g2, g3⟩ := CGood.interceptors (hc s.loc.heap.length) I args _ _ _ h2 rfl hbare
      refine ⟨by rw [g1], g2, g3, fun n hn => ?_⟩
      have hn : nm (s.loc.heap ++ [⟨none, none⟩]) s.loc.heap.length = some n := hn
      rw [hnone] at hn
      cases hn
    · exact absurd hnone hn)
  rw [top_eq] at a2
  obtain ⟨a3, rfl⟩ := Prod.mk.inj a2
  have hro : (checkCtor s.loc.heap.length q1.loc).2 = q1.loc := readOnly_checkCtor _ _
  have hnm : ∃ n, nm q1.loc.heap s.loc.heap.length = some n := by
    have a4 : ((match nm q1.loc.heap s.loc.heap.length with | some _ => M.pure () | none => M.throw .superNeverCalled : M Loc Unit) q1.loc).1 = .ok _ := a3
    cases hq : nm q1.loc.heap s.loc.heap.length with
    | some n => exact ⟨n, rfl⟩
    | none => rw [hq] at a4; cases a4
  obtain ⟨n, hn⟩ := hnm
  show q1.env = s.env ∧ GrowX none _ (checkCtor s.loc.heap.length q1.loc).2.heap ∧ Seen _ _ (checkCtor s.loc.heap.length q1.loc).2.heap _ (checkCtor s.loc.heap.length q1.loc).2.trace ∧
    Known _ (checkCtor s.loc.heap.length q1.loc).2.heap _
  rw [hro]
  have old : ∀ m : ModId, m ≠ s.loc.heap.length → (s.loc.heap ++ [⟨none, none⟩])[m]? = s.loc.heap[m]? := by
    intro m hm
    by_cases hl : m < s.loc.heap.length
    · exact List.getElem?_append_left hl
    · rw [List.getElem?_eq_none (by rw [List.length_append, List.length_singleton]; exact Nat.lt_of_le_of_ne (Nat.le_of_not_lt hl) (Ne.symm hm)),
        List.getElem?_eq_none (Nat.le_of_not_lt hl)]
  have gone : s.loc.heap[s.loc.heap.length]? = none := List.getElem?_eq_none (Nat.le_refl _)
  have c2 : GrowX (some s.loc.heap.length) (s.loc.heap ++ [⟨none, none⟩]) q1.loc.heap := c2
  refine ⟨c1, ⟨?_, fun m k _ hk => ?_, fun m b _ hb => ?_, fun m _ hb => ?_⟩, c3, n, hn, c4 n hn⟩
  · refine Nat.le_trans ?_ c2.len
    rw [List.length_append]
    exact Nat.le_add_right _ _
  · by_cases e : m = s.loc.heap.length
    · subst e
      unfold nm at hk
      rw [gone] at hk
      cases hk
    · refine c2.name m k (by simpa using e) ?_
      unfold nm at hk ⊢
      rw [old m e]
      exact hk
  · by_cases e : m = s.loc.heap.length
    · subst e
      unfold sb at hb
      rw [gone] at hb
      cases hb
    · refine c2.subs m b (by simpa using e) ?_
      unfold sb at hb ⊢
      rw [old m e]
      exact hb
  · by_cases e : m = s.loc.heap.length
    · subst e
      rw [gone] at hb
      cases hb
    · refine c2.bare m (by simpa using e) ?_
      rw [old m e]
      exact hb

theorem Good.construct {args : Val} {ctor : ModId → Val → M LW Val} (hc : ∀ id a, CGood id (ctor id a)) : Good (construct localMach args ctor) := by
  intro s v s' h
  obtain ⟨a, b, c, -⟩ := construct_ok hc h
  exact ⟨a, b, c.ext⟩

/-! ### Name scopes -/

/-- Inside a module that everyone knows, without the wrapper of methods. -/
theorem inKnown_ok {id : ModId} {meth : Str} {m : M LW α} (hm : Good m) {s s' : LW} {v : α} (h : localMach.inModule (id, meth) m s = (.ok v, s')) (hk : Known s.env.modules s.loc.heap id) :
    s'.env = s.env ∧ Rel s.env.modules s.loc.heap s.loc.trace s'.loc.heap s'.loc.trace := by
  obtain ⟨s1, h1, rfl⟩ := inModule_ok h
  obtain ⟨e1, g1, new, t1, c1⟩ := hm _ _ _ h1
  obtain ⟨n, k1, k2⟩ := hk.mono g1
  refine ⟨rfl, g1, new, t1, fun e he => .inr fun m hmm => ?_⟩
  show Shows s1.loc.heap m (bundleOf e)
  rcases c1 e he with ⟨t, ht, hb⟩ | c
  · cases ht
    rw [k1] at hb
    cases hb
    exact k2 m hmm
  · exact c m (List.mem_cons_of_mem _ hmm)

theorem scopeCtor_ok : ∀ (ns : List Str) (s s' : LW) (id : ModId), nameScopeCtor localMach ns s = (.ok id, s') →
    s'.env = s.env ∧ Rel s.env.modules s.loc.heap s.loc.trace s'.loc.heap s'.loc.trace ∧ Known s.env.modules s'.loc.heap id := by
  have hc : ∀ (n : Str) (id : ModId) (a : Val), CGood id (localMach.top (Op.superInit id (some n) sModule).run) := fun n id a => CGood.super id _ _
  intro ns
  induction ns with
  | nil => intro s s' id h; cases h
  | cons n ns ih =>
    intro s s' id h
    cases ns with
    | nil =>
      obtain ⟨a, b, c, d⟩ := construct_ok (hc n) h
      exact ⟨a, ⟨b, c.ext⟩, d⟩
    | cons n2 ns =>
      obtain ⟨id1, s1, h1, h2⟩ := bind_ok (show (construct localMach .unit (fun id _ => localMach.top (Op.superInit id (some n) sModule).run) >>- fun id =>
        localMach.inModule (id, sCall) (nameScopeCtor localMach (n2 :: ns))) s = (.ok id, s') from h)
      obtain ⟨a1, b1, c1, d1⟩ := construct_ok (hc n) h1
      rw [← a1] at d1
      have g : Good (nameScopeCtor localMach (n2 :: ns)) := fun s v s' h => by
        obtain ⟨x, y, -⟩ := ih s s' v h
        exact ⟨x, y⟩
      obtain ⟨a2, b2⟩ := inKnown_ok g h2 d1
      obtain ⟨s3, h3, h4⟩ := inModule_ok h2
      obtain ⟨-, -, nn, k1, k2⟩ := ih _ _ _ h3
      rw [a1] at b2
      refine ⟨a2.trans a1, Rel.trans ⟨b1, c1.ext⟩ b2, nn, ?_, fun m hm => ?_⟩
      · rw [h4]; exact k1
      · rw [h4]
        exact k2 m (List.mem_cons_of_mem _ (by rw [a1]; exact hm))

theorem Good.nameScope {name : Str} {m : M LW Val} (hm : Good m) : Good (nameScopeM localMach name m) := by
  refine (Good.read fun _ => ReadOnly.pure _).bind fun _ => ?_
  split
  · exact Good.throw _
  · intro s v s' h
    obtain ⟨id, s1, h1, h2⟩ := bind_ok h
    obtain ⟨a1, b1, d1⟩ := scopeCtor_ok _ _ _ _ h1
    rw [← a1] at d1
    obtain ⟨a2, b2⟩ := inKnown_ok hm h2 d1
    rw [a1] at b2
    exact ⟨a2.trans a1, b1.trans b2⟩

/-! ### All programs -/

mutual
theorem Orderly.good : ∀ {p : Prog}, Orderly p → Good (p.run localMach)
  | _, .ret v => Good.pure v
  | _, .raise e => Good.throw e
  | _, .bind h k => h.good.bind fun v => (k v).good
  | _, .op h => Good.op h
  | _, .withRng (r := r) h => (Good.read fun _ => ReadOnly.pure _).bind fun _ => by
      split
      · exact Good.throw _
      · exact Good.inRng h.good _
  | _, .withHook h => (Good.read fun _ => ReadOnly.pure _).bind fun _ => Good.inHook h.good _
  | _, .newModule h => (Good.construct fun id a => (h id a).good).bind fun id => Good.pure _
  | _, .callMethod h => Good.method fun a => (h a).good
  | _, .nameScope h => Good.nameScope h.good
  | _, .jit h => h.good.jit
  | _, .cond h k => Good.switch fun m hm => by
      rcases List.mem_cons.mp hm with rfl | hm
      · exact h.good
      · rcases List.mem_singleton.mp hm with rfl
        exact k.good
  | _, .switch h => Good.switch fun m hm => by
      obtain ⟨j, -, rfl⟩ := List.mem_map.mp hm
      exact (h j).good
  | _, .scan h => Good.scan (fun c x => (h c x).good) _ _ _ _
  | _, .fori h => Good.fori (fun i v => (h i v).good) _ _ _
  | _, .whileLoop h k => Good.whileM (fun v => (h v).good) (fun v => (k v).good) _ _
  | _, .vmap h => Good.vmap (fun v => (h v).good) _ _
  | _, .evalShape h => Good.evalShape h.good
  | _, .initT h => Good.initM h.good _
  | _, .applyT h => Good.applyM h.good _ _ _

theorem Ctor.good : ∀ {id : ModId} {p : Prog}, Ctor id p → CGood id (p.run localMach)
  | _, _, .now => CGood.super _ _ _
  | _, _, .first h => (CGood.super _ _ _).first fun v => (h v).good
  | _, _, .later h k => CGood.later h.good fun v => (k v).good
  | _, _, .never h => h.good.ctor
end

/-! ### Theorems -/

/-- `m.params_dict()` shows the bundle `b` because it is the module's own or that of a recorded submodule. -/
def ShownBy (w : World) (m : ModId) (b : Str) : Prop := nameOf w m = some b ∨ b ∈ submodules w m

theorem seen_world {s s' : LW} {tl : List (Option PRNGSeq)} {rest : List FrameS} {self : ModId} (h : Seen self s.env.modules s'.loc.heap s.loc.trace s'.loc.trace) :
    ∃ new, accesses (toWorld s' tl rest) = accesses (toWorld s tl rest) ++ new ∧
      ∀ e ∈ new, ∀ m, m = self ∨ Running (toWorld s tl rest) m → ShownBy (toWorld s' tl rest) m (bundleOf e) := by
  obtain ⟨new, h1, h2⟩ := h
  refine ⟨new, h1, fun e he m hm => ?_⟩
  rcases hm with rfl | ⟨F, hF, hm⟩
  · exact (h2 e he).1
  · cases hF
    exact (h2 e he).2 m hm

/-- C45 over whole runs: when a method returns, then every parameter or state that was accessed while it ran, however deep and under whatever control flow,
is shown by the module itself and by every other module a method of which was running. -/
theorem method_accesses_shown {w w' : World} (hw : InTransform w) {self : ModId} {method : Str} {args : Val} {body : Val → Prog} (ho : ∀ a, Orderly (body a)) {v : Val}
    (h : (Prog.callMethod self method args body).run stackMach w = (.ok v, w')) :
    ∃ new, accesses w' = accesses w ++ new ∧ ∀ e ∈ new, ∀ m, m = self ∨ Running w m → ShownBy w' m (bundleOf e) := by
  obtain ⟨F, rest, r, tl, hF, hr⟩ := hw
  have hc := toWorld_curr hF hr
  generalize curr F r w = s at hc
  subst hc
  rw [(ref_run _).1] at h
  obtain ⟨h1, rfl⟩ := Prod.mk.inj h
  exact seen_world (method_ok (fun a => (ho a).good) (Prod.ext h1 rfl : (Prog.callMethod self method args body).run localMach s = (.ok v, _))).2.2

/-- C45 the same for constructors: what is accessed while a module is constructed is shown by the new module and by every module a method of which is running. -/
theorem constructor_accesses_shown {w w' : World} (hw : InTransform w) {args : Val} {ctor : ModId → Val → Prog} (ho : ∀ id a, Ctor id (ctor id a)) {v : Val}
    (h : (Prog.newModule args ctor).run stackMach w = (.ok v, w')) :
    ∃ id n, v = .mod id ∧ nameOf w' id = some n ∧ (∀ m, Running w m → ShownBy w' m n) ∧
      ∃ new, accesses w' = accesses w ++ new ∧ ∀ e ∈ new, ∀ m, m = id ∨ Running w m → ShownBy w' m (bundleOf e) := by
  obtain ⟨F, rest, r, tl, hF, hr⟩ := hw
  have hc := toWorld_curr hF hr
  generalize curr F r w = s at hc
  subst hc
  rw [(ref_run _).1] at h
  obtain ⟨h1, rfl⟩ := Prod.mk.inj h
  obtain ⟨id, s1, h2, h3⟩ := bind_ok (Prod.ext h1 rfl : (Prog.newModule args ctor).run localMach s = (.ok v, _))
  obtain ⟨h4, h5⟩ := Prod.mk.inj h3
  cases h4
  obtain ⟨-, -, a, n, b, c⟩ := construct_ok (fun id a => (ho id a).good) h2
  rw [h5] at a b c
  refine ⟨id, n, rfl, b, fun m hm => ?_, seen_world a⟩
  obtain ⟨G, hG, hm⟩ := hm
  cases hG
  exact c m hm

/-- C45 for any program: what it accesses belongs to the module whose method is running, or is shown by all modules with running methods. -/
theorem accesses_covered {w w' : World} (hw : InTransform w) {p : Prog} (ho : Orderly p) {v : Val} (h : p.run stackMach w = (.ok v, w')) :
    ∃ new, accesses w' = accesses w ++ new ∧ ∀ e ∈ new,
      (∃ F ∈ w.frames.head?, ∃ t ∈ F.moduleStack.head?, nameOf w' t.1 = some (bundleOf e)) ∨ ∀ m, Running w m → ShownBy w' m (bundleOf e) := by
  obtain ⟨F, rest, r, tl, hF, hr⟩ := hw
  have hc := toWorld_curr hF hr
  generalize curr F r w = s at hc
  subst hc
  rw [(ref_run _).1] at h
  obtain ⟨h1, rfl⟩ := Prod.mk.inj h
  obtain ⟨-, -, new, h2, h3⟩ := ho.good _ _ _ (Prod.ext h1 rfl : p.run localMach s = (.ok v, _))
  refine ⟨new, h2, fun e he => ?_⟩
  rcases h3 e he with ⟨t, h4, h5⟩ | h4
  · obtain ⟨q, hq, rfl⟩ := Option.map_eq_some_iff.1 h4
    exact .inl ⟨_, rfl, q, hq, h5⟩
  · refine .inr fun m hm => ?_
    obtain ⟨G, hG, hm⟩ := hm
    cases hG
    exact h4 m hm

/-- C45 what a module shows it keeps showing. -/
theorem shown_kept {w w' : World} (hw : InTransform w) {p : Prog} (ho : Orderly p) {v : Val} (h : p.run stackMach w = (.ok v, w')) {m : ModId} {b : Str} (hs : ShownBy w m b) : ShownBy w' m b := by
  obtain ⟨F, rest, r, tl, hF, hr⟩ := hw
  have hc := toWorld_curr hF hr
  generalize curr F r w = s at hc
  subst hc
  rw [(ref_run _).1] at h
  obtain ⟨h1, rfl⟩ := Prod.mk.inj h
  exact Shows.mono (ho.good _ _ _ (Prod.ext h1 rfl : p.run localMach s = (.ok v, _))).2.1 hs

/-- C45 together: after a method of a module with name `n` has returned, the module's dictionary has every value that is stored under a name accessed while the method
ran.  The guard on names is that of `selects_partial`. -/
theorem accessed_in_dict_partial {w w' : World} (hw : InTransform w) (ht : Tidy w) {self : ModId} {method : Str} {args : Val} {body : Val → Prog} (ho : ∀ a, Orderly (body a)) {v : Val}
    (h : (Prog.callMethod self method args body).run stackMach w = (.ok v, w')) {n : Str} {subs : List Str} (hm : w'.heap[self]? = some ⟨some n, some subs⟩)
    (ofState : Bool) (hp : PlainNames (stored w' ofState)) :
    ∃ new d, accesses w' = accesses w ++ new ∧ (Prog.op (.modDict self ofState)).run stackMach w' = (.ok (.bundle [([], d)]), w') ∧
      ∀ e ∈ new, ∀ k x, lookup2 (stored w' ofState) (bundleOf e) k = some x → Dict.get? d (bundleOf e ++ '/' :: k) = some x := by
  obtain ⟨new, h1, h2⟩ := method_accesses_shown hw ho h
  have ht' : Tidy w' := by have := tidy_run (Prog.callMethod self method args body) hw ht; rw [h] at this; exact this
  have hw' : InTransform w' := by
    obtain ⟨F, rest, r, tl, hF, hr⟩ := hw
    have hc := toWorld_curr hF hr
    generalize curr F r w = s at hc
    subst hc
    rw [(ref_run _).1] at h
    obtain ⟨-, rfl⟩ := Prod.mk.inj h
    exact ⟨_, _, _, _, rfl, rfl⟩
  obtain ⟨d, h3, h4⟩ := selects_partial hw' ht' self n subs hm ofState hp
  refine ⟨new, d, h1, h3, fun e he k x hx => (h4 _ _).2 ⟨_, k, rfl, ?_, hx⟩⟩
  rcases h2 e he self (.inl rfl) with h5 | h5
  · left
    unfold nameOf at h5
    rw [hm] at h5
    exact (Option.some.inj h5).symm
  · right; right
    unfold submodules at h5
    rw [hm] at h5
    exact h5

/-! ### Examples -/

/-- The parameter "w", initialised to 7. -/
def makeW : Prog := .op (.getParam "w".toList [] .f32 (some fun _ _ => .ret ⟨[], .f32, [7]⟩))

/-- A transform in which nothing has been stored yet, with two modules "a" and "c". -/
def blank : World := { World.initial with
  frames := [World.frameOf { Ctx.new (some []) (some []) none with frozen := false }]
  heap := [⟨some "a".toList, some []⟩, ⟨some "c".toList, some []⟩] }

/-- In a method of "a": a call of a method of "c", and a new module "b" called in a loop. -/
def deep : Prog := .callMethod 0 "go".toList .unit fun _ =>
  .bind (.callMethod 1 "go".toList .unit fun _ => makeW) fun _ =>
  .bind (.newModule .unit fun id _ => .op (.superInit id (some "b".toList) "B".toList)) fun m =>
    match m with
    | .mod id => .fori 0 2 (fun _ _ => .bind (.callMethod id sCall .unit fun _ => makeW) fun _ => .ret .unit) .unit
    | _ => .raise .badMapping

theorem makeW_orderly : Orderly makeW := .op fun m n cls h => by cases h

theorem deep_orderly : Orderly deep := .callMethod fun _ => .bind (.callMethod fun _ => makeW_orderly) fun _ => .bind (.newModule fun _ _ => .now) fun m => by
  split
  · exact .fori fun _ _ => .bind (.callMethod fun _ => makeW_orderly) fun _ => .ret _
  · exact .raise _

example : InTransform blank ∧ (deep.run stackMach blank).1 = .ok .unit ∧
    (accesses (deep.run stackMach blank).2).map bundleOf = ["c".toList, "a/~go/b".toList, "a/~go/b".toList] ∧
    submodules (deep.run stackMach blank).2 0 = ["a/~go/b".toList, "a/~go/b".toList, "a/~go/b".toList, "c".toList] :=
  ⟨⟨_, _, _, _, rfl, rfl⟩, by decide +kernel, by decide +kernel, by decide +kernel⟩

example : Tidy blank ∧ ((deep.run stackMach blank).2.heap[0]?).isSome = true ∧ PlainNames (stored (deep.run stackMach blank).2 false) ∧
    ((Prog.op (.modDict 0 false)).run stackMach (deep.run stackMach blank).2).1 = .ok (.bundle [([], [("c/w".toList, ⟨[], .f32, [7]⟩), ("a/~go/b/w".toList, ⟨[], .f32, [7]⟩)])]) := by
  refine ⟨fun F hF => ?_, by decide +kernel, ?_, by decide +kernel⟩
  · cases hF
    exact WF2.ctxNew (some _) (some []) none []
  · unfold PlainNames; decide +kernel

/-- A constructor that makes a parameter after `super().__init__()`, run while a method of "a" is running. -/
def making : Prog := .newModule .unit fun id _ => .bind (.op (.superInit id (some "b".toList) "B".toList)) fun _ => makeW

example : (∀ id, Ctor id (.bind (.op (.superInit id (some "b".toList) "B".toList)) fun _ => makeW)) ∧
    (making.run stackMach (enter 0 "go".toList blank)).1 = .ok (.mod 2) ∧ Running (enter 0 "go".toList blank) 0 ∧
    (accesses (making.run stackMach (enter 0 "go".toList blank)).2).map bundleOf = ["a/~go/b".toList] ∧
    submodules (making.run stackMach (enter 0 "go".toList blank)).2 0 = ["a/~go/b".toList] :=
  ⟨fun id => .first fun _ => makeW_orderly, by decide +kernel, ⟨_, rfl, by decide +kernel⟩, by decide +kernel, by decide +kernel⟩

/-- In a method of "a": a method of "c" makes a parameter and raises, which is caught. -/
def catching : Prog := .callMethod 0 "go".toList .unit fun _ =>
  .tryCatch (.callMethod 1 "go".toList .unit fun _ => .bind makeW fun _ => .raise .badMapping) fun _ => .ret .unit

/-- C45 fails for programs that catch exceptions: a method of "c" ran inside a method of "a" and made a parameter, but raised, and "c" is not recorded; `params_dict()` of "a"
does not show the parameter.  This is why `Orderly` excludes `tryCatch`. -/
theorem caught_not_shown : ∃ (w : World), InTransform w ∧ (catching.run stackMach w).1 = .ok .unit ∧
    lookup2 (topParams (catching.run stackMach w).2) "c".toList "w".toList = some ⟨[], .f32, [7]⟩ ∧ ¬ ShownBy (catching.run stackMach w).2 0 "c".toList ∧
    ((Prog.op (.modDict 0 false)).run stackMach (catching.run stackMach w).2).1 = .ok (.bundle [([], [])]) := by
  refine ⟨blank, ⟨_, _, _, _, rfl, rfl⟩, by decide +kernel, by decide +kernel, ?_, by decide +kernel⟩
  unfold ShownBy
  decide +kernel

/-- A module whose constructor calls `super().__init__()`, uses "c", and calls `super().__init__()` again. -/
def twice : Prog := .newModule .unit fun id _ => .bind (.op (.superInit id (some "b".toList) "B".toList)) fun _ =>
  .bind (.callMethod 1 "go".toList .unit fun _ => makeW) fun _ => .op (.superInit id (some "b".toList) "B".toList)

/-- C45 fails for constructors that call `super().__init__()` twice: the second call forgets the recorded submodules.  This is why `Ctor` allows one call. -/
theorem twice_not_shown : ∃ (w : World), InTransform w ∧ (twice.run stackMach w).1 = .ok (.mod 2) ∧
    (accesses (twice.run stackMach w).2).map bundleOf = ["c".toList] ∧ ¬ ShownBy (twice.run stackMach w).2 2 "c".toList := by
  refine ⟨blank, ⟨_, _, _, _, rfl, rfl⟩, by decide +kernel, by decide +kernel, ?_⟩
  unfold ShownBy
  decide +kernel

/-- In a method of "a": a method of "c" lifts an `init` that makes the parameters of a module "p". -/
def lifting : Prog := .callMethod 0 "go".toList .unit fun _ => .callMethod 1 "go".toList .unit fun _ =>
  .bind (.newModule .unit fun id _ => .op (.superInit id (some "lifted".toList) "LiftingModule".toList)) fun m =>
    match m with
    | .mod id => .callMethod id sCall .unit fun _ => .op (.liftPack id [("p".toList, [("w".toList, ⟨[], .f32, [7]⟩)])])
    | _ => .raise .badMapping

/-- C45 does not extend to lifted parameters: they are stored below the name of the lifting module, not as those of a module that ran, so that a module which only called the module that
lifted does not show them. -/
theorem lifted_not_shown : ∃ (w : World), InTransform w ∧ Orderly lifting ∧ (lifting.run stackMach w).1 = .ok .unit ∧
    lookup2 (topParams (lifting.run stackMach w).2) "c/~go/lifted/p".toList "w".toList = some ⟨[], .f32, [7]⟩ ∧
    ((Prog.op (.modDict 1 false)).run stackMach (lifting.run stackMach w).2).1 = .ok (.bundle [([], [("c/~go/lifted/p/w".toList, ⟨[], .f32, [7]⟩)])]) ∧
    ((Prog.op (.modDict 0 false)).run stackMach (lifting.run stackMach w).2).1 = .ok (.bundle [([], [])]) := by
  refine ⟨blank, ⟨_, _, _, _, rfl, rfl⟩, .callMethod fun _ => .callMethod fun _ => .bind (.newModule fun _ _ => .now) fun m => ?_, by decide +kernel, by decide +kernel, by decide +kernel, by decide +kernel⟩
  split
  · exact .callMethod fun _ => .op fun m n cls h => by cases h
  · exact .raise _

end Verif.Props.Submodules
