import Verif.Lemmas.FrameOps
import Mathlib.Data.List.Forall2

/-!
# The stack machine implements the local machine
-/

set_option linter.unusedSectionVars false
set_option linter.unusedVariables false

namespace Verif
open Names Frame

variable {α β : Type}

/-- Lifts a family of relations on frame data to the states of the local machine: the surroundings stay the same. -/
def LRel (R : Env → Loc → Loc → Prop) : LW → LW → Prop := fun s s' => s'.env = s.env ∧ R s.env s.loc s'.loc

theorem LRel.preord {R : Env → Loc → Loc → Prop} (O : ∀ E, Preord (R E)) : Preord (LRel R) where
  refl s := ⟨rfl, (O s.env).refl s.loc⟩
  trans := fun ⟨h1, h2⟩ ⟨k1, k2⟩ => ⟨k1.trans h1, (O _).trans h2 (h1 ▸ k2)⟩

theorem LRel.top {R : Env → Loc → Loc → Prop} {f : FOp α} (h : ∀ E, Pres (R E) (f E)) : Pres (LRel R) (localMach.top f) :=
  fun s => ⟨rfl, h s.env s.loc⟩

theorem LRel.topPres {R : Env → Loc → Loc → Prop} (O : ∀ E, Preord (R E)) (T : ∀ E, Tol E (R E))
    (hu : ∀ E d, Pres (R E) (updateInternalState d E)) : TopPres localMach (LRel R) where
  op o := LRel.top fun E => pres_op (O E) (T E) o
  read f hf := LRel.top fun E => Pres.readOnly (O E) (hf E)
  update d := LRel.top fun E => hu E d
  reserve := LRel.top fun E => pres_reserveFull (O E) (T E)
  alloc := LRel.top fun E => pres_alloc (O E) (T E)
  notify self nm := LRel.top fun E => pres_notify (O E) (T E) self nm

/-- The depth of the scope stack. -/
def Loc.depth (s : Loc) : Nat := s.scopes.length

theorem depth_update (E : Env) (d : Diff) : Pres (Keep Loc.depth) (updateInternalState d E) := by
  intro s
  rw [updateInternalState_eq]
  rfl

theorem depth_tol (E : Env) : Tol E (Keep Loc.depth) where
  draw s q _ := by
    have h := keep_noRng_draw q s
    simp only [Keep, Loc.noRng, Prod.mk.injEq] at h
    simp only [Keep, Loc.depth, h.2.2.1]
  take s q n _ := rfl
  reserve s q n _ := rfl
  full s q _ := rfl
  pbundle _ s b := rfl
  pnew _ s b n a _ _ := rfl
  pread s b n a _ := rfl
  sbundle s b := rfl
  snew s b n a _ _ := rfl
  sread s b n p _ := rfl
  sset s b n v _ := rfl
  alloc s := rfl
  heapSubs s m f := rfl
  scope s own sc rest caller nm sc' h _ := by simp [Keep, Loc.depth, h]
  named s m n := rfl
  lift _ s n p := rfl

/-- The surroundings and the depth of the scope stack are the same. -/
def Frm : LW → LW → Prop := LRel fun _ => Keep Loc.depth

theorem Frm.preord : Preord Frm := LRel.preord fun _ => Keep.preord _

theorem Frm.topPres : TopPres localMach Frm := LRel.topPres (fun _ => Keep.preord _) depth_tol depth_update

theorem Frm.blockPres : BlockPres localMach Frm where
  temp st m h s := ⟨rfl, rfl⟩
  inModule ms m h s := by
    have := (h ⟨{ s.env with modules := ms :: s.env.modules }, { s.loc with scopes := Scope.empty :: s.loc.scopes }⟩).2
    refine ⟨rfl, ?_⟩
    simp only [Keep, Loc.depth, List.length_cons] at this
    show (List.tail _).length = _
    rw [List.length_tail, this]
    rfl
  inRng q m h s := by
    have := h { s with loc := { s.loc with rng := some q } }
    exact ⟨this.1, this.2⟩
  inHook hk m h s := by
    have := h { s with env := { s.env with hooks := World.pushHook s.env.hooks hk } }
    exact ⟨rfl, this.2⟩
  inCtx c m h s := ⟨rfl, rfl⟩

/-- Every program leaves the surroundings and the depth of the scope stack as they were. -/
theorem frm_run (p : Prog) : Pres Frm (p.run localMach) := pres_run Frm.preord Frm.topPres Frm.blockPres p

/-! ### Simulation -/

/-- The stack machine state for a local state, the rest of the rng stack and the frames below. -/
def toWorld (s : LW) (tl : List (Option PRNGSeq)) (rest : List FrameS) : World :=
  ⟨⟨s.loc.params, s.env.frozen, s.loc.state, s.loc.rng :: tl, s.env.modules, s.loc.scopes, s.loc.trace⟩ :: rest,
    s.env.hooks, s.env.namedCall, s.loc.heap, s.loc.log⟩

/-- `m` on the stack machine does what `l` does on the local machine, for any stack below; and `l` is well bracketed. -/
def Ref (m : M World α) (l : M LW α) : Prop :=
  (∀ s tl rest, m (toWorld s tl rest) = ((l s).1, toWorld (l s).2 tl rest)) ∧ Pres Frm l

namespace Ref

theorem pure (a : α) : Ref (M.pure a) (M.pure a) := ⟨fun _ _ _ => rfl, Pres.pure Frm.preord a⟩
theorem throw (e : Exc) : Ref (M.throw e : M World α) (M.throw e) := ⟨fun _ _ _ => rfl, Pres.throw Frm.preord e⟩

theorem bind {m : M World α} {l : M LW α} {f : α → M World β} {g : α → M LW β} (h : Ref m l) (hf : ∀ a, Ref (f a) (g a)) :
    Ref (m >>- f) (l >>- g) := by
  refine ⟨fun s tl rest => ?_, Pres.bind Frm.preord h.2 fun a => (hf a).2⟩
  unfold M.bind
  rw [h.1 s tl rest]
  rcases l s with ⟨e | a, s'⟩
  · rfl
  · exact (hf a).1 s' tl rest

theorem tryCatch {m : M World α} {l : M LW α} {f : Exc → M World α} {g : Exc → M LW α} (h : Ref m l) (hf : ∀ a, Ref (f a) (g a)) :
    Ref (M.tryCatch m f) (M.tryCatch l g) := by
  refine ⟨fun s tl rest => ?_, Pres.tryCatch Frm.preord h.2 fun a => (hf a).2⟩
  unfold M.tryCatch
  rw [h.1 s tl rest]
  rcases l s with ⟨e | a, s'⟩
  · exact (hf e).1 s' tl rest
  · rfl

theorem top {f : FOp α} (h : Pres Frm (localMach.top f)) : Ref (stackMach.top f) (localMach.top f) := by
  refine ⟨fun s tl rest => ?_, h⟩
  show World.top f (toWorld s tl rest) = ((LW.top f s).1, toWorld (LW.top f s).2 tl rest)
  obtain ⟨⟨fr, mods, hk, nc⟩, ⟨p, st, r, sc, h, lg, tr⟩⟩ := s
  unfold World.top LW.top toWorld
  dsimp only

theorem temp {m : M World α} {l : M LW α} (st : IState) (h : Ref m l) : Ref (stackMach.temp st m) (localMach.temp st l) := by
  refine ⟨fun s tl rest => ?_, Frm.blockPres.temp st l h.2⟩
  show World.temp st m (toWorld s tl rest) = ((LW.temp st l s).1, toWorld (LW.temp st l s).2 tl rest)
  have hr := h.1 { s with loc := { s.loc with
      params := st.params.getD s.loc.params, state := st.state, rng := st.rng.map PRNGSeq.ofState, trace := st.trace } }
      (s.loc.rng :: tl) (toWorld s tl rest).frames
  have hF := h.2 { s with loc := { s.loc with
      params := st.params.getD s.loc.params, state := st.state, rng := st.rng.map PRNGSeq.ofState, trace := st.trace } }
  unfold World.temp LW.temp World.withFrame World.evolve
  simp only [toWorld] at hr ⊢
  rw [hr]
  revert hF
  generalize l _ = r
  rcases r with ⟨a, ⟨E', l'⟩⟩
  rintro ⟨hE, -⟩
  dsimp only at hE
  subst hE
  simp

theorem inModule {m : M World α} {l : M LW α} (ms : ModId × Str) (h : Ref m l) :
    Ref (stackMach.inModule ms m) (localMach.inModule ms l) := by
  refine ⟨fun s tl rest => ?_, Frm.blockPres.inModule ms l h.2⟩
  show World.inModule ms m (toWorld s tl rest) = ((LW.inModule ms l s).1, toWorld (LW.inModule ms l s).2 tl rest)
  have hr := h.1 { env := { s.env with modules := ms :: s.env.modules }, loc := { s.loc with scopes := Scope.empty :: s.loc.scopes } } tl rest
  have hF := h.2 { env := { s.env with modules := ms :: s.env.modules }, loc := { s.loc with scopes := Scope.empty :: s.loc.scopes } }
  unfold World.inModule LW.inModule
  simp only [toWorld] at hr ⊢
  rw [hr]
  revert hF
  generalize l _ = r
  rcases r with ⟨a, ⟨E', l'⟩⟩
  rintro ⟨hE, hd⟩
  dsimp only at hE
  subst hE
  dsimp only [Keep, Loc.depth] at hd ⊢
  rcases hs : l'.scopes with _ | ⟨sc, scs⟩
  · rw [hs] at hd; simp at hd
  · simp

theorem inRng {m : M World α} {l : M LW α} (q : PRNGSeq) (h : Ref m l) : Ref (stackMach.inRng q m) (localMach.inRng q l) := by
  refine ⟨fun s tl rest => ?_, Frm.blockPres.inRng q l h.2⟩
  show World.inRng q m (toWorld s tl rest) = ((LW.inRng q l s).1, toWorld (LW.inRng q l s).2 tl rest)
  have hr := h.1 { s with loc := { s.loc with rng := some q } } (s.loc.rng :: tl) rest
  unfold World.inRng LW.inRng
  simp only [toWorld] at hr ⊢
  rw [hr]
  simp

theorem popHook_pushHook (h : Hooks) (p : HookPush) : World.popHook (World.pushHook h p) p = h := by
  cases p with
  | creator c a b => cases a <;> cases b <;> simp [World.popHook, World.pushHook]
  | getter c a b => cases a <;> cases b <;> simp [World.popHook, World.pushHook]
  | interceptor i => simp [World.popHook, World.pushHook]

theorem inHook {m : M World α} {l : M LW α} (hk : HookPush) (h : Ref m l) : Ref (stackMach.inHook hk m) (localMach.inHook hk l) := by
  refine ⟨fun s tl rest => ?_, Frm.blockPres.inHook hk l h.2⟩
  show World.inHook hk m (toWorld s tl rest) = ((LW.inHook hk l s).1, toWorld (LW.inHook hk l s).2 tl rest)
  have hr := h.1 { s with env := { s.env with hooks := World.pushHook s.env.hooks hk } } tl rest
  have hF := h.2 { s with env := { s.env with hooks := World.pushHook s.env.hooks hk } }
  unfold World.inHook LW.inHook
  simp only [toWorld] at hr ⊢
  rw [hr]
  revert hF
  generalize l _ = r
  rcases r with ⟨a, ⟨E', l'⟩⟩
  rintro ⟨hE, -⟩
  dsimp only at hE
  subst hE
  simp [popHook_pushHook]

/-- Entering a context from any stack machine state, also outside any transform. -/
theorem ctxAny {m : M World α} {l : M LW α} (c : Ctx) (h : Ref m l) (w : World) :
    World.inCtx c m w =
      (let r := l ⟨⟨c.frozen, [], w.hooks, w.namedCall⟩, LW.ctxLoc c w.heap⟩
       (.ok (r.1, ⟨r.2.loc.params, c.frozen, r.2.loc.state, r.2.loc.rng, r.2.loc.scopes.head?.getD Scope.empty⟩),
        { w with heap := r.2.loc.heap })) := by
  have hr := h.1 ⟨⟨c.frozen, [], w.hooks, w.namedCall⟩, LW.ctxLoc c w.heap⟩ [] w.frames
  have hF := h.2 ⟨⟨c.frozen, [], w.hooks, w.namedCall⟩, LW.ctxLoc c w.heap⟩
  unfold World.inCtx World.frameOf
  simp only [toWorld, LW.ctxLoc] at hr hF ⊢
  rw [hr]
  revert hF
  generalize l _ = r
  rcases r with ⟨a, ⟨E', l'⟩⟩
  rintro ⟨hE, hd⟩
  dsimp only at hE
  subst hE
  dsimp only [Keep, Loc.depth] at hd ⊢
  rcases hs : l'.scopes with _ | ⟨sc, _ | ⟨sc2, _ | ⟨sc3, scs⟩⟩⟩
  · rw [hs] at hd; simp at hd
  · rw [hs] at hd; simp at hd
  · simp
  · rw [hs] at hd; simp at hd

theorem inCtx {m : M World α} {l : M LW α} (c : Ctx) (h : Ref m l) : Ref (stackMach.inCtx c m) (localMach.inCtx c l) := by
  refine ⟨fun s tl rest => ?_, Frm.blockPres.inCtx c l h.2⟩
  show World.inCtx c m (toWorld s tl rest) = ((LW.inCtx c l s).1, toWorld (LW.inCtx c l s).2 tl rest)
  rw [ctxAny c h]
  rfl

end Ref

/-! ### Compositionality -/

theorem ref_runInterceptors {self : ModId} {method : Str} {b : Val → M World Val} {c : Val → M LW Val} (hb : ∀ v, Ref (b v) (c v)) :
    ∀ (is : List Interceptor) (args : Val), Ref (runInterceptors self method b is args) (runInterceptors self method c is args) := by
  intro is
  induction is with
  | nil => exact hb
  | cons i is ih =>
    intro args
    unfold runInterceptors
    cases i self method args with
    | done v => exact Ref.pure v
    | raise e => exact Ref.throw e
    | next a post => exact Ref.bind (ih a) fun v => Ref.pure _
    | orig a post => exact Ref.bind (hb a) fun v => Ref.pure _

theorem Ref.read {f : FOp α} (h : ∀ E, ReadOnly (f E)) : Ref (stackMach.top f) (localMach.top f) := Ref.top (Frm.topPres.read f h)

theorem Ref.internal (b : Bool) : Ref (stackMach.top fun _ => internalState b) (localMach.top fun _ => internalState b) :=
  Ref.read fun _ => readOnly_internalState b

theorem Ref.update (d : Diff) : Ref (stackMach.top (updateInternalState d)) (localMach.top (updateInternalState d)) :=
  Ref.top (Frm.topPres.update d)

theorem Ref.reserve : Ref (stackMach.top fun _ => reserveFull) (localMach.top fun _ => reserveFull) := Ref.top Frm.topPres.reserve

theorem Ref.op (o : Op) : Ref (stackMach.top o.run) (localMach.top o.run) := Ref.top (Frm.topPres.op o)

theorem Ref.ite {c : Prop} [Decidable c] {m n : M World α} {l k : M LW α} (h1 : Ref m l) (h2 : Ref n k) :
    Ref (if c then m else n) (if c then l else k) := by
  split
  · exact h1
  · exact h2

theorem ref_jitM {m : M World Val} {l : M LW Val} (h : Ref m l) : Ref (jitM stackMach m) (jitM localMach l) :=
  (Ref.internal true).bind fun st =>
    (Ref.temp st (h.bind fun _ => (Ref.internal true).bind fun _ => Ref.pure _)).bind fun r => (Ref.update r.2).bind fun _ => Ref.pure _

theorem ref_wrapMethod {self : ModId} {method : Str} {args : Val} {b : Val → M World Val} {c : Val → M LW Val} (hb : ∀ v, Ref (b v) (c v)) :
    Ref (wrapMethod stackMach self method args b) (wrapMethod localMach self method args c) := by
  refine Ref.inModule _ ((Ref.read fun E => ReadOnly.bind (readOnly_getModuleName self) fun _ => ReadOnly.pure _).bind fun r => ?_)
  have hi := ref_runInterceptors (self := self) (method := method) hb r.2.1 args
  exact (Ref.ite (ref_jitM hi) hi).bind fun v => (Ref.top (Frm.topPres.notify _ _)).bind fun _ => Ref.pure _

theorem ref_construct {args : Val} {b : ModId → Val → M World Val} {c : ModId → Val → M LW Val} (hb : ∀ i v, Ref (b i v) (c i v)) :
    Ref (construct stackMach args b) (construct localMach args c) :=
  (Ref.top Frm.topPres.alloc).bind fun id => (ref_wrapMethod (hb id)).bind fun _ =>
    (Ref.read fun _ => readOnly_checkCtor id).bind fun _ => Ref.pure _

theorem ref_nameScopeCtor : ∀ parts : List Str, Ref (nameScopeCtor stackMach parts) (nameScopeCtor localMach parts)
  | [] => Ref.throw _
  | [n] => ref_construct fun _ _ => Ref.op _
  | n :: m :: ns => (ref_construct fun _ _ => Ref.op _).bind fun id => Ref.inModule _ (ref_nameScopeCtor (m :: ns))

theorem ref_nameScopeM {name : Str} {m : M World Val} {l : M LW Val} (h : Ref m l) :
    Ref (nameScopeM stackMach name m) (nameScopeM localMach name l) :=
  (Ref.read fun _ => ReadOnly.pure _).bind fun _ => Ref.ite (Ref.throw _)
    ((ref_nameScopeCtor _).bind fun id => Ref.inModule _ h)

theorem ref_branchM {st : IState} {m : M World Val} {l : M LW Val} (h : Ref m l) : Ref (branchM stackMach st m) (branchM localMach st l) :=
  Ref.temp _ (h.bind fun _ => Ref.reserve.bind fun _ => (Ref.internal true).bind fun _ => Ref.pure _)

/-- Turns the list of states reached by the branches of the local machine into states of the stack machine. -/
def liftBranches (tl : List (Option PRNGSeq)) (rest : List FrameS) :
    Except (Exc × LW) (List ((Val × IState) × LW)) → Except (Exc × World) (List ((Val × IState) × World))
  | .error (e, s) => .error (e, toWorld s tl rest)
  | .ok rs => .ok (rs.map fun r => (r.1, toWorld r.2 tl rest))

theorem ref_runBranches {st : IState} {s : LW} {tl : List (Option PRNGSeq)} {rest : List FrameS} :
    ∀ {ms : List (M World Val)} {ls : List (M LW Val)}, List.Forall₂ Ref ms ls →
    runBranches stackMach st ms (toWorld s tl rest) = liftBranches tl rest (runBranches localMach st ls s) := by
  intro ms ls h
  induction h with
  | nil => rfl
  | cons h hs ih =>
    have hb := (ref_branchM (st := st) h).1 s tl rest
    unfold runBranches
    rw [hb, ih]
    rcases branchM localMach st _ s with ⟨e | r, s'⟩
    · rfl
    · dsimp only
      rcases runBranches localMach st _ s with ⟨e, x⟩ | rs <;> rfl

theorem ref_switchM {i : Nat} {ms : List (M World Val)} {ls : List (M LW Val)} (h : List.Forall₂ Ref ms ls) :
    Ref (switchM stackMach i ms) (switchM localMach i ls) := by
  have hp : ∀ l ∈ ls, Pres Frm l := by
    intro l hl
    clear i
    induction h with
    | nil => simp at hl
    | cons h hs ih =>
      rcases List.mem_cons.1 hl with rfl | hl
      · exact h.2
      · exact ih hl
  refine Ref.bind Ref.reserve fun _ => Ref.bind (Ref.internal true) fun st =>
    ⟨?_, pres_switchFrom Frm.preord Frm.topPres Frm.blockPres hp st⟩
  intro s tl rest
  unfold switchFrom
  rw [ref_runBranches h]
  rcases hrs : runBranches localMach st ls s with ⟨e, s'⟩ | rs
  · rfl
  · dsimp only [liftBranches]
    rw [List.getElem?_map]
    rcases hi : rs[i]? with _ | ⟨⟨v, st'⟩, s'⟩
    · rfl
    · dsimp only [Option.map_some]
      rw [List.all_map]
      dsimp only [Function.comp_def]
      split
      · exact (Ref.bind (Ref.update _) fun _ => Ref.pure v).1 s' tl rest
      · rfl

theorem ref_asPair (v : Val) : Ref (asPair v : M World _) (asPair v) := by
  cases v <;> first | exact Ref.pure _ | exact Ref.throw _

theorem ref_scanStep {f : Val → Val → M World Val} {g : Val → Val → M LW Val} (h : ∀ c x, Ref (f c x) (g c x)) (c x : Val) (st : IState) :
    Ref (scanStep stackMach f c x st) (scanStep localMach g c x st) :=
  (Ref.temp _ ((Ref.internal true).bind fun _ => (h c x).bind fun r => (ref_asPair r).bind fun cy => (Ref.internal true).bind fun _ =>
    Ref.ite (Ref.throw _) (Ref.reserve.bind fun _ => (Ref.internal false).bind fun _ => Ref.pure _))).bind fun r =>
  Ref.ite (Ref.pure _) (Ref.throw _)

theorem ref_scanLoop {f : Val → Val → IState → M World (Val × Val × IState)} {g : Val → Val → IState → M LW (Val × Val × IState)}
    (h : ∀ c x st, Ref (f c x st) (g c x st)) : ∀ xs c st, Ref (scanLoop f xs c st) (scanLoop g xs c st) := by
  intro xs
  induction xs with
  | nil => intro c st; exact Ref.pure _
  | cons x xs ih => intro c st; exact (h c x st).bind fun r => (ih _ _).bind fun _ => Ref.pure _

theorem ref_scanTail {f : Val → Val → M World Val} {g : Val → Val → M LW Val} (h : ∀ c x, Ref (f c x) (g c x)) (c : Val) (xs : List Val)
    (rev : Bool) : Ref (scanTail stackMach f c xs rev) (scanTail localMach g c xs rev) :=
  Ref.reserve.bind fun _ => (Ref.internal false).bind fun _ => (ref_scanLoop (ref_scanStep h) _ _ _).bind fun _ =>
    (Ref.update _).bind fun _ => Ref.pure _

theorem ref_scanM {f : Val → Val → M World Val} {g : Val → Val → M LW Val} (h : ∀ c x, Ref (f c x) (g c x)) (init zero : Val)
    (xs : List Val) (rev : Bool) : Ref (scanM stackMach f init zero xs rev) (scanM localMach g init zero xs rev) := by
  refine (Ref.read fun _ => ReadOnly.pure _).bind fun fr => Ref.ite ((ref_scanTail h _ _ _).bind fun _ => Ref.pure _) ?_
  cases (if rev = true then xs.getLast? else xs.head?) with
  | none => exact (h _ _).bind fun r => (ref_asPair r).bind fun _ => Ref.pure _
  | some x0 =>
    exact (h _ _).bind fun r => (ref_asPair r).bind fun cy => Ref.ite (Ref.pure _) ((ref_scanTail h _ _ _).bind fun _ => Ref.pure _)

theorem ref_foriStep {f : Int → Val → M World Val} {g : Int → Val → M LW Val} (h : ∀ c x, Ref (f c x) (g c x)) (i : Int) (v : Val)
    (st : IState) : Ref (foriStep stackMach f i v st) (foriStep localMach g i v st) :=
  (ref_branchM (h i v)).bind fun r => Ref.ite (Ref.pure _) (Ref.throw _)

theorem ref_foriLoop {f : Int → Val → IState → M World (Val × IState)} {g : Int → Val → IState → M LW (Val × IState)}
    (h : ∀ c x st, Ref (f c x st) (g c x st)) : ∀ n i v st, Ref (foriLoop f n i v st) (foriLoop g n i v st) := by
  intro n
  induction n with
  | zero => intro i v st; exact Ref.pure _
  | succ n ih => intro i v st; exact (h i v st).bind fun r => ih _ _ _

theorem ref_foriTail {f : Int → Val → M World Val} {g : Int → Val → M LW Val} (h : ∀ c x, Ref (f c x) (g c x)) (lo up : Int) (init : Val) :
    Ref (foriTail stackMach lo up f init) (foriTail localMach lo up g init) :=
  Ref.reserve.bind fun _ => (Ref.internal true).bind fun _ => (ref_foriLoop (ref_foriStep h) _ _ _ _).bind fun _ =>
    (Ref.update _).bind fun _ => Ref.pure _

theorem ref_foriM {f : Int → Val → M World Val} {g : Int → Val → M LW Val} (h : ∀ c x, Ref (f c x) (g c x)) (lo up : Int) (init : Val) :
    Ref (foriM stackMach lo up f init) (foriM localMach lo up g init) :=
  (Ref.read fun _ => ReadOnly.pure _).bind fun fr => Ref.ite (ref_foriTail h _ _ _)
    ((h _ _).bind fun v => Ref.ite (Ref.pure _) (ref_foriTail h _ _ _))

theorem ref_whileCond {c : Val → M World Val} {d : Val → M LW Val} (h : ∀ v, Ref (c v) (d v)) (v : Val) :
    Ref (whileCond stackMach c v) (whileCond localMach d v) :=
  (Ref.read fun _ => ReadOnly.get).bind fun _ => (h v).bind fun r => (Ref.read fun _ => ReadOnly.get).bind fun _ =>
    Ref.ite (Ref.throw _) (by cases r <;> first | exact Ref.pure _ | exact Ref.throw _)

theorem ref_whileBody {c : Val → M World Val} {d : Val → M LW Val} (h : ∀ v, Ref (c v) (d v)) (v : Val) (st : IState) :
    Ref (whileBody stackMach c v st) (whileBody localMach d v st) :=
  (Ref.temp _ ((h v).bind fun _ => (Ref.internal true).bind fun _ => Ref.pure _)).bind fun r => Ref.ite (Ref.pure _) (Ref.throw _)

theorem ref_whileLoopM {c : Val → M World Bool} {d : Val → M LW Bool} {f : Val → IState → M World (Val × IState)}
    {g : Val → IState → M LW (Val × IState)} (hc : ∀ v, Ref (c v) (d v)) (hf : ∀ v st, Ref (f v st) (g v st))
    (s0 : LW) (tl : List (Option PRNGSeq)) (rest : List FrameS) : ∀ n v st s,
    whileLoopM c f (toWorld s0 tl rest) n v st (toWorld s tl rest) =
      ((whileLoopM d g s0 n v st s).1, toWorld (whileLoopM d g s0 n v st s).2 tl rest) := by
  intro n
  induction n with
  | zero => intro v st s; rfl
  | succ n ih =>
    intro v st s
    unfold whileLoopM
    rw [(hc v).1 s0 tl rest]
    rcases d v s0 with ⟨e | b, s'⟩
    · rfl
    · cases b
      · rfl
      · dsimp only
        unfold M.bind
        rw [(hf v st).1 s tl rest]
        rcases g v st s with ⟨e | r, s''⟩
        · rfl
        · exact ih _ _ _

theorem ref_whileM {c b : Val → M World Val} {c' b' : Val → M LW Val} (hc : ∀ v, Ref (c v) (c' v)) (hb : ∀ v, Ref (b v) (b' v))
    (fuel : Nat) (init : Val) : Ref (whileM stackMach fuel c b init) (whileM localMach fuel c' b' init) := by
  refine Ref.bind (Ref.read fun E => ReadOnly.ite (ReadOnly.pure _) (ReadOnly.throw _)) fun _ => Ref.bind (Ref.internal true) fun st =>
    ⟨?_, pres_whileFrom Frm.preord Frm.topPres Frm.blockPres (fun v => (hc v).2) (fun v => (hb v).2) _ _ st⟩
  intro s tl rest
  unfold whileFrom
  rw [(ref_whileCond hc init).1 s tl rest]
  rcases whileCond localMach c' init s with ⟨e | b0, s1⟩
  · rfl
  · dsimp only
    have hl := ref_whileLoopM (ref_whileCond hc) (ref_whileBody hb) s tl rest fuel init st s1
    unfold M.bind
    rw [hl]
    rcases whileLoopM (whileCond localMach c') (whileBody localMach b') s fuel init st s1 with ⟨e | r, s2⟩
    · rfl
    · exact (Ref.bind (Ref.update _) fun _ => Ref.pure r.1).1 s2 tl rest

theorem ref_vmapBody {m : M World Val} {l : M LW Val} (h : Ref m l) (st : IState) : Ref (vmapBody stackMach st m) (vmapBody localMach st l) :=
  Ref.temp _ (h.bind fun _ => (Ref.internal true).bind fun _ => Ref.pure _)

theorem ref_vmapRest {st : IState} {d : Diff} {f : Val → M World Val} {g : Val → M LW Val} (h : ∀ v, Ref (f v) (g v)) (s : LW)
    (tl : List (Option PRNGSeq)) (rest : List FrameS) : ∀ xs, vmapRest stackMach st d f (toWorld s tl rest) xs =
      match vmapRest localMach st d g s xs with
      | .error (e, s') => .error (e, toWorld s' tl rest)
      | .ok vs => .ok vs := by
  intro xs
  induction xs with
  | nil => rfl
  | cons x xs ih =>
    unfold vmapRest
    rw [(ref_vmapBody (h x) st).1 s tl rest, ih]
    rcases vmapBody localMach st (g x) s with ⟨e | ⟨v, d'⟩, s'⟩
    · rfl
    · dsimp only
      split
      · rcases vmapRest localMach st d g s xs with ⟨e, x⟩ | vs <;> rfl
      · rfl

theorem ref_vmapM {f : Val → M World Val} {g : Val → M LW Val} (h : ∀ v, Ref (f v) (g v)) (x : Val) (xs : List Val) :
    Ref (vmapM stackMach f x xs) (vmapM localMach g x xs) := by
  refine Ref.bind (Ref.internal true) fun st => ⟨?_, pres_vmapFrom Frm.preord Frm.topPres Frm.blockPres (fun v => (h v).2) _ _ st⟩
  intro s tl rest
  unfold vmapFrom
  rw [(ref_vmapBody (h x) st).1 s tl rest]
  rcases vmapBody localMach st (g x) s with ⟨e | ⟨v, d⟩, s1⟩
  · rfl
  · dsimp only
    rw [ref_vmapRest h s tl rest xs]
    rcases vmapRest localMach st d g s xs with ⟨e, s'⟩ | vs
    · rfl
    · exact (Ref.bind (Ref.update _) fun _ => Ref.pure _).1 s1 tl rest

theorem ref_evalShapeM {m : M World Val} {l : M LW Val} (h : Ref m l) : Ref (evalShapeM stackMach m) (evalShapeM localMach l) :=
  (Ref.internal true).bind fun _ => (Ref.temp _ h).bind fun _ => Ref.pure _

theorem ref_initM {m : M World Val} {l : M LW Val} (h : Ref m l) (rng : RngArg) : Ref (initM stackMach rng m) (initM localMach rng l) := by
  unfold initM
  cases rng.toSeq with
  | error e => exact Ref.throw _
  | ok r =>
    refine (Ref.inCtx _ h).bind fun q => ?_
    rcases q with ⟨e | v, c⟩
    · exact Ref.throw _
    · exact Ref.pure _

theorem ref_applyM {m : M World Val} {l : M LW Val} (h : Ref m l) (params state : Option PDict) (rng : RngArg) :
    Ref (applyM stackMach params state rng m) (applyM localMach params state rng l) := by
  unfold applyM
  cases rng.toSeq with
  | error e => exact Ref.throw _
  | ok r =>
    refine (Ref.inCtx _ h).bind fun q => ?_
    rcases q with ⟨e | v, c⟩
    · exact Ref.throw _
    · exact Ref.pure _

/-- The stack machine refines the local machine, for every program. -/
theorem ref_run (p : Prog) : Ref (p.run stackMach) (p.run localMach) := by
  induction p with
  | ret v => exact Ref.pure v
  | raise e => exact Ref.throw e
  | bind p k ihp ihk => exact Ref.bind ihp ihk
  | tryCatch p h ihp ihh => exact Ref.tryCatch ihp ihh
  | op o => exact Ref.op o
  | withRng r p ih =>
    refine Ref.bind (Ref.read fun _ => ReadOnly.pure _) fun _ => ?_
    cases r.seq with
    | error e => exact Ref.throw _
    | ok q => exact Ref.inRng _ ih
  | withHook h p ih => exact Ref.bind (Ref.read fun _ => ReadOnly.pure _) fun _ => Ref.inHook _ ih
  | newModule args ctor ih => exact Ref.bind (ref_construct ih) fun _ => Ref.pure _
  | callMethod self method args body ih => exact ref_wrapMethod ih
  | nameScope name p ih => exact ref_nameScopeM ih
  | jit p ih => exact ref_jitM ih
  | cond b t f iht ihf => exact ref_switchM (.cons iht (.cons ihf .nil))
  | switch i n br ih =>
    refine ref_switchM ?_
    rw [List.forall₂_map_left_iff, List.forall₂_map_right_iff]
    exact List.forall₂_same.2 fun j _ => ih j
  | scan f init zero xs rev ih => exact ref_scanM ih _ _ _ _
  | fori lo up body init ih => exact ref_foriM ih _ _ _
  | whileLoop fuel c body init ihc ihb => exact ref_whileM ihc ihb _ _
  | vmap f x xs ih => exact ref_vmapM ih _ _
  | evalShape p ih => exact ref_evalShapeM ih
  | initT rng p ih => exact ref_initM ih _
  | applyT params state rng p ih => exact ref_applyM ih _ _ _

end Verif
