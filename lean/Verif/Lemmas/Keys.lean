import Verif.Lemmas.History
import Verif.Lemmas.PRNG

/-!
# Keys handed out by programs
-/

set_option linter.unusedVariables false
set_option linter.unusedSectionVars false

namespace Verif
open Names Frame LW

/-! ### Programs without stateful control flow -/

/-- The program uses no stateful control flow and no `with_rng` of its own (nested transforms may).  With named calls (`c`) a call of
`__call__` is stateful control flow. -/
def Prog.direct (c : Bool) : Prog → Prop
  | .ret _ => True
  | .raise _ => True
  | .bind p k => p.direct c ∧ ∀ v, (k v).direct c
  | .tryCatch p h => p.direct c ∧ ∀ e, (h e).direct c
  | .op _ => True
  | .withHook _ p => p.direct c
  | .newModule _ ctor => ∀ id a, (ctor id a).direct c
  | .callMethod _ method _ body => (c = true → method ≠ sCall) ∧ ∀ a, (body a).direct c
  | .nameScope _ p => p.direct c
  | .initT _ _ => True
  | .applyT _ _ _ _ => True
  | _ => False

/-- `R` when named calls are off, or `c`. -/
def Plain (c : Bool) (R : Loc → Loc → Prop) : LW → LW → Prop := LRel fun E s s' => E.namedCall = c → R s s'

section
variable {c : Bool} {R : Loc → Loc → Prop} (O : Preord R) (T : ∀ E, Tol E R)
  (sim : ∀ {s s'} (sc sc' : List Scope) (h h' : List ModObj), R s s' → R { s with scopes := sc, heap := h } { s' with scopes := sc', heap := h' })
include O

theorem Plain.preord : Preord (Plain c R) := LRel.preord fun _ => ⟨fun s _ => O.refl s, fun h k e => O.trans (h e) (k e)⟩

include T

omit O T in
theorem Plain.top {f : FOp α} (h : ∀ E, Pres R (f E)) : Pres (Plain c R) (localMach.top f) := LRel.top fun E s _ => h E s

theorem Plain.read {f : FOp α} (h : ∀ E, ReadOnly (f E)) : Pres (Plain c R) (localMach.top f) := Plain.top fun E => Pres.readOnly O (h E)

include sim

omit O T in
theorem simAll {s s' t t' : Loc} (h : R s s') (hs : t.params = s.params ∧ t.state = s.state ∧ t.rng = s.rng ∧ t.log = s.log ∧ t.trace = s.trace)
    (hs' : t'.params = s'.params ∧ t'.state = s'.state ∧ t'.rng = s'.rng ∧ t'.log = s'.log ∧ t'.trace = s'.trace) : R t t' := by
  have := sim t.scopes t'.scopes t.heap t'.heap h
  obtain ⟨p, st, r, sc, hp, lg, tr⟩ := t
  obtain ⟨p', st', r', sc', hp', lg', tr'⟩ := t'
  obtain ⟨h1, h2, h3, h4, h5⟩ := hs
  obtain ⟨k1, k2, k3, k4, k5⟩ := hs'
  dsimp only at h1 h2 h3 h4 h5 k1 k2 k3 k4 k5
  subst h1 h2 h3 h4 h5 k1 k2 k3 k4 k5
  exact this

omit O T in
theorem Plain.inModuleAt {ms : ModId × Str} {m : M LW α} {s : LW}
    (h : Plain c R ⟨{ s.env with modules := ms :: s.env.modules }, { s.loc with scopes := Scope.empty :: s.loc.scopes }⟩
      (m ⟨{ s.env with modules := ms :: s.env.modules }, { s.loc with scopes := Scope.empty :: s.loc.scopes }⟩).2) :
    Plain c R s (localMach.inModule ms m s).2 :=
  ⟨rfl, fun e => simAll sim (h.2 e) ⟨rfl, rfl, rfl, rfl, rfl⟩ ⟨rfl, rfl, rfl, rfl, rfl⟩⟩

omit O T sim in
theorem Plain.inHook (hk : HookPush) {m : M LW α} (h : Pres (Plain c R) m) : Pres (Plain c R) (localMach.inHook hk m) := fun s =>
  ⟨rfl, (h { s with env := { s.env with hooks := World.pushHook s.env.hooks hk } }).2⟩

theorem Plain.wrapMethod {self : ModId} {method : Str} {args : Val} {body : Val → M LW Val} (hm : c = true → method ≠ sCall)
    (hg : ∀ v, Pres GrowL (body v)) (hb : ∀ v, Pres (Plain c R) (body v)) : Pres (Plain c R) (wrapMethod localMach self method args body) := by
  have P := Plain.preord (c := c) O
  intro s
  refine Plain.inModuleAt sim ?_
  generalize (⟨{ s.env with modules := (self, method) :: s.env.modules }, { s.loc with scopes := Scope.empty :: s.loc.scopes }⟩ : LW) = t
  refine Pres.bind' P (Plain.read O T (fun E => ReadOnly.bind (readOnly_getModuleName self) fun _ => ReadOnly.pure _) t) ?_
  intro r t1 ht
  have hr : t1 = t ∧ r.2.2 = t.env.namedCall := by cases ht; exact ⟨rfl, rfl⟩
  obtain ⟨rfl, hr⟩ := hr
  have hi := pres_runInterceptors P (self := self) (method := method) hb r.2.1 args
  have hgi := pres_runInterceptors GrowL.preord (self := self) (method := method) hg r.2.1 args
  refine Pres.bind' P ?_ fun v s1 _ => Pres.bind P (Plain.top fun E => pres_notify O (T E) _ _) (fun _ => Pres.pure P _) s1
  by_cases hn : t1.env.namedCall = c
  · have e : (r.2.2 && r.1.isSome && decide (method = sCall)) = false := by
      rw [hr, hn]
      cases c with
      | false => rfl
      | true => simp [hm rfl]
    rw [if_neg (by rw [e]; simp)]
    exact hi t1
  · refine ⟨?_, fun e => (hn e).elim⟩
    split
    · exact (pres_jitM GrowL.preord GrowL.topPres GrowL.blockPres hgi t1).1
    · exact (hgi t1).1

theorem Plain.construct {args : Val} {ctor : ModId → Val → M LW Val} (hg : ∀ i v, Pres GrowL (ctor i v)) (hc : ∀ i v, Pres (Plain c R) (ctor i v)) :
    Pres (Plain c R) (construct localMach args ctor) :=
  have P := Plain.preord (c := c) O
  Pres.bind P (Plain.top fun E => pres_alloc O (T E)) fun id => Pres.bind P (Plain.wrapMethod O T sim (fun _ => by decide) (hg id) (hc id)) fun _ =>
    Pres.bind P (Plain.read O T fun _ => readOnly_checkCtor id) fun _ => Pres.pure P _

theorem Plain.nameScopeCtor : ∀ parts : List Str, Pres (Plain c R) (nameScopeCtor localMach parts)
  | [] => Pres.throw (Plain.preord O) _
  | [n] => Plain.construct O T sim (fun _ _ => GrowL.topPres.op _) fun _ _ => Plain.top fun E => pres_op O (T E) _
  | n :: m :: ns => Pres.bind (Plain.preord O) (Plain.construct O T sim (fun _ _ => GrowL.topPres.op _) fun _ _ => Plain.top fun E => pres_op O (T E) _)
      fun id s => Plain.inModuleAt sim (Plain.nameScopeCtor (m :: ns) _)

theorem Plain.inCtx (x : Ctx) (m : M LW α) : Pres (Plain c R) (localMach.inCtx x m) := fun s =>
  ⟨rfl, fun _ => simAll sim (O.refl s.loc) ⟨rfl, rfl, rfl, rfl, rfl⟩ ⟨rfl, rfl, rfl, rfl, rfl⟩⟩

/-- Direct programs preserve what the frame operations preserve. -/
theorem Plain.run (p : Prog) (hp : p.direct c) : Pres (Plain c R) (p.run localMach) := by
  have P := Plain.preord (c := c) O
  induction p with
  | ret v => exact Pres.pure P v
  | raise e => exact Pres.throw P e
  | bind p k ihp ihk => exact Pres.bind P (ihp hp.1) fun v => ihk v (hp.2 v)
  | tryCatch p h ihp ihh => exact Pres.tryCatch P (ihp hp.1) fun e => ihh e (hp.2 e)
  | op o => exact Plain.top fun E => pres_op O (T E) o
  | withHook h p ih => exact Pres.bind P (Plain.read O T fun _ => ReadOnly.pure _) fun _ => Plain.inHook _ (ih hp)
  | newModule args ctor ih =>
    exact Pres.bind P (Plain.construct O T sim (fun i v => grow_run _) fun i v => ih i v (hp i v)) fun _ => Pres.pure P _
  | callMethod self method args body ih => exact Plain.wrapMethod O T sim hp.1 (fun v => grow_run _) fun v => ih v (hp.2 v)
  | nameScope name p ih =>
    refine Pres.bind P (Plain.read O T fun _ => ReadOnly.pure _) fun _ => ?_
    split
    · exact Pres.throw P _
    · exact Pres.bind P (Plain.nameScopeCtor O T sim _) fun id s => Plain.inModuleAt sim (ih hp _)
  | initT rng p ih =>
    show Pres _ (initM localMach rng (p.run localMach))
    unfold initM
    split
    · exact Pres.throw P _
    · refine Pres.bind P (Plain.inCtx O T sim _ _) fun q => ?_
      split
      · exact Pres.throw P _
      · exact Pres.pure P _
  | applyT a b rng p ih =>
    show Pres _ (applyM localMach a b rng (p.run localMach))
    unfold applyM
    split
    · exact Pres.throw P _
    · refine Pres.bind P (Plain.inCtx O T sim _ _) fun q => ?_
      split
      · exact Pres.throw P _
      · exact Pres.pure P _
  | _ => cases hp

end

/-! ### Keys are never repeated -/

/-- The keys handed out meanwhile are fresh. -/
def Fresh (s s' : Loc) : Prop := ∃ ks, s'.log = s.log ++ ks ∧
  match s.rng with
  | none => s'.rng = none ∧ ks = []
  | some q => ∃ q', s'.rng = some q' ∧ ∀ used, PRNGSeq.Inv used q → PRNGSeq.Inv (used ++ ks) q'

/-- The same, where the sequence is not known afterwards. -/
def FreshQ (s s' : Loc) : Prop := ∃ ks, s'.log = s.log ++ ks ∧
  match s.rng with
  | none => ks = []
  | some q => ∀ used, PRNGSeq.Inv used q → (used ++ ks).Nodup

theorem Fresh.q {s s' : Loc} (h : Fresh s s') : FreshQ s s' := by
  obtain ⟨ks, h1, h2⟩ := h
  refine ⟨ks, h1, ?_⟩
  cases hr : s.rng with
  | none => rw [hr] at h2; exact h2.2
  | some q =>
    rw [hr] at h2
    obtain ⟨q', _, h3⟩ := h2
    exact fun used hu => (List.nodup_append.1 (h3 used hu).1).1

theorem Fresh.same {s s' : Loc} (h1 : s'.rng = s.rng) (h2 : s'.log = s.log) : Fresh s s' := by
  refine ⟨[], by simp [h2], ?_⟩
  cases hr : s.rng with
  | none => exact ⟨h1.trans hr, rfl⟩
  | some q => exact ⟨q, h1.trans hr, fun used hu => by simpa using hu⟩

theorem Fresh.transQ {a b c : Loc} (h : Fresh a b) (k : FreshQ b c) : FreshQ a c := by
  obtain ⟨ks, h1, h2⟩ := h
  obtain ⟨ls, k1, k2⟩ := k
  refine ⟨ks ++ ls, by rw [k1, h1, List.append_assoc], ?_⟩
  cases hr : a.rng with
  | none =>
    rw [hr] at h2
    rw [h2.1] at k2
    simp [h2.2, k2]
  | some q =>
    rw [hr] at h2
    obtain ⟨q', h3, h4⟩ := h2
    rw [h3] at k2
    intro used hu
    rw [← List.append_assoc]
    exact k2 _ (h4 _ hu)

theorem Fresh.preord : Preord Fresh where
  refl s := .same rfl rfl
  trans := by
    intro a b c h k
    obtain ⟨ks, h1, h2⟩ := h
    obtain ⟨ls, k1, k2⟩ := k
    refine ⟨ks ++ ls, by rw [k1, h1, List.append_assoc], ?_⟩
    cases hr : a.rng with
    | none =>
      rw [hr] at h2
      rw [h2.1] at k2
      exact ⟨k2.1, by simp [h2.2, k2.2]⟩
    | some q =>
      rw [hr] at h2
      obtain ⟨q', h3, h4⟩ := h2
      rw [h3] at k2
      obtain ⟨q'', k3, k4⟩ := k2
      refine ⟨q'', k3, fun used hu => ?_⟩
      rw [← List.append_assoc]
      exact k4 _ (h4 _ hu)

theorem Fresh.tol (E : Env) : Tol E Fresh where
  draw s q h := by
    have hn := fun used hu => PRNGSeq.Inv.next (used := used) (s := q) hu
    unfold drawKey
    rcases hq : q.next with ⟨_ | k, q'⟩
    · rw [hq] at hn
      refine ⟨[], by simp, ?_⟩
      rw [h]
      exact ⟨q', rfl, hn⟩
    · rw [hq] at hn
      refine ⟨[k], rfl, ?_⟩
      rw [h]
      exact ⟨q', rfl, hn⟩
  take s q n h := by
    refine ⟨(q.take n).1, rfl, ?_⟩
    rw [h]
    exact ⟨_, rfl, fun used hu => hu.take n⟩
  reserve s q n h := by
    refine ⟨[], by simp, ?_⟩
    rw [h]
    exact ⟨_, rfl, fun used hu => by simpa using hu.reserve n⟩
  full s q h := by
    refine ⟨[], by simp, ?_⟩
    rw [h]
    exact ⟨_, rfl, fun used hu => by simpa using hu.reserveUpToFull⟩
  pbundle _ s b := .same rfl rfl
  pnew _ s b n a _ _ := .same rfl rfl
  pread s b n a _ := .same rfl rfl
  sbundle s b := .same rfl rfl
  snew s b n a h _ := .same rfl rfl
  sread s b n p h := .same rfl rfl
  sset s b n v _ := .same rfl rfl
  alloc s := .same rfl rfl
  heapSubs s m f := .same rfl rfl
  scope s own sc rest caller nm sc' _ _ := .same rfl rfl
  named s m n := .same rfl rfl
  lift hf s n p := .same rfl rfl

theorem Fresh.sim {s s' : Loc} (sc sc' : List Scope) (h h' : List ModObj) (k : Fresh s s') :
    Fresh { s with scopes := sc, heap := h } { s' with scopes := sc', heap := h' } := k

/-- Direct programs and programs that draw nothing in `try`, conditions of while loops that draw nothing, no `with_rng`, no `eval_shape`, named calls off, or on (`c`). -/
def Allow.keys (c : Bool) : Allow :=
  ⟨fun p => p.direct c ∨ ∀ s, (p.run localMach s).2.loc.log = s.loc.log ∧ (p.run localMach s).2.loc.rng = s.loc.rng,
    fun p => ∀ s, (p.run localMach s).2.loc.log = s.loc.log ∧ (p.run localMach s).2.loc.rng = s.loc.rng, False, False, fun b => b = c⟩

theorem Fresh.stable (c : Bool) : Stable (Allow.keys c) (fun s s' => s'.log = s.log ∧ s'.rng = s.rng) (fun _ => Fresh) (fun _ => FreshQ) where
  preord _ := Fresh.preord
  sub h := h.q
  trans h k := h.transQ k
  tol E := Fresh.tol E
  sim _ _ _ _ h := h
  simQ _ _ _ _ h := h
  abort h := h
  newParams _ _ h _ := h
  caught p h := ⟨grow_run p, fun s hw => by
    have : Fresh s.loc (p.run localMach s).2.loc := h.elim (fun h => (Plain.run Fresh.preord (fun E => Fresh.tol E) Fresh.sim p h s).2 hw.2)
      fun h => .same (h s).2 (h s).1
    rcases hm : p.run localMach s with ⟨e | v, s1⟩ <;> rw [hm] at this <;> exact this⟩
  cond p h s := h s
  whileEnd _ hc _ _ _ _ h := by
    obtain ⟨ks, h1, h2⟩ := h
    dsimp only at h1 h2
    rw [hc.1] at h1
    exact ⟨ks, h1, h2⟩
  whileQ hc _ h := by
    obtain ⟨ks, h1, h2⟩ := h
    dsimp only at h1 h2
    rw [hc.1] at h1
    exact ⟨ks, h1, h2⟩
  inRng h := h.elim
  inRngQ h := h.elim
  discard h := h.elim

/-! ### Without an RNG -/

/-- Without rng there is none afterwards and no key was handed out. -/
def NoKey (s s' : Loc) : Prop := s.rng = none → s'.rng = none ∧ s'.log = s.log

theorem NoKey.preord : Preord NoKey where
  refl s h := ⟨h, rfl⟩
  trans h k e := ⟨(k (h e).1).1, (k (h e).1).2.trans (h e).2⟩

theorem NoKey.tol (E : Env) : Tol E NoKey where
  draw s q h := fun e => by rw [h] at e; cases e
  take s q n h := fun e => by rw [h] at e; cases e
  reserve s q n h := fun e => by rw [h] at e; cases e
  full s q h := fun e => by rw [h] at e; cases e
  pbundle _ s b := fun e => ⟨e, rfl⟩
  pnew _ s b n a _ _ := fun e => ⟨e, rfl⟩
  pread s b n a _ := fun e => ⟨e, rfl⟩
  sbundle s b := fun e => ⟨e, rfl⟩
  snew s b n a h _ := fun e => ⟨e, rfl⟩
  sread s b n p h := fun e => ⟨e, rfl⟩
  sset s b n v _ := fun e => ⟨e, rfl⟩
  alloc s := fun e => ⟨e, rfl⟩
  heapSubs s m f := fun e => ⟨e, rfl⟩
  scope s own sc rest caller nm sc' _ _ := fun e => ⟨e, rfl⟩
  named s m n := fun e => ⟨e, rfl⟩
  lift hf s n p := fun e => ⟨e, rfl⟩

/-- Everything but `with_rng`. -/
def Allow.noKeys : Allow :=
  ⟨fun p => Trk (fun _ => True) (fun _ => NoKey) (fun _ => NoKey) (p.run localMach), fun _ => True, False, True, fun _ => True⟩

theorem NoKey.stable : Stable Allow.noKeys (fun _ _ => True) (fun _ => NoKey) (fun _ => NoKey) where
  preord _ := NoKey.preord
  sub h := h
  trans h k := NoKey.preord.trans h k
  tol E := NoKey.tol E
  sim _ _ _ _ h := h
  simQ _ _ _ _ h := h
  abort h := fun e => ⟨e, (h e).2⟩
  newParams _ _ h _ := h
  caught p h := h
  cond p h s := trivial
  whileEnd _ _ _ _ _ h1 h2 := fun e => ⟨(h2 e).1, (h2 e).2.trans (h1 e).2⟩
  whileQ _ h1 h2 := fun e => ⟨(h1 e).1, (h2 e).2.trans (h1 e).2⟩
  inRng h := h.elim
  inRngQ h := h.elim
  discard _ := fun h e => ⟨e, (h e).2⟩

end Verif
