import Verif.Lemmas.Top
import Verif.Lemmas.History
import Verif.Props.State
import Verif.Lemmas.PRNG

/-!
# The init run simulates the apply run

If a computation returns during init, then the same computation on frozen parameters that contain at least the parameters it ends with, and on
state that has the entries it creates from the start, returns the same.
-/

set_option linter.unusedVariables false

namespace Verif
open Names Frame LW

variable {α β : Type}

theorem bind_ok {σ : Type} {m : M σ α} {f : α → M σ β} {s s' : σ} {b : β} (h : (m >>- f) s = (.ok b, s')) :
    ∃ a s1, m s = (.ok a, s1) ∧ f a s1 = (.ok b, s') := by
  unfold M.bind at h
  rcases hm : m s with ⟨e | a, s1⟩ <;> rw [hm] at h
  · cases h
  · exact ⟨a, s1, rfl, h⟩

theorem bind_of {σ : Type} {m : M σ α} {f : α → M σ β} {s s1 : σ} {a : α} (h : m s = (.ok a, s1)) : (m >>- f) s = f a s1 := by
  unfold M.bind
  rw [h]

theorem liftExcept_ok {x : Except Exc α} {l l' : Loc} {r : α} (h : Frame.liftExcept x l = (.ok r, l')) : x = .ok r ∧ l' = l :=
  ⟨(Prod.mk.inj h).1, (Prod.mk.inj h).2.symm⟩

theorem top_run {f : FOp α} {t : LW} {r : Except Exc α} {l : Loc} (h : f t.env t.loc = (r, l)) : localMach.top f t = (r, ⟨t.env, l⟩) := by
  rw [top_eq, h]

/-- Everything in the parameters and initial states of `s` is in `PF` and `SF`. -/
structure Below (PF : PDict) (SD : PDict) (s : LW) : Prop where
  params : Map.le (lookup2 s.loc.params) (lookup2 PF)
  state : ∀ b n p, lookup2 s.loc.state b n = some p → lookup2 SD b n = some p.initial

/-- The same modules and names, in the same order. -/
def SameKeys {γ δ : Type} (d : Dict Str (Dict Str γ)) (d' : Dict Str (Dict Str δ)) : Prop :=
  d.keys = d'.keys ∧ ∀ b, (d.get? b).map Dict.keys = (d'.get? b).map Dict.keys

theorem SameKeys.setDefault {γ δ : Type} {d : Dict Str (Dict Str γ)} {d' : Dict Str (Dict Str δ)} (h : SameKeys d d') {b n : Str} {v : γ}
    (hl : lookup2 d b n = some v) : d.setDefault b [] = d := by
  unfold lookup2 at hl
  cases hd : d.get? b with
  | none => rw [hd] at hl; cases hl
  | some i => exact Dict.setDefault_of_some hd

theorem SameKeys.store2 {γ δ : Type} {d : Dict Str (Dict Str γ)} {d' : Dict Str (Dict Str δ)} (h : SameKeys d d') {b n : Str} {v : γ}
    (hl : lookup2 d b n = some v) (x : γ) : SameKeys (Frame.store2 d b n x) d' := by
  unfold lookup2 at hl
  cases hd : d.get? b with
  | none => rw [hd] at hl; cases hl
  | some i =>
    rw [hd] at hl
    have hi : (i.set n x).keys = i.keys := by
      rw [Dict.keys_set, if_pos]
      rw [Dict.mem_keys_iff, show i.get? n = some v from hl]
      rfl
    unfold Frame.store2
    rw [hd]
    refine ⟨?_, fun b' => ?_⟩
    · rw [Dict.keys_set, if_pos]
      · exact h.1
      · rw [Dict.mem_keys_iff, hd]
        rfl
    · rw [Dict.get?_set, ← h.2 b']
      by_cases hb : b = b'
      · subst hb
        rw [if_pos rfl, hd]
        exact congrArg some hi
      · rw [if_neg hb]

theorem SameKeys.ext {γ : Type} {d d' : Dict Str (Dict Str γ)} (h : SameKeys d d') (hw : WF2 d) (hl : ∀ b n, lookup2 d b n = lookup2 d' b n) : d = d' := by
  refine Dict.ext_of_keys h.1 hw.1 fun b => ?_
  have hk := h.2 b
  have hl := hl b
  unfold lookup2 at hl
  cases hd : d.get? b with
  | none => cases hd' : d'.get? b with
    | none => rfl
    | some i => rw [hd, hd'] at hk; cases hk
  | some i => cases hd' : d'.get? b with
    | none => rw [hd, hd'] at hk; cases hk
    | some i' =>
      rw [hd, hd'] at hk hl
      exact congrArg some (Dict.ext_of_keys (Option.some.inj hk) (hw.2 b i hd) hl)

theorem SameKeys.mapVals {γ δ : Type} (d : Dict Str (Dict Str γ)) (f : Str → Str → γ → δ) : SameKeys (d.mapVals fun b i => i.mapVals fun n v => f b n v) d := by
  refine ⟨Dict.keys_mapVals _ _, fun b => ?_⟩
  rw [Dict.get?_mapVals]
  cases d.get? b with
  | none => rfl
  | some i => exact congrArg some (Dict.keys_mapVals _ _)

/-- Two values of the same structure. -/
def Like (v w : Val) : Prop := w.sameStruct v = true

/-- A getter that treats values of the same shape and dtype alike. -/
def CalmG (g : Getter) : Prop := ∀ ctx a b, arrSig b = arrSig a →
  match g ctx a, g ctx b with
  | .done r, .done r' => arrSig r' = arrSig r
  | .raise _, _ => True
  | .next x p, .next x' p' => arrSig x' = arrSig x ∧ ∀ r r', arrSig r' = arrSig r → arrSig (p' r') = arrSig (p r)
  | _, _ => False

/-- An interceptor that treats arguments of the same structure alike. -/
def CalmI (i : Interceptor) : Prop := ∀ self method a b, Like a b →
  match i self method a, i self method b with
  | .done v, .done w => Like v w
  | .raise _, _ => True
  | .next x p, .next y q => Like x y ∧ ∀ v w, Like v w → Like (p v) (q w)
  | .orig x p, .orig y q => Like x y ∧ ∀ v w, Like v w → Like (p v) (q w)
  | _, _ => False

/-- A creator, or a getter or interceptor that only looks at structure. -/
def CalmHook : HookPush → Prop
  | .creator .. => True
  | .getter g _ _ => CalmG g
  | .interceptor i => CalmI i

/-- The active getters and interceptors only look at structure. -/
structure Calm (h : Hooks) : Prop where
  params : ∀ g ∈ h.paramGetters, CalmG g
  state : ∀ g ∈ h.stateGetters, CalmG g
  calls : ∀ i ∈ h.interceptors, CalmI i

theorem Calm.push {h : Hooks} (hc : Calm h) {k : HookPush} (hk : CalmHook k) : Calm (World.pushHook h k) := by
  cases k with
  | creator => exact ⟨hc.params, hc.state, hc.calls⟩
  | getter g p s =>
    refine ⟨fun x hx => ?_, fun x hx => ?_, hc.calls⟩
    · cases p
      · exact hc.params x hx
      · rcases List.mem_append.1 (show x ∈ h.paramGetters ++ [g] from hx) with hx | hx
        · exact hc.params x hx
        · rw [List.mem_singleton.1 hx]; exact hk
    · cases s
      · exact hc.state x hx
      · rcases List.mem_append.1 (show x ∈ h.stateGetters ++ [g] from hx) with hx | hx
        · exact hc.state x hx
        · rw [List.mem_singleton.1 hx]; exact hk
  | interceptor i =>
    refine ⟨hc.params, hc.state, fun x hx => ?_⟩
    rcases List.mem_append.1 (show x ∈ h.interceptors ++ [i] from hx) with hx | hx
    · exact hc.calls x hx
    · rw [List.mem_singleton.1 hx]; exact hk

theorem reserveUpToFull_idem (q : PRNGSeq) : q.reserveUpToFull.reserveUpToFull = q.reserveUpToFull := by
  have : q.reserveUpToFull.subkeys.length = defaultReserve := by
    unfold PRNGSeq.reserveUpToFull
    dsimp only
    split
    · next h => rw [PRNGSeq.length_reserve]; omega
    · next h => rw [List.length_take]; omega
  rw [PRNGSeq.reserveUpToFull, this, Int.sub_self, if_neg (by decide), ← this, List.take_length]

/-- The rng sequence is as before, or (if `c`) filled up to a full block. -/
def RngKept (c : Bool) (t t' : LW) : Prop := t'.loc.rng = t.loc.rng ∨ (c = true ∧ t'.loc.rng = t.loc.rng.map PRNGSeq.reserveUpToFull)

theorem RngKept.trans {c : Bool} {t t1 t2 : LW} (h : RngKept c t t1) (k : RngKept c t1 t2) : RngKept c t t2 := by
  rcases h with h | ⟨hc, h⟩
  · rcases k with k | ⟨kc, k⟩
    · exact .inl (k.trans h)
    · exact .inr ⟨kc, by rw [k, h]⟩
  · rcases k with k | ⟨kc, k⟩
    · exact .inr ⟨hc, k.trans h⟩
    · refine .inr ⟨hc, ?_⟩
      rw [k, h, Option.map_map]
      cases t.loc.rng with
      | none => rfl
      | some q => exact congrArg some (reserveUpToFull_idem q)

/-- The states of the init run and of the apply run. -/
structure Pair (c : Bool) (PF : PDict) (SD : PDict) (s t : LW) : Prop where
  init : s.env.frozen = false
  env : t.env = { s.env with frozen := true }
  calm : c = true → Calm s.env.hooks
  params : t.loc.params = PF
  state : ∀ b n, lookup2 t.loc.state b n = (lookup2 s.loc.state b n).or ((lookup2 SD b n).map fun v => ⟨v, v⟩)
  keys : SameKeys t.loc.state SD
  heap : t.loc.heap = s.loc.heap
  scopes : t.loc.scopes = s.loc.scopes

theorem Pair.drop {c : Bool} {PF SD : PDict} {s t : LW} (h : Pair c PF SD s t) : Pair false PF SD s t :=
  ⟨h.init, h.env, fun h => (nomatch h), h.params, h.state, h.keys, h.heap, h.scopes⟩

theorem RngKept.same {t t' : LW} (h : RngKept false t t') : t'.loc.rng = t.loc.rng := by
  rcases h with h | ⟨h, _⟩
  · exact h
  · cases h

/-- Simulated computations; `c` tells that stateful branches and loops may be inside, which fill up the rng sequence and require that hooks
only look at structure. -/
structure Sim (c : Bool) (m : M LW α) : Prop where
  trk : Trk (fun _ => True) (fun _ => Hist) (fun _ => Hist) m
  sim : ∀ {PF : PDict} {SD : PDict} {s t : LW} {v : α} {s' : LW}, Pair c PF SD s t → s.loc.WF → t.loc.WF → m s = (.ok v, s') → Below PF SD s' →
    ∃ t', m t = (.ok v, t') ∧ Pair c PF SD s' t' ∧ RngKept c t t'

theorem Hist.initial {s s' : Loc} (h : Hist s s') {b n : Str} {p : StatePair} (hp : lookup2 s.state b n = some p) :
    ∃ c, lookup2 s'.state b n = some ⟨p.initial, c⟩ := by
  obtain ⟨l, h1, h2, h3, h4, h5⟩ := h
  rw [h5, Props.State.playS_writes h3, hp]
  obtain ⟨i, c⟩ := p
  cases Props.State.writes l b n with
  | nil => exact ⟨c, rfl⟩
  | cons v vs => exact ⟨_, rfl⟩

theorem Below.anti {PF : PDict} {SD : PDict} {s s' : LW} (h : Hist s.loc s'.loc) (hb : Below PF SD s') : Below PF SD s := by
  refine ⟨fun b n v k => hb.params _ _ _ (h.params _ _ _ k), fun b n p k => ?_⟩
  obtain ⟨c, k'⟩ := h.initial k
  exact hb.state _ _ ⟨p.initial, c⟩ k'

namespace Sim

variable {c : Bool}

theorem hist {m : M LW α} (h : Sim c m) {s s' : LW} {v : Except Exc α} (hw : s.loc.WF) (hm : m s = (v, s')) : Hist s.loc s'.loc := by
  have := h.trk.2 s ⟨hw, trivial⟩
  rw [hm] at this
  cases v <;> exact this

theorem wf {m : M LW α} (h : Sim c m) {s s' : LW} {v : Except Exc α} (hw : s.loc.WF) (hm : m s = (v, s')) : s'.loc.WF := by
  have := (h.trk.1 s).2.wf hw
  rw [hm] at this
  exact this

abbrev S := Hist.stable

theorem pure (a : α) : Sim c (M.pure a : M LW α) := ⟨S.pure a, by
  intro PF SD s t v s' hp _ _ h _
  cases h
  exact ⟨t, rfl, hp, .inl rfl⟩⟩

theorem throw (e : Exc) : Sim c (M.throw e : M LW α) := ⟨S.throw e, by
  intro PF SD s t v s' hp _ _ h _
  cases h⟩

theorem bind {m : M LW α} {f : α → M LW β} (hm : Sim c m) (hf : ∀ a, Sim c (f a)) : Sim c (m >>- f) := ⟨S.bind hm.trk fun a => (hf a).trk, by
  intro PF SD s t v s' hp hs ht h hb
  obtain ⟨a, s1, h1, h2⟩ := bind_ok h
  have hs1 := hm.wf hs h1
  obtain ⟨t1, k1, hp1, hr1⟩ := hm.sim hp hs ht h1 (hb.anti ((hf a).hist hs1 h2))
  obtain ⟨t2, k2, hp2, hr2⟩ := (hf a).sim hp1 hs1 (hm.wf ht k1) h2 hb
  exact ⟨t2, by rw [bind_of k1, k2], hp2, hr1.trans hr2⟩⟩

theorem ite {p : Prop} [Decidable p] {m n : M LW α} (hm : Sim c m) (hn : Sim c n) : Sim c (if p then m else n) := by
  split
  · exact hm
  · exact hn

/-- Operations that only look at module objects, name scopes, the module stack and hooks. -/
def HS (f : FOp α) : Prop := ∀ (E : Env) heap scopes, ∃ r h sc, ∀ fr p st q lg tr,
  f { E with frozen := fr } ⟨p, st, q, scopes, heap, lg, tr⟩ = (r, ⟨p, st, q, sc, h, lg, tr⟩)

theorem HS.pure (g : Env → α) (hg : ∀ E fr, g { E with frozen := fr } = g E) : HS (fun E => (M.pure (g E) : M Loc α)) := fun E heap scopes =>
  ⟨.ok (g E), heap, scopes, fun fr p st q lg tr => by
    unfold M.pure
    dsimp only
    rw [hg]⟩

theorem HS.throw (e : Exc) : HS (fun _ => (M.throw e : M Loc α)) := fun E heap scopes => ⟨.error e, heap, scopes, fun fr p st q lg tr => rfl⟩

theorem HS.bind {f : FOp α} {g : α → FOp β} (hf : HS f) (hg : ∀ a, HS (g a)) : HS (fun E => f E >>- fun a => g a E) := by
  intro E heap scopes
  obtain ⟨r, h, sc, e1⟩ := hf E heap scopes
  cases r with
  | error e =>
    refine ⟨.error e, h, sc, fun fr p st q lg tr => ?_⟩
    show M.bind _ _ _ = _
    rw [M.bind, e1]
  | ok a =>
    obtain ⟨r', h', sc', k1⟩ := hg a E h sc
    refine ⟨r', h', sc', fun fr p st q lg tr => ?_⟩
    show M.bind _ _ _ = _
    rw [M.bind, e1]
    exact k1 fr p st q lg tr

theorem HS.getModuleName (m : ModId) : HS (fun _ => Frame.getModuleName m) := fun E heap scopes => ⟨.ok (heap[m]?.bind ModObj.name), heap, scopes, fun fr p st q lg tr => rfl⟩

theorem HS.alloc : HS (fun _ => allocModule) := fun E heap scopes => ⟨.ok heap.length, heap ++ [⟨none, none⟩], scopes, fun fr p st q lg tr => rfl⟩

theorem HS.checkCtor (m : ModId) : HS (fun _ => Frame.checkCtor m) :=
  HS.bind (f := fun _ => Frame.getModuleName m) (g := fun nm _ => match nm with
    | some _ => M.pure ()
    | none => M.throw .superNeverCalled) (HS.getModuleName m) fun nm => by
      cases nm with
      | none => exact HS.throw _
      | some n => exact HS.pure (fun _ => ()) fun _ _ => rfl

theorem HS.notifyLoop (self : ModId) (n : Str) : ∀ ms : List (ModId × Str), HS (fun _ => Frame.notifyLoop self n ms) := by
  intro ms
  induction ms with
  | nil => exact HS.pure (fun _ => ()) fun _ _ => rfl
  | cons p ms ih =>
    obtain ⟨m, me⟩ := p
    unfold Frame.notifyLoop
    by_cases h : m = self
    · simp only [if_pos h]
      exact ih
    · simp only [if_neg h]
      intro E heap scopes
      rcases ho : heap[m]? with _ | ⟨nm, _ | subs⟩
      · exact ⟨.error .noSubmodules, heap, scopes, fun fr p st q lg tr => by dsimp only; rw [ho]⟩
      · exact ⟨.error .noSubmodules, heap, scopes, fun fr p st q lg tr => by dsimp only; rw [ho]⟩
      · obtain ⟨r, h', sc, e1⟩ := ih E (heap.modify m fun o => { o with subs := some (n :: subs) }) scopes
        exact ⟨r, h', sc, fun fr p st q lg tr => by dsimp only; rw [ho]; exact e1 fr p st q lg tr⟩

theorem HS.notify (self : ModId) (nm : Option Str) : HS (Frame.notify self nm) := by
  refine HS.bind (f := fun _ => match nm with
    | some n => M.pure (some n)
    | none => Frame.getModuleName self) (g := fun nm E => match nm with
    | some n => Frame.notifyLoop self n E.modules
    | none => M.pure ()) ?_ fun nm => ?_
  · cases nm with
    | none => exact HS.getModuleName self
    | some n => exact HS.pure (fun _ => some n) fun _ _ => rfl
  · cases nm with
    | none => exact HS.pure (fun _ => ()) fun _ _ => rfl
    | some n => exact fun E => HS.notifyLoop self n E.modules E

theorem HS.moduleName {l l' : Loc} (h : l'.heap = l.heap) (m : ModId) : moduleName m l' = moduleName m l := by
  unfold Frame.moduleName
  rw [h]

theorem HS.callerOf : HS callerOf := fun E heap scopes =>
  ⟨(Frame.callerOf E ⟨[], [], none, scopes, heap, [], []⟩).1, heap, scopes, fun fr p st q lg tr => by
    unfold Frame.callerOf
    dsimp only
    split <;> rfl⟩

theorem HS.superInit (self : ModId) (name : Option Str) (cls : Str) : HS (Frame.superInit self name cls) := by
  unfold Frame.superInit
  dsimp only
  by_cases hv : validIdentifier (name.getD (camelToSnake cls)) = true
  · simp only [if_pos hv]
    refine HS.bind (f := fun _ => M.modify _) ?_ fun _ => HS.bind HS.callerOf fun caller => ?_
    · exact fun E heap scopes => ⟨.ok (), heap.modify self fun o => { o with subs := some [] }, scopes, fun fr p st q lg tr => rfl⟩
    · intro E heap scopes
      dsimp only
      rcases scopes with _ | ⟨own, _ | ⟨sc, rest⟩⟩
      · exact ⟨.error .indexError, heap, _, fun fr p st q lg tr => rfl⟩
      · exact ⟨.error .indexError, heap, _, fun fr p st q lg tr => rfl⟩
      · dsimp only
        rcases hq : request caller sc (name.getD (camelToSnake cls)) with ⟨e | q, sc'⟩
        · exact ⟨.error e, heap, _, fun fr p st q lg tr => rfl⟩
        · exact ⟨.ok (), _, _, fun fr p st q lg tr => rfl⟩
  · simp only [if_neg hv]
    exact HS.throw _

theorem ofHS {f : FOp α} (ht : Trk (fun _ => True) (fun _ => Hist) (fun _ => Hist) (localMach.top f)) (h : HS f) : Sim c (localMach.top f) := ⟨ht, by
  intro PF SD s t v s' hp hs htw hm hb
  obtain ⟨r, h', sc, e1⟩ := h s.env s.loc.heap s.loc.scopes
  obtain ⟨sE, sp, sst, sq, ssc, sh, slg, str⟩ := s
  obtain ⟨tE, tp, tst, tq, tsc, th, tlg, ttr⟩ := t
  obtain ⟨h1, h2, h8, h3, h4, h7, h5, h6⟩ := hp
  dsimp only at h1 h2 h3 h4 h5 h6 h7 h8 e1
  subst h2 h3 h5 h6
  have es := e1 sE.frozen sp sst sq slg str
  have et := e1 true tp tst tq tlg ttr
  rw [top_eq] at hm ⊢
  rw [et]
  rw [es] at hm
  cases hm
  exact ⟨_, rfl, ⟨h1, rfl, h8, rfl, h4, h7, rfl, rfl⟩, .inl rfl⟩⟩

theorem bundle_eq {PF : PDict} {SD : PDict} {s t : LW} (hp : Pair c PF SD s t) {b : Str} (h : bundleName s.env s.loc = (.ok b, s.loc)) :
    bundleName t.env t.loc = (.ok b, t.loc) := by
  unfold bundleName at h ⊢
  rw [hp.env]
  have : currentModule { s.env with frozen := true } = currentModule s.env := rfl
  rw [this]
  cases hc : currentModule s.env with
  | none => rw [hc] at h; cases h; rfl
  | some m =>
    rw [hc] at h
    dsimp only at h ⊢
    rw [HS.moduleName hp.heap]
    rw [(Prod.mk.inj h).1]

theorem bundle_ro (E : Env) (l : Loc) : bundleName E l = ((bundleName E l).1, l) := by
  unfold bundleName
  split <;> rfl

/-- `get_parameter` returning during init. -/
theorem getParameter_ok {name : Str} {shape : List Nat} {dtype : DType} {init : Option Initializer} {E : Env} {l l' : Loc} {r : Arr} (hE : E.frozen = false)
    (h : getParameter name shape dtype init E l = (.ok r, l')) : ∃ b a i, init = some i ∧ bundleName E l = (.ok b, l) ∧ lookup2 l'.params b name = some a ∧
      runGetters ⟨fqName b name, currentModule E, some dtype, some shape⟩ E.hooks.paramGetters a = .ok r ∧ r.shape = shape ∧
      l'.state = l.state ∧ l'.heap = l.heap ∧ l'.scopes = l.scopes := by
  unfold getParameter at h
  cases init with
  | none => cases h
  | some i =>
    dsimp only at h
    obtain ⟨b, l0, h1, h⟩ := bind_ok h
    rw [bundle_ro] at h1
    obtain ⟨h0, h1⟩ := Prod.mk.inj h1
    subst h1
    obtain ⟨sg, l1, h1, h⟩ := bind_ok h
    cases h1
    rw [if_neg (by rw [hE]; simp)] at h
    obtain ⟨_, l2, h1, h⟩ := bind_ok h
    rw [if_neg (by rw [hE]; simp)] at h1
    cases h1
    obtain ⟨a, l3, h1, h⟩ := bind_ok h
    obtain ⟨g, l4, h2, hz⟩ := bind_ok h
    clear h
    obtain ⟨hg, rfl⟩ := liftExcept_ok h2
    split at hz
    · rename_i hsh
      cases hz
      refine ⟨b, a, i, rfl, by rw [bundle_ro, h0], ?_⟩
      refine and_left_comm.1 ⟨hg, ?_⟩
      refine and_left_comm.1 ⟨hsh, ?_⟩
      cases hl : lookup2 l.params b name with
      | some x =>
        rw [hl] at h1
        dsimp only [M.bind, record, M.modify, M.pure] at h1
        cases h1
        exact ⟨by dsimp only; rw [lookup2_setDefault]; exact hl, rfl, rfl, rfl⟩
      | none =>
        rw [hl] at h1
        dsimp only at h1
        rw [if_neg (by rw [hE]; simp)] at h1
        obtain ⟨x, l5, h3, h1⟩ := bind_ok h1
        have hk := keep_noRng_runCreators ⟨fqName b name, currentModule E, some dtype, some shape⟩ E.hooks.paramCreators shape dtype i
          { l with params := l.params.setDefault b [] }
        rw [h3] at hk
        simp only [Keep, Loc.noRng, Prod.mk.injEq] at hk
        dsimp only [M.bind, record, M.modify, M.pure] at h1
        cases h1
        refine ⟨?_, hk.2.1, hk.2.2.2.1, hk.2.2.1⟩
        dsimp only
        rw [lookup2_store2, if_pos ⟨rfl, rfl⟩]
    · cases hz

theorem getParameter_frozen {name : Str} {shape : List Nat} {dtype : DType} {i : Initializer} {E : Env} {l : Loc} {b : Str} {a r : Arr} (hE : E.frozen = true)
    (hb : bundleName E l = (.ok b, l)) (hl : lookup2 l.params b name = some a)
    (hg : runGetters ⟨fqName b name, currentModule E, some dtype, some shape⟩ E.hooks.paramGetters a = .ok r) (hr : r.shape = shape) :
    getParameter name shape dtype (some i) E l = (.ok r, { l with trace := l.trace ++ [.paramRead b name a] }) := by
  unfold getParameter
  dsimp only
  rw [bind_of hb]
  rw [bind_of (show M.get l = (.ok l, l) from rfl)]
  have hh : l.params.has b = true := by
    unfold lookup2 at hl
    rw [Dict.has_iff, Dict.mem_keys_iff]
    cases hd : l.params.get? b with
    | none => rw [hd] at hl; cases hl
    | some d => rfl
  rw [if_neg (by rw [hh]; simp), if_pos hE, bind_of (show (M.pure () : M Loc Unit) l = (.ok (), l) from rfl), hl]
  dsimp only
  rw [bind_of (show (record (Event.paramRead b name a) >>- fun _ => M.pure a) l = (.ok a, { l with trace := l.trace ++ [.paramRead b name a] }) from rfl)]
  rw [bind_of (show Frame.liftExcept _ _ = (.ok r, _) from by unfold Frame.liftExcept; rw [hg])]
  rw [if_pos hr]
  rfl

theorem getParam (name : Str) (shape : List Nat) (dtype : DType) (init : Option Initializer) : Sim c (localMach.top (Op.getParam name shape dtype init).run) :=
  ⟨S.op _, by
  intro PF SD s t v s' hp hs ht hm hb
  rw [top_eq] at hm
  obtain ⟨hm1, hm2⟩ := Prod.mk.inj hm
  rcases hrun : (Op.getParam name shape dtype init).run s.env s.loc with ⟨x, l'⟩
  rw [hrun] at hm1 hm2
  dsimp only at hm1 hm2
  subst hm1
  obtain ⟨r, l1, h1, h2⟩ := bind_ok hrun
  cases h2
  obtain ⟨b, a, i, rfl, k1, k2, k3, k4, k5, k6, k7⟩ := getParameter_ok hp.init h1
  subst hm2
  have hf := getParameter_frozen (i := i) (E := t.env) (l := t.loc) (dtype := dtype) (by rw [hp.env]) (bundle_eq hp k1)
    (by rw [hp.params]; exact hb.params _ _ _ k2) (by rw [hp.env]; exact k3) k4
  refine ⟨_, by rw [top_eq]; show ((getParameter name shape dtype (some i) t.env >>- fun a => M.pure (Val.arr a)) t.loc |>.1, _) = _; rw [bind_of hf]; rfl, ?_⟩
  rw [show (Op.getParam name shape dtype (some i)).run t.env t.loc = (getParameter name shape dtype (some i) t.env >>- fun a => M.pure (Val.arr a)) t.loc from rfl,
    bind_of hf]
  exact ⟨⟨hp.init, hp.env, hp.calm, hp.params, fun b' n' => by rw [k5]; exact hp.state b' n', hp.keys, by rw [k6]; exact hp.heap, by rw [k7]; exact hp.scopes⟩, .inl rfl⟩⟩

/-- `get_state` returning. -/
theorem getState_ok {name : Str} {shape : Option (List Nat)} {dtype : Option DType} {init : Option Initializer} {E : Env} {l l' : Loc} {r : Arr}
    (h : Frame.getState name shape dtype init E l = (.ok r, l')) : ∃ b p, bundleName E l = (.ok b, l) ∧ lookup2 l'.state b name = some p ∧
      runGetters ⟨fqName b name, currentModule E, dtype, shape⟩ E.hooks.stateGetters p.current = .ok r ∧
      (lookup2 l.state b name = some p ∨ (lookup2 l.state b name = none ∧ p.initial = p.current)) ∧
      (∀ b' n', ¬ (b' = b ∧ n' = name) → lookup2 l'.state b' n' = lookup2 l.state b' n') ∧
      l'.params = l.params ∧ l'.heap = l.heap ∧ l'.scopes = l.scopes := by
  unfold Frame.getState at h
  obtain ⟨b, l0, h1, h⟩ := bind_ok h
  rw [bundle_ro] at h1
  obtain ⟨h0, h1⟩ := Prod.mk.inj h1
  subst h1
  obtain ⟨_, l1, h1, h⟩ := bind_ok h
  cases h1
  obtain ⟨sg, l1, h1, h⟩ := bind_ok h
  cases h1
  obtain ⟨a, l3, h1, h⟩ := bind_ok h
  obtain ⟨hg, rfl⟩ := liftExcept_ok h
  dsimp only at h1
  rw [lookup2_setDefault] at h1
  cases hl : lookup2 l.state b name with
  | some p =>
    rw [hl] at h1
    dsimp only [M.bind, record, M.modify, M.pure] at h1
    cases h1
    refine ⟨b, p, by rw [bundle_ro, h0], ?_, hg, .inl hl, fun b' n' _ => ?_, rfl, rfl, rfl⟩
    · dsimp only; rw [lookup2_setDefault]; exact hl
    · dsimp only; rw [lookup2_setDefault]
  | none =>
    rw [hl] at h1
    dsimp only at h1
    cases init with
    | none => cases h1
    | some i =>
      cases shape with
      | none => cases h1
      | some sh =>
        cases dtype with
        | none => cases h1
        | some dt =>
          dsimp only at h1
          obtain ⟨x, l5, h3, h1⟩ := bind_ok h1
          have hk := keep_noRng_runCreators ⟨fqName b name, currentModule E, some dt, some sh⟩ E.hooks.stateCreators sh dt i
            { l with state := l.state.setDefault b [] }
          rw [h3] at hk
          simp only [Keep, Loc.noRng, Prod.mk.injEq] at hk
          dsimp only [M.bind, record, M.modify, M.pure] at h1
          cases h1
          refine ⟨b, ⟨a, a⟩, by rw [bundle_ro, h0], ?_, hg, .inr ⟨hl, rfl⟩, fun b' n' hne => ?_, hk.1, hk.2.2.2.1, hk.2.2.1⟩
          · dsimp only
            rw [lookup2_store2, if_pos ⟨rfl, rfl⟩]
          · dsimp only
            rw [lookup2_store2, if_neg (fun k => hne ⟨k.1.symm, k.2.symm⟩), hk.2.1, lookup2_setDefault]

theorem getState_there {name : Str} {shape : Option (List Nat)} {dtype : Option DType} {init : Option Initializer} {E : Env} {l : Loc} {b : Str} {p : StatePair} {r : Arr}
    (hb : bundleName E l = (.ok b, l)) (hl : lookup2 l.state b name = some p)
    (hg : runGetters ⟨fqName b name, currentModule E, dtype, shape⟩ E.hooks.stateGetters p.current = .ok r) :
    Frame.getState name shape dtype init E l = (.ok r, { l with state := l.state.setDefault b [], trace := l.trace ++ [.stateRead b name p.current] }) := by
  unfold Frame.getState
  rw [bind_of hb]
  dsimp only [M.bind, M.modify, M.get]
  rw [lookup2_setDefault, hl]
  dsimp only [M.bind, record, M.modify, M.pure, Frame.liftExcept]
  rw [hg]

theorem getState (name : Str) (shape : Option (List Nat)) (dtype : Option DType) (init : Option Initializer) :
    Sim c (localMach.top (Op.getState name shape dtype init).run) :=
  ⟨S.op _, by
  intro PF SD s t v s' hp hs ht hm hb
  rw [top_eq] at hm
  obtain ⟨hm1, hm2⟩ := Prod.mk.inj hm
  rcases hrun : (Op.getState name shape dtype init).run s.env s.loc with ⟨x, l'⟩
  rw [hrun] at hm1 hm2
  dsimp only at hm1 hm2
  subst hm1
  obtain ⟨r, l1, h1, h2⟩ := bind_ok hrun
  cases h2
  obtain ⟨b, p, k1, k2, k3, k4, k5, k6, k7, k8⟩ := getState_ok h1
  subst hm2
  have hl : lookup2 t.loc.state b name = some p := by
    rw [hp.state]
    rcases k4 with k4 | ⟨k4, k9⟩
    · rw [k4]; rfl
    · rw [k4, hb.state _ _ _ k2, k9]
      obtain ⟨i, c⟩ := p
      dsimp only at k9
      subst k9
      rfl
  have hf := getState_there (init := init) (E := t.env) (l := t.loc) (dtype := dtype) (shape := shape) (bundle_eq hp k1) hl (by rw [hp.env]; exact k3)
  have hrun' : (Op.getState name shape dtype init).run t.env t.loc = (.ok (.arr r), _) := bind_of hf
  refine ⟨_, top_run hrun', ⟨hp.init, hp.env, hp.calm, hp.params, fun b' n' => ?_,
    by dsimp only; rw [hp.keys.setDefault hl]; exact hp.keys, by rw [k7]; exact hp.heap, by rw [k8]; exact hp.scopes⟩, .inl rfl⟩
  dsimp only
  rw [lookup2_setDefault]
  by_cases hbn : b' = b ∧ n' = name
  · obtain ⟨rfl, rfl⟩ := hbn
    rw [hl, k2]
    rfl
  · rw [k5 _ _ hbn]
    exact hp.state b' n'⟩

theorem setState_run {name : Str} {v : Arr} {E : Env} {l : Loc} {b : Str} (hb : bundleName E l = (.ok b, l)) :
    Frame.setState name v E l = (.ok (), { l with
      state := store2 (l.state.setDefault b []) b name ⟨((lookup2 l.state b name).map StatePair.initial).getD v, v⟩
      trace := l.trace ++ [.stateSet b name v] }) := by
  unfold Frame.setState
  rw [M.bind, hb]
  dsimp only [M.bind, M.modify, M.get, record]
  rw [lookup2_setDefault]
  cases lookup2 l.state b name <;> rfl

theorem setState (name : Str) (x : Arr) : Sim c (localMach.top (Op.setState name x).run) :=
  ⟨S.op _, by
  intro PF SD s t v s' hp hs ht hm hb
  rw [top_eq] at hm
  obtain ⟨hm1, hm2⟩ := Prod.mk.inj hm
  rcases hrun : (Op.setState name x).run s.env s.loc with ⟨y, l'⟩
  rw [hrun] at hm1 hm2
  dsimp only at hm1 hm2
  subst hm1
  obtain ⟨r, l1, h1, h2⟩ := bind_ok hrun
  cases h2
  obtain ⟨b, k1⟩ : ∃ b, bundleName s.env s.loc = (.ok b, s.loc) := by
    unfold Frame.setState at h1
    obtain ⟨b, l0, h1, h⟩ := bind_ok h1
    rw [bundle_ro] at h1
    obtain ⟨h0, h1⟩ := Prod.mk.inj h1
    exact ⟨b, by rw [bundle_ro, h0]⟩
  rw [setState_run k1] at h1
  cases h1
  subst hm2
  have hrun' : (Op.setState name x).run t.env t.loc = (.ok .unit, _) := bind_of (setState_run (bundle_eq hp k1))
  refine ⟨_, top_run hrun', ⟨hp.init, hp.env, hp.calm, hp.params, fun b' n' => ?_, ?_, hp.heap, hp.scopes⟩, .inl rfl⟩
  rotate_left
  · have h3 := hb.state b name ⟨((lookup2 s.loc.state b name).map StatePair.initial).getD x, x⟩ (by
      dsimp only
      rw [lookup2_store2, if_pos ⟨rfl, rfl⟩])
    have h4 : ∃ p, lookup2 t.loc.state b name = some p := by
      rw [hp.state, h3]
      cases lookup2 s.loc.state b name <;> exact ⟨_, rfl⟩
    obtain ⟨p, h4⟩ := h4
    dsimp only
    rw [hp.keys.setDefault h4]
    exact hp.keys.store2 h4 _
  dsimp only
  rw [lookup2_store2, lookup2_store2]
  by_cases hbn : b = b' ∧ name = n'
  · rw [if_pos hbn, if_pos hbn]
    obtain ⟨rfl, rfl⟩ := hbn
    rw [hp.state]
    have h3 := hb.state b name ⟨((lookup2 s.loc.state b name).map StatePair.initial).getD x, x⟩ (by
      dsimp only
      rw [lookup2_store2, if_pos ⟨rfl, rfl⟩])
    cases hl : lookup2 s.loc.state b name with
    | some p => rfl
    | none =>
      rw [hl] at h3
      dsimp only [Option.map_none, Option.getD_none] at h3
      rw [h3]
      rfl
  · rw [if_neg hbn, if_neg hbn, lookup2_setDefault, lookup2_setDefault]
    exact hp.state b' n'⟩

theorem inModule (ms : ModId × Str) {m : M LW α} (hm : Sim c m) : Sim c (localMach.inModule ms m) := ⟨S.inModule ms hm.trk, by
  intro PF SD s t v s' hp hs ht h hb
  have key : ∀ s, localMach.inModule ms m s = LW.inModule ms m s := fun _ => rfl
  rw [key] at h ⊢
  unfold LW.inModule at h ⊢
  rcases hrun : m ⟨{ s.env with modules := ms :: s.env.modules }, { s.loc with scopes := Scope.empty :: s.loc.scopes }⟩ with ⟨x, s1⟩
  rw [hrun] at h
  cases h
  have hp' : Pair c PF SD ⟨{ s.env with modules := ms :: s.env.modules }, { s.loc with scopes := Scope.empty :: s.loc.scopes }⟩
      ⟨{ t.env with modules := ms :: t.env.modules }, { t.loc with scopes := Scope.empty :: t.loc.scopes }⟩ :=
    ⟨hp.init, by dsimp only; rw [hp.env], hp.calm, hp.params, hp.state, hp.keys, hp.heap, by dsimp only; rw [hp.scopes]⟩
  obtain ⟨t1, k1, k2, kr⟩ := hm.sim hp' hs ht hrun ⟨hb.params, hb.state⟩
  rw [k1]
  exact ⟨_, rfl, ⟨hp.init, hp.env, hp.calm, k2.params, k2.state, k2.keys, k2.heap, by dsimp only; rw [k2.scopes]⟩, kr⟩⟩

theorem inHook (hk : HookPush) (hc : c = true → CalmHook hk) {m : M LW α} (hm : Sim c m) : Sim c (localMach.inHook hk m) := ⟨S.inHook hk hm.trk, by
  intro PF SD s t v s' hp hs ht h hb
  have key : ∀ s, localMach.inHook hk m s = LW.inHook hk m s := fun _ => rfl
  rw [key] at h ⊢
  unfold LW.inHook at h ⊢
  rcases hrun : m { s with env := { s.env with hooks := World.pushHook s.env.hooks hk } } with ⟨x, s1⟩
  rw [hrun] at h
  cases h
  have hp' : Pair c PF SD { s with env := { s.env with hooks := World.pushHook s.env.hooks hk } } { t with env := { t.env with hooks := World.pushHook t.env.hooks hk } } :=
    ⟨hp.init, by dsimp only; rw [hp.env], fun h => (hp.calm h).push (hc h), hp.params, hp.state, hp.keys, hp.heap, hp.scopes⟩
  obtain ⟨t1, k1, k2, kr⟩ := hm.sim hp' hs ht hrun ⟨hb.params, hb.state⟩
  rw [k1]
  exact ⟨_, rfl, ⟨hp.init, hp.env, hp.calm, k2.params, k2.state, k2.keys, k2.heap, k2.scopes⟩, kr⟩⟩

theorem inRng (q : PRNGSeq) {m : M LW α} (hm : Sim c m) : Sim c (localMach.inRng q m) := ⟨S.inRngM trivial q hm.trk, by
  intro PF SD s t v s' hp hs ht h hb
  have key : ∀ s, localMach.inRng q m s = LW.inRng q m s := fun _ => rfl
  rw [key] at h ⊢
  unfold LW.inRng at h ⊢
  rcases hrun : m { s with loc := { s.loc with rng := some q } } with ⟨x, s1⟩
  rw [hrun] at h
  cases h
  have hp' : Pair c PF SD { s with loc := { s.loc with rng := some q } } { t with loc := { t.loc with rng := some q } } :=
    ⟨hp.init, hp.env, hp.calm, hp.params, hp.state, hp.keys, hp.heap, hp.scopes⟩
  obtain ⟨t1, k1, k2, kr⟩ := hm.sim hp' hs ht hrun ⟨hb.params, hb.state⟩
  rw [k1]
  exact ⟨_, rfl, ⟨k2.init, k2.env, k2.calm, k2.params, k2.state, k2.keys, k2.heap, k2.scopes⟩, .inl rfl⟩⟩

theorem inCtx (x : Ctx) (m : M LW α) : Sim c (localMach.inCtx x m) := ⟨S.inCtx x m, by
  intro PF SD s t v s' hp hs ht h hb
  have key : ∀ s, localMach.inCtx x m s = LW.inCtx x m s := fun _ => rfl
  rw [key] at h ⊢
  unfold LW.inCtx at h ⊢
  have he : ctxEnv x t.env = ctxEnv x s.env := by rw [hp.env]; rfl
  rw [he, hp.heap]
  rcases hrun : m ⟨ctxEnv x s.env, ctxLoc x s.loc.heap⟩ with ⟨y, s1⟩
  rw [hrun] at h
  cases h
  exact ⟨_, rfl, ⟨hp.init, hp.env, hp.calm, hp.params, hp.state, hp.keys, rfl, hp.scopes⟩, .inl rfl⟩⟩

theorem jitM {m : M LW Val} (hm : Sim c m) : Sim c (jitM localMach m) := ⟨S.jitM hm.trk, by
  intro PF SD s t v s' hp hs ht h hb
  rw [jitM_eq hm.trk.1 hs] at h
  rw [jitM_eq hm.trk.1 ht]
  unfold Verif.atomic Verif.rescoped at h ⊢
  rcases hrun : m s with ⟨e | x, s1⟩
  · rw [hrun] at h
    cases h
  · rw [hrun] at h
    cases h
    obtain ⟨t1, k1, k2, kr⟩ := hm.sim hp hs ht hrun ⟨hb.params, hb.state⟩
    rw [k1]
    exact ⟨_, rfl, ⟨k2.init, k2.env, k2.calm, k2.params, k2.state, k2.keys, k2.heap, hp.scopes⟩, kr⟩⟩

theorem nothing : Sim c (localMach.top fun _ => (M.pure () : M Loc Unit)) := ofHS (S.read fun _ => ReadOnly.pure _) (HS.pure (fun _ => ()) fun _ _ => rfl)

theorem runInterceptors {self : ModId} {method : Str} {body : Val → M LW Val} (hb : ∀ v, Sim c (body v)) :
    ∀ (is : List Interceptor) (args : Val), Sim c (runInterceptors self method body is args) := by
  intro is
  induction is with
  | nil => exact hb
  | cons i is ih =>
    intro args
    unfold Verif.runInterceptors
    cases i self method args with
    | done v => exact pure v
    | raise e => exact throw e
    | next a post => exact bind (ih a) fun v => pure _
    | orig a post => exact bind (hb a) fun v => pure _

theorem wrapMethod {self : ModId} {method : Str} {args : Val} {body : Val → M LW Val} (hb : ∀ v, Sim c (body v)) :
    Sim c (wrapMethod localMach self method args body) :=
  inModule _ (bind (ofHS (S.read fun E => ReadOnly.bind (readOnly_getModuleName self) fun _ => ReadOnly.pure _)
      (HS.bind (HS.getModuleName self) fun nm => HS.pure (fun E => (nm, E.hooks.interceptors, E.namedCall)) fun _ _ => rfl)) fun r =>
    have hi := runInterceptors (self := self) (method := method) hb r.2.1 args
    bind (ite (jitM hi) hi) fun v => bind (ofHS (S.notify _ _) (HS.notify _ _)) fun _ => pure _)

theorem construct {args : Val} {ctor : ModId → Val → M LW Val} (hc : ∀ i v, Sim c (ctor i v)) : Sim c (construct localMach args ctor) :=
  bind (ofHS S.alloc HS.alloc) fun id => bind (wrapMethod (hc id)) fun _ =>
    bind (ofHS (S.read fun _ => readOnly_checkCtor id) (HS.checkCtor id)) fun _ => pure _

theorem superInit (self : ModId) (name : Option Str) (cls : Str) : Sim c (localMach.top (Op.superInit self name cls).run) :=
  ofHS (S.op _) (HS.bind (HS.superInit self name cls) fun _ => HS.pure (fun _ => Val.unit) fun _ _ => rfl)

theorem nameScopeCtor : ∀ parts : List Str, Sim c (nameScopeCtor localMach parts)
  | [] => throw _
  | [n] => construct fun _ _ => superInit _ _ _
  | n :: m :: ns => bind (construct fun _ _ => superInit _ _ _) fun id => inModule _ (nameScopeCtor (m :: ns))

theorem nameScopeM {name : Str} {m : M LW Val} (hm : Sim c m) : Sim c (nameScopeM localMach name m) :=
  bind nothing fun _ => ite (throw _) (bind (nameScopeCtor _) fun id => inModule _ hm)

theorem initM (rng : RngArg) (m : M LW Val) : Sim c (initM localMach rng m) := by
  unfold Verif.initM
  cases rng.toSeq with
  | error e => exact throw e
  | ok r =>
    refine bind (inCtx _ _) fun q => ?_
    cases q.1 with
    | error e => exact throw e
    | ok v => exact pure _

theorem applyM (params state : Option PDict) (rng : RngArg) (m : M LW Val) : Sim c (applyM localMach params state rng m) := by
  unfold Verif.applyM
  cases rng.toSeq with
  | error e => exact throw e
  | ok r =>
    refine bind (inCtx _ _) fun q => ?_
    cases q.1 with
    | error e => exact throw e
    | ok v => exact pure _

theorem ist_eq {PF SD : PDict} {s1 s2 t1 t2 : LW} (h1 : Pair c PF SD s1 t1) (h2 : Pair c PF SD s2 t2) (hw : t2.loc.WF) (hs : s2.ist.noTrace = s1.ist.noTrace)
    (hr : t2.loc.rng = t1.loc.rng) : t2.ist.noTrace = t1.ist.noTrace := by
  have hst : s2.loc.state = s1.loc.state := congrArg IState.state hs
  have hk : SameKeys t2.loc.state t1.loc.state := ⟨h2.keys.1.trans h1.keys.1.symm, fun b => (h2.keys.2 b).trans (h1.keys.2 b).symm⟩
  have := hk.ext hw.2 fun b n => by rw [h1.state, h2.state, hst]
  unfold LW.ist IState.noTrace
  rw [this, h1.params, h2.params, hr]

theorem collect {f : Val → M LW Val} (hf : ∀ v, Sim false (f v)) {PF SD : PDict} {s t s1 t1 : LW} (hp : Pair false PF SD s t) (hs : s.loc.WF) (ht : t.loc.WF)
    (hp1 : Pair false PF SD s1 t1) (hr : t1.loc.rng = t.loc.rng) (hb : Below PF SD s1) : ∀ {xs vs}, collect s1.ist s f xs = .ok vs → collect t1.ist t f xs = .ok vs := by
  intro xs
  induction xs with
  | nil => intro vs h; exact h
  | cons x xs ih =>
    intro vs h
    unfold Verif.collect at h ⊢
    rcases hm : f x s with ⟨e | v, s2⟩ <;> rw [hm] at h
    · cases h
    · dsimp only at h
      split at h
      · next he =>
        have hst : s2.loc.state = s1.loc.state := congrArg IState.state he
        have hpp : s2.loc.params = s1.loc.params := Option.some.inj (congrArg IState.params he)
        obtain ⟨t2, k1, k2, k3⟩ := (hf x).sim hp hs ht hm ⟨by rw [hpp]; exact hb.params, by rw [hst]; exact hb.state⟩
        rw [k1]
        dsimp only
        rw [if_pos (ist_eq hp1 k2 ((hf x).wf ht k1) he (k3.same.trans hr.symm))]
        rcases hc : Verif.collect s1.ist s f xs with e | ws <;> rw [hc] at h
        · cases h
        · rw [ih hc]
          exact h
      · cases h

theorem vmapM {f : Val → M LW Val} (hf : ∀ v, Sim false (f v)) (x : Val) (xs : List Val) : Sim c (vmapM localMach f x xs) := ⟨S.vmapM (fun v => (hf v).trk) x xs, by
  intro PF SD s t v s' hp hs ht h hb
  rw [vmapM_eq (fun v => (hf v).trk.1) x xs hs] at h
  rw [vmapM_eq (fun v => (hf v).trk.1) x xs ht]
  rcases hrun : f x s with ⟨e | y, s1⟩ <;> rw [hrun] at h
  · cases h
  · dsimp only at h
    rcases hc : Verif.collect s1.ist s f xs with ⟨e, s2⟩ | vs <;> rw [hc] at h
    · cases h
    · cases h
      obtain ⟨t1, k1, k2, kr⟩ := (hf x).sim hp.drop hs ht hrun ⟨hb.params, hb.state⟩
      rw [k1]
      dsimp only
      rw [collect hf hp.drop hs ht k2 kr.same ⟨hb.params, hb.state⟩ hc]
      exact ⟨_, rfl, ⟨k2.init, k2.env, by show c = true → Calm s1.env.hooks; rw [(by have := ((hf x).trk.1 s).1; rw [hrun] at this; exact this : s1.env = s.env)]; exact hp.calm, k2.params, k2.state, k2.keys, k2.heap, hp.scopes⟩, .inl kr.same⟩⟩

end Sim

end Verif
