import Verif.Lemmas.History
import Verif.Props.Control

/-!
# Parameters (C02, C03)
-/

set_option linter.unusedVariables false

namespace Verif.Props.Params
open Verif Names Frame
open Verif.Props.Context Verif.Props.Control

/-! ### Specification vocabulary -/

/-- The accesses to parameters and state made so far in the current frame. -/
def accesses (w : World) : List Event := (w.frames.head?.map FrameS.trace).getD []

/-- The parameter `name` of module `m` of the current frame. -/
def param (w : World) (m name : Str) : Option Arr := lookup2 (topParams w) m name

/-- The access is to the parameter `name` of module `m`. -/
def About (m name : Str) : Event → Prop
  | .paramNew b n _ => b = m ∧ n = name
  | .paramRead b n _ => b = m ∧ n = name
  | _ => False

/-- The module whose parameters are asked for: "~" outside any module, none when the current module has no name yet. -/
def moduleNow (w : World) : Option Str :=
  match w.frames with
  | F :: _ => match F.moduleStack with
    | [] => some "~".toList
    | (m, _) :: _ => w.heap[m]?.bind ModObj.name
  | [] => none

/-- `w` with one more access recorded. -/
def accessed (e : Event) (w : World) : World := onTop (fun F => { F with trace := F.trace ++ [e] }) w

/-- What the getters active in `w` make of a stored value. -/
def viaGetters (w : World) (m name : Str) (shape : List Nat) (dtype : DType) (a : Arr) : Except Exc Arr :=
  runGetters ⟨m ++ '/' :: name, w.frames.head?.bind fun F => F.moduleStack.head?.map Prod.fst, some dtype, some shape⟩ w.hooks.paramGetters a

/-- The answer to `get_parameter` given the value out of the getters. -/
def answer (shape : List Nat) : Except Exc Arr → Except Exc Val
  | .error e => .error e
  | .ok r => if r.shape = shape then .ok (.arr r) else .error .shapeMismatch

/-! ### C02 -/

/-- C02 whatever a program does in apply, and however it ends: the parameters are the ones passed in, no parameter is created, and every
parameter read is one that was passed in, with its value. -/
theorem apply_only_reads {w : World} (hw : InTransform w) (ht : Tidy w) (ha : InApply w) (p : Prog) :
    topParams (p.run stackMach w).2 = topParams w ∧
    ∃ l, accesses (p.run stackMach w).2 = accesses w ++ l ∧
      (∀ m name v, Event.paramNew m name v ∉ l) ∧ ∀ m name v, Event.paramRead m name v ∈ l → param w m name = some v := by
  obtain ⟨F, rest, r, tl, hF, hr⟩ := hw
  have hc := toWorld_curr hF hr
  generalize curr F r w = s at hc
  subst hc
  rw [tidy_toWorld] at ht
  have hf : s.env.frozen = true := by obtain ⟨G, hG, h⟩ := ha; cases hG; exact h
  rw [(ref_run _).1]
  have h := (FrozenHist.stable.all p).2 s ⟨ht, trivial⟩
  have h' : FrozenHist s.env.frozen s.loc (p.run localMach s).2.loc := by
    rcases hm : p.run localMach s with ⟨e | v, s1⟩ <;> rw [hm] at h <;> exact h
  obtain ⟨h1, l, h2, h3⟩ := h' hf
  exact ⟨h1, l, h2, fun m n v hv => h3 _ hv, fun m n v hv => h3 _ hv⟩

theorem getParam_eq (name : Str) (shape : List Nat) (dtype : DType) (i : Initializer) (s : LW) :
    (Prog.op (.getParam name shape dtype (some i))).run localMach s =
      localMach.top (fun E => getParameter name shape dtype (some i) E >>- fun a => M.pure (.arr a)) s := rfl

theorem bundle_toWorld {s : LW} {tl rest} {m : Str} (h : moduleNow (toWorld s tl rest) = some m) : bundleName s.env s.loc = (.ok m, s.loc) := by
  unfold bundleName currentModule
  unfold moduleNow toWorld at h
  dsimp only at h
  cases hm : s.env.modules with
  | nil => rw [hm] at h; cases h; rfl
  | cons p ms =>
    obtain ⟨id, meth⟩ := p
    rw [hm] at h
    dsimp only at h
    simp only [List.head?_cons, Option.map_some]
    unfold moduleName
    cases ho : s.loc.heap[id]? with
    | none => rw [ho] at h; cases h
    | some o =>
      rw [ho] at h
      obtain ⟨nm, subs⟩ := o
      simp only [Option.bind_some] at h
      subst h
      rfl

/-- C02 in apply, asking for a parameter that was not passed in raises and changes nothing; in particular no initializer runs. -/
theorem apply_missing_raises {w : World} (hw : InTransform w) (ha : InApply w) (m name : Str) (shape : List Nat) (dtype : DType)
    (i : Initializer) (hm : moduleNow w = some m) (hp : param w m name = none) :
    (Prog.op (.getParam name shape dtype (some i))).run stackMach w = (.error .paramMissing, w) := by
  obtain ⟨F, rest, r, tl, hF, hr⟩ := hw
  have hc := toWorld_curr hF hr
  generalize curr F r w = s at hc
  subst hc
  have hf : s.env.frozen = true := by obtain ⟨G, hG, h⟩ := ha; cases hG; exact h
  have hp : lookup2 s.loc.params m name = none := hp
  have key : getParameter name shape dtype (some i) s.env s.loc = (.error .paramMissing, s.loc) := by
    unfold getParameter
    dsimp only
    rw [M.bind, bundle_toWorld hm]
    dsimp only
    rw [M.bind]
    dsimp only [M.get]
    rw [hf]
    by_cases hb : Dict.has s.loc.params m = true
    · rw [if_neg (by simp [hb])]
      simp only [if_true, hp]
      rfl
    · rw [if_pos (by simpa using hb)]
      rfl
  rw [(ref_run _).1, getParam_eq, top_eq, M.bind, key]

/-- C02, C03 asking for a parameter that exists gives its value through the getters active at that moment. Nothing changes but the
record of accesses: no initializer and no creator runs, no key is drawn. -/
theorem existing_returned {w : World} (hw : InTransform w) (m name : Str) (shape : List Nat) (dtype : DType)
    (i : Initializer) (a : Arr) (hm : moduleNow w = some m) (hp : param w m name = some a) :
    (Prog.op (.getParam name shape dtype (some i))).run stackMach w =
      (answer shape (viaGetters w m name shape dtype a), accessed (.paramRead m name a) w) := by
  obtain ⟨F, rest, r, tl, hF, hr⟩ := hw
  have hc := toWorld_curr hF hr
  generalize curr F r w = s at hc
  subst hc
  have hp : lookup2 s.loc.params m name = some a := hp
  have hb : ∃ i, s.loc.params.get? m = some i := by
    unfold lookup2 at hp
    cases h : s.loc.params.get? m with
    | none => rw [h] at hp; cases hp
    | some i => exact ⟨i, rfl⟩
  obtain ⟨bi, hb⟩ := hb
  have hh : Dict.has s.loc.params m = true := by rw [Dict.has_iff, Dict.mem_keys_iff, hb]; rfl
  have key : getParameter name shape dtype (some i) s.env s.loc =
      (match runGetters ⟨fqName m name, currentModule s.env, some dtype, some shape⟩ s.env.hooks.paramGetters a with
        | .error e => .error e
        | .ok r => if r.shape = shape then .ok r else .error .shapeMismatch,
       { s.loc with trace := s.loc.trace ++ [.paramRead m name a] }) := by
    unfold getParameter
    dsimp only
    rw [M.bind, bundle_toWorld hm]
    dsimp only
    rw [M.bind]
    dsimp only [M.get]
    rw [if_neg (by simp [hh])]
    have hset : ((if s.env.frozen = true then M.pure () else M.modify fun s => { s with params := s.params.setDefault m [] }) : M Loc Unit) s.loc =
        (.ok (), s.loc) := by
      cases s.env.frozen with
      | true => rfl
      | false =>
        show (Except.ok (), { s.loc with params := s.loc.params.setDefault m [] }) = _
        rw [Dict.setDefault_of_some hb]
    rw [M.bind, hset]
    dsimp only
    rw [hp]
    dsimp only
    unfold record Frame.liftExcept M.modify M.bind M.pure
    dsimp only
    rcases runGetters ⟨fqName m name, currentModule s.env, some dtype, some shape⟩ s.env.hooks.paramGetters a with e | r
    · rfl
    · dsimp only
      split <;> rfl
  rw [(ref_run _).1, getParam_eq, top_eq, M.bind, key]
  have e1 : viaGetters (toWorld s tl rest) m name shape dtype a =
    runGetters ⟨fqName m name, currentModule s.env, some dtype, some shape⟩ s.env.hooks.paramGetters a := rfl
  rw [e1]
  rcases runGetters ⟨fqName m name, currentModule s.env, some dtype, some shape⟩ s.env.hooks.paramGetters a with e | r
  · rfl
  · dsimp only [answer]
    by_cases hs : r.shape = shape
    · rw [if_pos hs, if_pos hs]; rfl
    · rw [if_neg hs, if_neg hs]; rfl

/-! ### C03 -/

theorem hist_run (p : Prog) (s : LW) (hw : s.loc.WF) : Hist s.loc (p.run localMach s).2.loc := by
  have h := (Hist.stable.all p).2 s ⟨hw, trivial⟩
  rcases hm : p.run localMach s with ⟨e | v, s1⟩ <;> rw [hm] at h <;> exact h

/-- C03 once recorded, a parameter keeps its value whatever the program does and however it ends. -/
theorem param_never_changes {w : World} (hw : InTransform w) (ht : Tidy w) (p : Prog) (m name : Str) (v : Arr) (h : param w m name = some v) :
    param (p.run stackMach w).2 m name = some v := by
  obtain ⟨F, rest, r, tl, hF, hr⟩ := hw
  have hc := toWorld_curr hF hr
  generalize curr F r w = s at hc
  subst hc
  rw [tidy_toWorld] at ht
  rw [(ref_run _).1]
  exact (hist_run p s ht).params _ _ _ h

theorem legalP_after : ∀ {l : List Event} {P : Map Arr} {m name : Str} {v : Arr}, LegalP l P → P m name = some v →
    ∀ e ∈ l, About m name e → e = .paramRead m name v := by
  intro l
  induction l with
  | nil => intro P m name v _ _ e he; cases he
  | cons x l ih =>
    intro P m name v hl hp e he ha
    have same : ∀ {b n : Str} {u : Arr}, (P b n = none ∨ P b n = some u) → (P.put b n u) m name = some v := by
      intro b n u h
      exact Map.le_put h _ _ _ hp
    rcases List.mem_cons.1 he with rfl | hel
    · cases e with
      | paramNew b n u => obtain ⟨rfl, rfl⟩ := ha; have := hl.1; rw [hp] at this; cases this
      | paramRead b n u =>
        obtain ⟨rfl, rfl⟩ := ha
        rcases hl.1 with h | h <;> rw [hp] at h <;> cases h
        rfl
      | _ => cases ha
    · cases x with
      | paramNew b n u => exact ih hl.2 (same (.inl hl.1)) e hel ha
      | paramRead b n u => exact ih hl.2 (same hl.1) e hel ha
      | _ => exact ih hl hp e hel ha

theorem playP_about : ∀ {l : List Event} {P : Map Arr} {m name : Str}, playP l P m name = none → P m name = none ∧ ∀ e ∈ l, ¬ About m name e := by
  intro l
  induction l with
  | nil => intro P m name h; exact ⟨h, by simp⟩
  | cons x l ih =>
    intro P m name h
    have put : ∀ {b n : Str} {u : Arr}, (P.put b n u) m name = none → P m name = none ∧ ¬ (b = m ∧ n = name) := by
      intro b n u h
      unfold Map.put at h
      split at h
      · cases h
      · next hn => exact ⟨h, fun e => hn ⟨e.1.symm, e.2.symm⟩⟩
    cases x with
    | paramNew b n u =>
      obtain ⟨h1, h2⟩ := ih h
      refine ⟨(put h1).1, fun e he => ?_⟩
      rcases List.mem_cons.1 he with rfl | he
      · exact (put h1).2
      · exact h2 e he
    | paramRead b n u =>
      obtain ⟨h1, h2⟩ := ih h
      refine ⟨(put h1).1, fun e he => ?_⟩
      rcases List.mem_cons.1 he with rfl | he
      · exact (put h1).2
      · exact h2 e he
    | _ =>
      obtain ⟨h1, h2⟩ := ih h
      refine ⟨h1, fun e he => ?_⟩
      rcases List.mem_cons.1 he with rfl | he
      · exact id
      · exact h2 e he

/-- C03 in every run, at any point where a parameter is created: it did not exist before the run and was not accessed earlier in the run;
every later access in the run, at any position, reads the value it was created with; and that is its value at the end. -/
theorem created_once {w : World} (hw : InTransform w) (ht : Tidy w) (p : Prog) :
    ∃ l, accesses (p.run stackMach w).2 = accesses w ++ l ∧
      ∀ before after m name v, l = before ++ .paramNew m name v :: after →
        param w m name = none ∧ (∀ e ∈ before, ¬ About m name e) ∧ (∀ e ∈ after, About m name e → e = .paramRead m name v) ∧
        param (p.run stackMach w).2 m name = some v := by
  obtain ⟨F, rest, r, tl, hF, hr⟩ := hw
  have hc := toWorld_curr hF hr
  generalize curr F r w = s at hc
  subst hc
  rw [tidy_toWorld] at ht
  rw [(ref_run _).1]
  obtain ⟨l, h1, h2, h3, h4, h5⟩ := hist_run p s ht
  refine ⟨l, h1, ?_⟩
  rintro before after m name v rfl
  rw [LegalP_append] at h2
  obtain ⟨h6, h7, h8⟩ := h2
  obtain ⟨h9, h10⟩ := playP_about h7
  have hput : (Map.put (playP before (lookup2 s.loc.params)) m name v) m name = some v := by simp [Map.put]
  refine ⟨h9, h10, legalP_after h8 hput, h4 _ _ _ ?_⟩
  rw [playP_append]
  exact playP_le h8 _ _ _ hput

/-- C03 all reads of a parameter in one run give the same value. -/
theorem reads_agree {w : World} (hw : InTransform w) (ht : Tidy w) (p : Prog) :
    ∃ l, accesses (p.run stackMach w).2 = accesses w ++ l ∧
      ∀ m name v, Event.paramRead m name v ∈ l → param (p.run stackMach w).2 m name = some v := by
  obtain ⟨F, rest, r, tl, hF, hr⟩ := hw
  have hc := toWorld_curr hF hr
  generalize curr F r w = s at hc
  subst hc
  rw [tidy_toWorld] at ht
  rw [(ref_run _).1]
  obtain ⟨l, h1, h2, h3, h4, h5⟩ := hist_run p s ht
  refine ⟨l, h1, fun m name v hv => ?_⟩
  obtain ⟨before, after, rfl⟩ := List.append_of_mem hv
  rw [LegalP_append] at h2
  obtain ⟨h6, h7, h8⟩ := h2
  refine h4 _ _ _ ?_
  rw [playP_append]
  exact playP_le h8 _ _ _ (by simp [Map.put])

/-- Running an initializer that is handed `keys` gives `a`. -/
inductive Yields : KeyProg → List Key → Arr → Prop
  | ret (a : Arr) : Yields (.ret a) [] a
  | draw (k : Key → KeyProg) (key : Key) (keys : List Key) (a : Arr) : Yields (k key) keys a → Yields (.draw k) (key :: keys) a

/-- The value made by creators, first registered first, around an initializer that runs at most once and is handed `keys`. -/
inductive Creates (ctx : GetterContext) : List Creator → List Nat → DType → Initializer → List Key → Arr → Prop
  | init (shape : List Nat) (dtype : DType) (i : Initializer) (keys : List Key) (a : Arr) :
      Yields (i shape dtype) keys a → Creates ctx [] shape dtype i keys a
  | done (c : Creator) (cs : List Creator) (shape : List Nat) (dtype : DType) (i : Initializer) (a : Arr) :
      c ctx shape dtype i = .done a → Creates ctx (c :: cs) shape dtype i [] a
  | next (c : Creator) (cs : List Creator) (shape shape' : List Nat) (dtype dtype' : DType) (i i' : Initializer) (post : Arr → Arr)
      (keys : List Key) (a : Arr) : c ctx shape dtype i = .next shape' dtype' i' post → Creates ctx cs shape' dtype' i' keys a →
      Creates ctx (c :: cs) shape dtype i keys (post a)

theorem yields_of_run : ∀ (p : KeyProg) (s s' : Loc) (a : Arr), runInit p s = (.ok a, s') → ∃ keys, Yields p keys a ∧ s'.log = s.log ++ keys := by
  intro p
  induction p with
  | ret b => intro s s' a h; cases h; exact ⟨[], .ret _, by simp⟩
  | raise e => intro s s' a h; cases h
  | draw k ih =>
    intro s s' a h
    unfold runInit nextRngKey at h
    rw [M.bind, rngSeqOrFail_eq] at h
    rcases hr : s.rng with _ | q
    · rw [hr] at h; cases h
    · rw [hr] at h
      dsimp only at h
      unfold drawKey at h
      rcases hq : q.next with ⟨_ | key, q'⟩
      · rw [hq] at h; cases h
      · rw [hq] at h
        dsimp only at h
        obtain ⟨keys, h1, h2⟩ := ih key _ _ _ h
        exact ⟨key :: keys, .draw _ _ _ _ h1, by rw [h2]; simp⟩

theorem creates_of_run (ctx : GetterContext) : ∀ (cs : List Creator) (shape : List Nat) (dtype : DType) (i : Initializer) (s s' : Loc) (a : Arr),
    runCreators ctx cs shape dtype i s = (.ok a, s') → ∃ keys, Creates ctx cs shape dtype i keys a ∧ s'.log = s.log ++ keys := by
  intro cs
  induction cs with
  | nil =>
    intro shape dtype i s s' a h
    obtain ⟨keys, h1, h2⟩ := yields_of_run _ _ _ _ h
    exact ⟨keys, .init _ _ _ _ _ h1, h2⟩
  | cons c cs ih =>
    intro shape dtype i s s' a h
    unfold runCreators at h
    cases hc : c ctx shape dtype i with
    | done b => rw [hc] at h; cases h; exact ⟨[], .done _ _ _ _ _ _ hc, by simp⟩
    | raise e => rw [hc] at h; cases h
    | next shape' dtype' i' post =>
      rw [hc] at h
      dsimp only at h
      unfold M.bind at h
      rcases hm : runCreators ctx cs shape' dtype' i' s with ⟨e | b, s1⟩
      · rw [hm] at h; cases h
      · rw [hm] at h
        cases h
        obtain ⟨keys, h1, h2⟩ := ih _ _ _ _ _ _ hm
        exact ⟨keys, .next _ _ _ _ _ _ _ _ _ _ _ hc h1, h2⟩

/-- C03 the first request for a parameter in init, when it returns: a value was made by the creators around one run of the
initializer, which was handed exactly the keys drawn meanwhile; this value is recorded, and returned through the getters. -/
theorem first_request {w w1 : World} {v : Val} (hw : InTransform w) (ha : InInit w) (m name : Str) (shape : List Nat) (dtype : DType)
    (hm : moduleNow w = some m) (hp : param w m name = none) (i : Initializer)
    (h : (Prog.op (.getParam name shape dtype (some i))).run stackMach w = (.ok v, w1)) :
    ∃ keys a, Creates ⟨m ++ '/' :: name, w.frames.head?.bind fun F => F.moduleStack.head?.map Prod.fst, some dtype, some shape⟩
        w.hooks.paramCreators shape dtype i keys a ∧
      w1.log = w.log ++ keys ∧ param w1 m name = some a ∧ accesses w1 = accesses w ++ [.paramNew m name a] ∧
      answer shape (viaGetters w m name shape dtype a) = .ok v := by
  obtain ⟨F, rest, r, tl, hF, hr⟩ := hw
  have hc := toWorld_curr hF hr
  generalize curr F r w = s at hc
  subst hc
  have hf : s.env.frozen = false := by obtain ⟨G, hG, h⟩ := ha; cases hG; exact h
  have hp : lookup2 s.loc.params m name = none := hp
  rw [(ref_run _).1, getParam_eq, top_eq] at h
  unfold getParameter at h
  dsimp only at h
  rw [M.bind, M.bind, bundle_toWorld hm] at h
  dsimp only at h
  rw [M.bind] at h
  dsimp only [M.get] at h
  rw [hf, hp] at h
  simp only [Bool.false_and, Bool.false_eq_true, if_false] at h
  rw [M.bind] at h
  dsimp only [M.modify] at h
  have hk := keep_noRng_runCreators ⟨fqName m name, currentModule s.env, some dtype, some shape⟩ s.env.hooks.paramCreators shape dtype i
    { s.loc with params := s.loc.params.setDefault m [] }
  rcases hcr : runCreators ⟨fqName m name, currentModule s.env, some dtype, some shape⟩ s.env.hooks.paramCreators shape dtype i
    { s.loc with params := s.loc.params.setDefault m [] } with ⟨e | a, s1⟩
  · rw [M.bind, M.bind, hcr] at h
    cases h
  · obtain ⟨keys, h1, h2⟩ := creates_of_run _ _ _ _ _ _ _ _ hcr
    rw [hcr] at hk
    simp only [Keep, Loc.noRng, Prod.mk.injEq] at hk
    rw [M.bind, M.bind, hcr] at h
    dsimp only [record, M.modify, M.bind, M.pure, Frame.liftExcept] at h
    have e1 : viaGetters (toWorld s tl rest) m name shape dtype a =
      runGetters ⟨fqName m name, currentModule s.env, some dtype, some shape⟩ s.env.hooks.paramGetters a := rfl
    refine ⟨keys, a, h1, ?_⟩
    rw [e1]
    rcases hg : runGetters ⟨fqName m name, currentModule s.env, some dtype, some shape⟩ s.env.hooks.paramGetters a with e | r
    · rw [hg] at h; cases h
    · rw [hg] at h
      dsimp only at h
      unfold answer
      dsimp only
      by_cases hs : r.shape = shape
      · rw [if_pos hs] at h ⊢
        obtain ⟨h3, h4⟩ := Prod.mk.inj h
        cases h3
        subst h4
        refine ⟨h2, ?_, ?_, rfl⟩
        · show lookup2 (store2 s1.params m name a) m name = some a
          rw [lookup2_put]
          simp [Map.put]
        · show s1.trace ++ _ = _
          rw [hk.2.2.2.2]; rfl
      · rw [if_neg hs] at h; cases h

/-! ### Examples -/

/-- A running init without hooks. -/
def starting : World := { World.initial with frames := [World.frameOf (Ctx.new none none (some (.ofSeed 0)))] }

theorem starting_in : InTransform starting := ⟨_, _, _, _, rfl, rfl⟩
theorem starting_tidy : Tidy starting := fun F hF => tidy_start none none (some (.ofSeed 0)) World.initial F hF

/-- Asks for "w" and "b", then for "w" again inside `hk.jit`. -/
def asks : Prog := .bind (getP "w") fun _ => .bind (getP "b") fun _ => .jit (getP "w")

example : InTransform starting ∧ Tidy starting ∧ (asks.run stackMach starting).1 = .ok (.arr ⟨[], .f32, [0]⟩) ∧
    accesses (asks.run stackMach starting).2 = [] ++ .paramNew "~".toList "w".toList ⟨[], .f32, [0]⟩ ::
      [.paramNew "~".toList "b".toList ⟨[], .f32, [0]⟩, .paramRead "~".toList "w".toList ⟨[], .f32, [0]⟩] :=
  ⟨starting_in, starting_tidy, by decide +kernel⟩

/-- A running init with a creator that asks for bfloat16 and doubles them. -/
def creating : World := { starting with
  hooks := { Hooks.none with paramCreators := [fun _ sh _ i => .next sh .bf16 i fun a => { a with data := a.data.map (2 * ·) }] } }

example : InTransform creating ∧ InInit creating ∧ moduleNow creating = some "~".toList ∧ param creating "~".toList "w".toList = none :=
  ⟨⟨_, _, _, _, rfl, rfl⟩, ⟨_, rfl, rfl⟩, rfl, rfl⟩

example : ((Prog.op (.getParam "w".toList [] .f32 (some fun sh d => .draw fun _ => .ret ⟨sh, d, [7]⟩))).run stackMach creating).1 =
    .ok (.arr ⟨[], .bf16, [14]⟩) ∧
    ((Prog.op (.getParam "w".toList [] .f32 (some fun sh d => .draw fun _ => .ret ⟨sh, d, [7]⟩))).run stackMach creating).2.log.length = 1 := by
  decide +kernel

/-- A running apply with a parameter, and a getter that replaces every value by 5. -/
def given : World := { World.initial with
  frames := [World.frameOf (Ctx.new (some [("~".toList, [("w".toList, ⟨[], .f32, [3]⟩)])]) (some []) none)]
  hooks := { Hooks.none with paramGetters := [fun _ a => .next { a with data := [5] } id] } }

example : InTransform given ∧ InApply given ∧ moduleNow given = some "~".toList ∧
    param given "~".toList "w".toList = some ⟨[], .f32, [3]⟩ ∧ param given "~".toList "b".toList = none ∧
    ((getP "w").run stackMach given).1 = .ok (.arr ⟨[], .f32, [5]⟩) ∧ ((getP "b").run stackMach given).1 = .error .paramMissing ∧
    accesses ((getP "w").run stackMach given).2 = [.paramRead "~".toList "w".toList ⟨[], .f32, [3]⟩] :=
  ⟨⟨_, _, _, _, rfl, rfl⟩, ⟨_, rfl, rfl⟩, by decide +kernel⟩

end Verif.Props.Params
