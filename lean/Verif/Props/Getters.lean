import Verif.Lemmas.Getters
import Verif.Props.InitApply

/-!
# Getters change what a read returns, and nothing else (C21)
-/

set_option linter.unusedVariables false

namespace Verif.Props.Getters
open Verif Names Frame
open Verif.Props.Context Verif.Props.Control Verif.Props.Params Verif.Props.State Verif.Props.Transform Verif.Transform

/-! ### Specification vocabulary -/

/-- Two threads that agree in everything except which getters are active. -/
structure SameButGetters (w w' : World) : Prop where
  frames : w'.frames = w.frames
  heap : w'.heap = w.heap
  log : w'.log = w.log
  named : w'.namedCall = w.namedCall
  paramCreators : w'.hooks.paramCreators = w.hooks.paramCreators
  stateCreators : w'.hooks.stateCreators = w.hooks.stateCreators
  interceptors : w'.hooks.interceptors = w.hooks.interceptors

/-- Calls that read an entry of the parameters or of the state. -/
def Reads : Op → Prop
  | .getParam .. => True
  | .getState .. => True
  | _ => False

/-- Two hooks that are the same, where an interceptor must decide independently of the arguments of the intercepted call. -/
def SteadyHook : HookPush → Prop
  | .interceptor i => Steady i
  | _ => True

/-- Whether, and with what exception, the two programs raise does not depend on the getters. -/
def RaiseAlike (p q : Prog) : Prop := ∀ s t, Near s t →
  match p.run localMach s, q.run localMach t with
  | (.ok _, _), (.ok _, _) => True
  | (.error x, s'), (.error y, t') => y = x ∧ t'.loc = s'.loc
  | _, _ => False

/-- Two programs that make the same calls and the same writes: everything that comes from a read may differ, and so may the getters.
The first argument says that the results are certainly equal; a value may steer control flow or be written only if it is equal on both sides. -/
inductive Alike : Bool → Prog → Prog → Prop where
  | ret {e v v'} : (e = true → v' = v) → Alike e (.ret v) (.ret v')
  | raise {e} x : Alike e (.raise x) (.raise x)
  | bind {d e p q k k'} : Alike d p q → (∀ v v', (d = true → v' = v) → Alike e (k v) (k' v')) → Alike e (.bind p k) (.bind q k')
  | tryCatch {e p q h h'} : Alike e p q → RaiseAlike p q → (∀ x, Alike e (h x) (h' x)) → Alike e (.tryCatch p h) (.tryCatch q h')
  | read {o} : Reads o → Alike false (.op o) (.op o)
  | op {e o} : ¬ Reads o → Alike e (.op o) (.op o)
  | withRng {e} r {p q} : Alike e p q → Alike e (.withRng r p) (.withRng r q)
  | withHook {e h p q} : SteadyHook h → Alike e p q → Alike e (.withHook h p) (.withHook h q)
  | getterL {e} g a b {p q} : Alike e p q → Alike e (.withHook (.getter g a b) p) q
  | getterR {e} g a b {p q} : Alike e p q → Alike e p (.withHook (.getter g a b) q)
  | newModule {d e a a' c c'} : (d = true → a' = a) → (∀ i v v', (d = true → v' = v) → Alike d (c i v) (c' i v')) → Alike e (.newModule a c) (.newModule a' c')
  | callMethod {e} self method {a a' b b'} : (e = true → a' = a) → (∀ v v', (e = true → v' = v) → Alike e (b v) (b' v')) →
      Alike e (.callMethod self method a b) (.callMethod self method a' b')
  | nameScope {e} name {p q} : Alike e p q → Alike e (.nameScope name p) (.nameScope name q)
  | jit {e p q} : Alike e p q → Alike e (.jit p) (.jit q)
  | cond {e} c {p q p' q'} : Alike e p q → Alike e p' q' → Alike e (.cond c p p') (.cond c q q')
  | switch {e} i n {b b'} : (∀ j, Alike e (b j) (b' j)) → Alike e (.switch i n b) (.switch i n b')
  | scan {e f f' c c' z z' xs xs'} rev : (∀ c c' x x', (e = true → c' = c) → (e = true → x' = x) → Alike e (f c x) (f' c' x')) →
      (e = true → c' = c) → (e = true → z' = z) → List.Forall₂ (fun x x' => e = true → x' = x) xs xs' → Alike e (.scan f c z xs rev) (.scan f' c' z' xs' rev)
  | fori {e} lo up {b b' v v'} : (∀ i v v', (e = true → v' = v) → Alike e (b i v) (b' i v')) → (e = true → v' = v) → Alike e (.fori lo up b v) (.fori lo up b' v')
  | whileLoop {e} n {c c' b b'} v : (∀ v, Alike true (c v) (c' v)) → (∀ v, Alike true (b v) (b' v)) → Alike e (.whileLoop n c b v) (.whileLoop n c' b' v)
  | vmap {e f f' x x' xs xs'} : (∀ v v', (e = true → v' = v) → Alike e (f v) (f' v')) → (e = true → x' = x) →
      List.Forall₂ (fun x x' => e = true → x' = x) xs xs' → Alike e (.vmap f x xs) (.vmap f' x' xs')
  | evalShape {e p q} : Alike e p q → Alike e (.evalShape p) (.evalShape q)
  | initT {d e} rng {p q} : Alike d p q → Alike e (.initT rng p) (.initT rng q)
  | applyT {e} params state rng {p q} : Alike e p q → Alike e (.applyT params state rng p) (.applyT params state rng q)

/-! ### Proofs -/

theorem tryCatch_obl {e : Bool} {p q : Prog} {h h' : Exc → Prog} (hp : Obl (Tied e) (p.run localMach) (q.run localMach)) (hr : RaiseAlike p q)
    (hh : ∀ x, Obl (Tied e) ((h x).run localMach) ((h' x).run localMach)) :
    Obl (Tied e) ((Prog.tryCatch p h).run localMach) ((Prog.tryCatch q h').run localMach) := by
  intro s t hn v s' v' t' h1 h2
  have key : ∀ (p : Prog) (h : Exc → Prog) s, (Prog.tryCatch p h).run localMach s = M.tryCatch (p.run localMach) (fun e => (h e).run localMach) s := fun _ _ _ => rfl
  rw [key] at h1 h2
  unfold M.tryCatch at h1 h2
  have hra := hr s t hn
  have f1 := frm_run p s
  have f2 := frm_run q t
  have hpo := hp s t hn
  rcases hm : p.run localMach s with ⟨x | x, s1⟩ <;> rcases hm' : q.run localMach t with ⟨y | y, t1⟩ <;> rw [hm] at h1 hra f1 hpo <;> rw [hm'] at h2 hra f2 hpo
  · obtain ⟨rfl, hl⟩ := hra
    have := hh _ s1 t1 (hn.after hl f1.1 f2.1) _ _ _ _ h1 h2
    exact ⟨this.1, this.2.1, this.2.2.1.trans f1.1, this.2.2.2.trans f2.1⟩
  · exact hra.elim
  · exact hra.elim
  · exact hpo _ _ _ _ h1 h2

theorem steady_push {h : HookPush} (hs : SteadyHook h) (E E' : Env) (he : EnvNear E E') :
    EnvNear { E with hooks := World.pushHook E.hooks h } { E' with hooks := World.pushHook E'.hooks h } := by
  cases h with
  | creator c a b =>
    refine ⟨⟨he.frozen, he.modules, he.named, ?_, ?_, he.interceptors⟩, he.steady⟩
    · show (if a then E'.hooks.paramCreators ++ [c] else E'.hooks.paramCreators) = if a then E.hooks.paramCreators ++ [c] else E.hooks.paramCreators
      rw [he.paramCreators]
    · show (if b then E'.hooks.stateCreators ++ [c] else E'.hooks.stateCreators) = if b then E.hooks.stateCreators ++ [c] else E.hooks.stateCreators
      rw [he.stateCreators]
  | getter g a b => exact ⟨⟨he.frozen, he.modules, he.named, he.paramCreators, he.stateCreators, he.interceptors⟩, he.steady⟩
  | interceptor i =>
    refine ⟨⟨he.frozen, he.modules, he.named, he.paramCreators, he.stateCreators, ?_⟩, ?_⟩
    · show E'.hooks.interceptors ++ [i] = E.hooks.interceptors ++ [i]
      rw [he.interceptors]
    · intro j hj
      rcases List.mem_append.mp hj with hj | hj
      · exact he.steady j hj
      · rw [List.mem_singleton.mp hj]; exact hs

theorem Alike.obl {e : Bool} {p q : Prog} (h : Alike e p q) : Obl (Tied e) (p.run localMach) (q.run localMach) := by
  induction h with
  | ret h => exact Obl.pure h
  | raise x => exact Obl.throwL
  | bind _ _ ih1 ih2 => exact Obl.bind ih1 ih2
  | tryCatch _ hr _ ih1 ih2 => exact tryCatch_obl ih1 hr ih2
  | read ho =>
    rename_i o
    cases o with
    | getParam => exact Obl.getParam _ _ _ _
    | getState => exact Obl.getState _ _ _ _
    | _ => exact ho.elim
  | op ho =>
    rename_i o
    exact Obl.eqTied (Obl.top fun E E' he => Obl.op_same he o (by cases o <;> first | trivial | exact ho trivial))
  | withRng r _ ih =>
    refine Obl.bind Obl.nothing fun _ _ _ => ?_
    cases r.seq with
    | error x => exact Obl.throwL
    | ok q => exact Obl.inRng q ih
  | withHook hs _ ih => exact Obl.bind Obl.nothing fun _ _ _ => Obl.inHook (steady_push hs) ih
  | getterL g a b _ ih =>
    intro s t hn v s' v' t' h1 h2
    obtain ⟨_, s1, h1, h3⟩ := bind_ok h1
    have : s1 = s := by rw [top_eq] at h1; cases h1; rfl
    subst this
    exact Obl.getterL ih s1 t hn _ _ _ _ h3 h2
  | getterR g a b _ ih =>
    intro s t hn v s' v' t' h1 h2
    obtain ⟨_, s1, h2, h3⟩ := bind_ok h2
    have : s1 = t := by rw [top_eq] at h2; cases h2; rfl
    subst this
    exact Obl.getterR ih s s1 hn _ _ _ _ h1 h3
  | newModule ha _ ih => exact Obl.bind (Obl.construct ha ih) fun i j hij => Obl.pure fun _ => by rw [hij]
  | callMethod _ _ ha _ ih => exact Obl.wrapMethod ha ih
  | nameScope _ _ ih => exact Obl.nameScopeM ih
  | jit _ ih => exact Obl.jitM ih
  | cond _ _ _ ih1 ih2 => exact Obl.switchM _ (.cons ih1 (.cons ih2 .nil))
  | switch i n _ ih =>
    refine Obl.switchM _ ?_
    generalize List.range n = l
    induction l with
    | nil => exact .nil
    | cons j l ihl => exact .cons (ih j) ihl
  | scan rev _ hc hz hx ih => exact Obl.scanM ih hx hc hz rev
  | fori lo up _ hv ih => exact Obl.foriM ih lo up hv
  | whileLoop n v _ _ ih1 ih2 => exact Obl.eqTied (Obl.whileM n ih1 ih2 v)
  | vmap _ hx hxs ih => exact Obl.vmapM ih hx hxs
  | evalShape _ ih => exact Obl.evalShapeM ih
  | initT rng _ ih => exact Obl.eqTied (Obl.initM rng ih)
  | applyT params state rng _ ih =>
    refine (Obl.applyM params state rng ih).weaken ?_
    rintro a b ⟨v, v', st, rfl, rfl, hv⟩ k
    rw [hv k]

theorem curr_same {w w' : World} (h : SameButGetters w w') {F : FrameS} {r : Option PRNGSeq} : EnvSame (curr F r w).env (curr F r w').env ∧ (curr F r w').loc = (curr F r w).loc := by
  refine ⟨⟨rfl, rfl, h.named, h.paramCreators, h.stateCreators, h.interceptors⟩, ?_⟩
  show (⟨F.params, F.state, r, F.scopeStack, w'.heap, w'.log, F.trace⟩ : Loc) = ⟨F.params, F.state, r, F.scopeStack, w.heap, w.log, F.trace⟩
  rw [h.heap, h.log]

theorem toWorld_same {s t : LW} (hl : t.loc = s.loc) (h : EnvSame s.env t.env) (tl : List (Option PRNGSeq)) (rest : List FrameS) : SameButGetters (toWorld s tl rest) (toWorld t tl rest) := by
  obtain ⟨E, l⟩ := s
  obtain ⟨E', l'⟩ := t
  dsimp only at hl h
  subst hl
  refine ⟨?_, rfl, rfl, h.named, h.paramCreators, h.stateCreators, h.interceptors⟩
  unfold toWorld
  dsimp only
  rw [h.frozen, h.modules]

/-! ### The theorems -/

/-- C21 Whatever getters are active, and whether they return or raise, every call leaves the same parameters, state, random numbers, names
and module objects behind; and a call that is not `get_parameter` or `get_state` returns the same. -/
theorem getters_do_not_store (o : Op) (w w' : World) (hw : InTransform w) (h : SameButGetters w w') :
    SameButGetters ((Prog.op o).run stackMach w).2 ((Prog.op o).run stackMach w').2 ∧
    (¬ Reads o → ((Prog.op o).run stackMach w').1 = ((Prog.op o).run stackMach w).1) := by
  obtain ⟨F, rest, r, tl, hF, hr⟩ := hw
  have hF' : w'.frames = F :: rest := h.frames.trans hF
  obtain ⟨he, hl⟩ := curr_same h (F := F) (r := r)
  rw [← toWorld_curr hF hr, ← toWorld_curr hF' hr, (ref_run _).1, (ref_run _).1]
  generalize curr F r w = s at he hl
  generalize curr F r w' = t at he hl
  have key : ∀ s, (Prog.op o).run localMach s = localMach.top o.run s := fun _ => rfl
  rw [key, key, top_eq, top_eq]
  obtain ⟨E, l⟩ := s
  obtain ⟨E', l'⟩ := t
  dsimp only at he hl
  subst hl
  dsimp only
  constructor
  · refine toWorld_same ?_ he tl rest
    by_cases ho : Reads o
    · cases o with
      | getParam => exact Obl.after_pure.trans ((Obl.getParameter_after he _ _ _ _ _).trans Obl.after_pure.symm)
      | getState => exact Obl.after_pure.trans ((Obl.getState_after he _ _ _ _ _).trans Obl.after_pure.symm)
      | _ => exact ho.elim
    · rw [Obl.op_same he o (by cases o <;> first | trivial | exact ho trivial)]
  · intro ho
    rw [Obl.op_same he o (by cases o <;> first | trivial | exact ho trivial)]

/-- C21 Two programs making the same calls and writes, run in threads that agree except for the getters: if both return, what they stored is the
same, and so is what they returned where it does not come from a read. -/
theorem getters_keep_data (e : Bool) (p q : Prog) (hpq : Alike e p q) (w w' : World) (hw : InTransform w) (h : SameButGetters w w')
    (hi : ∀ i ∈ w.hooks.interceptors, Steady i) (v v' : Val) (w1 w1' : World) (h1 : p.run stackMach w = (.ok v, w1)) (h2 : q.run stackMach w' = (.ok v', w1')) :
    SameButGetters w1 w1' ∧ (e = true → v' = v) := by
  obtain ⟨F, rest, r, tl, hF, hr⟩ := hw
  have hF' : w'.frames = F :: rest := h.frames.trans hF
  obtain ⟨he, hl⟩ := curr_same h (F := F) (r := r)
  rw [← toWorld_curr hF hr, (ref_run _).1] at h1
  rw [← toWorld_curr hF' hr, (ref_run _).1] at h2
  have hn : Near (curr F r w) (curr F r w') := ⟨hl, he, hi⟩
  generalize curr F r w = s at hn h1
  generalize curr F r w' = t at hn h2
  rcases hp : p.run localMach s with ⟨x, s1⟩
  rcases hq : q.run localMach t with ⟨y, t1⟩
  rw [hp] at h1
  rw [hq] at h2
  cases h1; cases h2
  obtain ⟨k1, k2, k3, k4⟩ := hpq.obl s t hn _ _ _ _ hp hq
  exact ⟨toWorld_same k2 (hn.after k2 k3 k4).2.toEnvSame tl rest, k1⟩

theorem start_near {w w' : World} (h : SameButGetters w w') (hi : ∀ i ∈ w.hooks.interceptors, Steady i) (c : Ctx) : Near (ctxStart c w) (ctxStart c w') := by
  refine ⟨?_, ⟨rfl, rfl, h.named, h.paramCreators, h.stateCreators, h.interceptors⟩, hi⟩
  show LW.ctxLoc c w'.heap = LW.ctxLoc c w.heap
  rw [h.heap]

/-- C21 Called from anywhere, with any getters active around the call or inside the functions, `init` returns the same parameters and state. -/
theorem init_same (d : Bool) (f g : List Val → Prog) (args args' : List Val) (hfg : Alike d (f args) (g args')) (rng : Val) (w w' : World) (h : SameButGetters w w')
    (hi : ∀ i ∈ w.hooks.interceptors, Steady i) (v v' : Val) (w1 w1' : World)
    (h1 : ((transformWithState f).init (rng :: args)).run stackMach w = (.ok v, w1)) (h2 : ((transformWithState g).init (rng :: args')).run stackMach w' = (.ok v', w1')) :
    v' = v := by
  have k1 := initT_run (rngArg rng) (f args) w
  have k2 := initT_run (rngArg rng) (g args') w'
  have e1 : (Prog.initT (rngArg rng) (f args)).run stackMach w = (.ok v, w1) := h1
  have e2 : (Prog.initT (rngArg rng) (g args')).run stackMach w' = (.ok v', w1') := h2
  rw [e1] at k1
  rw [e2] at k2
  cases hr : (rngArg rng).toSeq with
  | error x => rw [hr] at k1; cases k1
  | ok r =>
    rw [hr] at k1 k2
    dsimp only at k1 k2
    rcases hp : (f args).run localMach (ctxStart (Ctx.new none none r) w) with ⟨_ | x, s⟩ <;> rw [hp] at k1
    · cases k1
    rcases hq : (g args').run localMach (ctxStart (Ctx.new none none r) w') with ⟨_ | y, t⟩ <;> rw [hq] at k2
    · cases k2
    cases k1; cases k2
    rw [(hfg.obl _ _ (start_near h hi _) _ _ _ _ hp hq).2.1]

/-- C21 Likewise `apply` on the same parameters and state returns the same new state. -/
theorem apply_same (d : Bool) (f g : List Val → Prog) (args args' : List Val) (hfg : Alike d (f args) (g args')) (params state rng : Val) (w w' : World) (h : SameButGetters w w')
    (hi : ∀ i ∈ w.hooks.interceptors, Steady i) (v v' st st' : Val) (w1 w1' : World)
    (h1 : ((transformWithState f).apply (params :: state :: rng :: args)).run stackMach w = (.ok (.pair v st), w1))
    (h2 : ((transformWithState g).apply (params :: state :: rng :: args')).run stackMach w' = (.ok (.pair v' st'), w1')) :
    st' = st ∧ (d = true → v' = v) := by
  have unf : ∀ (f : List Val → Prog) args w, ((transformWithState f).apply (params :: state :: rng :: args)).run stackMach w =
      (match checkMapping params, checkMapping state with
       | some params, some state => Prog.applyT (some params) (some state) (rngArg rng) (f args)
       | _, _ => .raise .badMapping : Prog).run stackMach w := fun _ _ _ => rfl
  rw [unf] at h1 h2
  cases hp : checkMapping params with
  | none => rw [hp] at h1; cases h1
  | some ps =>
    cases hs : checkMapping state with
    | none => rw [hp, hs] at h1; cases h1
    | some ss =>
      rw [hp, hs] at h1 h2
      dsimp only at h1 h2
      rw [applyT_run] at h1 h2
      cases hr : (rngArg rng).toSeq with
      | error x => rw [hr] at h1; cases h1
      | ok r =>
        rw [hr] at h1 h2
        dsimp only at h1 h2
        rcases hx : (f args).run localMach (ctxStart (Ctx.new (some ((some ps).getD [])) (some ((some ss).getD [])) r) w) with ⟨_ | x, s⟩ <;> rw [hx] at h1
        · cases h1
        rcases hy : (g args').run localMach (ctxStart (Ctx.new (some ((some ps).getD [])) (some ((some ss).getD [])) r) w') with ⟨_ | y, t⟩ <;> rw [hy] at h2
        · cases h2
        cases h1; cases h2
        obtain ⟨k1, k2, _⟩ := hfg.obl _ _ (start_near h hi _) _ _ _ _ hx hy
        rw [k2]
        exact ⟨rfl, k1⟩

/-! ### A case -/

/-- A getter that doubles what is read. -/
def double : Getter := fun _ a => .next { a with data := a.data.map (2 * ·) } id

/-- Reads a parameter and a counter, sets the counter to a fixed number if the read of the RNG succeeds, and returns the parameter. -/
def body : List Val → Prog := fun _ =>
  .bind (.op (.getParam "w".toList [1] .f32 (some fun _ _ => .ret ⟨[1], .f32, [7]⟩))) fun w =>
  .bind (.op (.getState "n".toList (some []) (some .f32) (some fun _ _ => .ret ⟨[], .f32, [3]⟩))) fun _ =>
  .bind (.tryCatch (.op .nextKey) fun _ => .ret .none) fun _ =>
  .bind (.op (.setState "n".toList ⟨[], .f32, [5]⟩)) fun _ => .ret w

/-- The same function under `custom_getter(double)`. -/
def doubled : List Val → Prog := fun args => .withHook (.getter double true true) (body args)

theorem nextKey_alike : RaiseAlike (.op .nextKey) (.op .nextKey) := by
  intro s t hn
  have key : ∀ s, (Prog.op .nextKey).run localMach s = localMach.top (Op.nextKey).run s := fun _ => rfl
  rw [key, key, top_eq, top_eq, hn.1, Obl.op_same hn.2.toEnvSame .nextKey trivial]
  rcases (Op.nextKey).run s.env s.loc with ⟨x | x, l⟩
  · exact ⟨rfl, rfl⟩
  · trivial

theorem body_alike : Alike false (doubled []) (body []) :=
  .getterL _ _ _ <| .bind (.read trivial) fun _ _ _ => .bind (.read trivial) fun _ _ _ =>
    .bind (.tryCatch (e := true) (.op not_false) nextKey_alike fun _ => .ret fun _ => rfl) fun _ _ _ => .bind (d := true) (.op not_false) fun _ _ _ => .ret fun h => by cases h

/-- A thread with an outer getter that doubles. -/
def doubling : World := { World.initial with hooks := { Hooks.none with paramGetters := [double] } }

theorem doubling_same : SameButGetters World.initial doubling := ⟨rfl, rfl, rfl, rfl, rfl, rfl, rfl⟩

/-- `init` without getters and with both getters: both return, and the same. -/
example : Alike false (doubled []) (body []) ∧ SameButGetters World.initial doubling ∧ (∀ i ∈ World.initial.hooks.interceptors, Steady i) ∧
    (((transformWithState doubled).init [.int 3]).run stackMach World.initial).1 =
      .ok (.pair (.bundle [("~".toList, [("w".toList, ⟨[1], .f32, [7]⟩)])]) (.bundle [("~".toList, [("n".toList, ⟨[], .f32, [3]⟩)])])) ∧
    (((transformWithState body).init [.int 3]).run stackMach doubling).1 =
      .ok (.pair (.bundle [("~".toList, [("w".toList, ⟨[1], .f32, [7]⟩)])]) (.bundle [("~".toList, [("n".toList, ⟨[], .f32, [3]⟩)])])) :=
  ⟨body_alike, doubling_same, (fun i h => by cases h), by decide +kernel⟩

/-- `apply`: the parameter read differs, the state does not. -/
example : (((transformWithState doubled).apply [.bundle [("~".toList, [("w".toList, ⟨[1], .f32, [9]⟩)])], .none, .none]).run stackMach World.initial).1 =
      .ok (.pair (.arr ⟨[1], .f32, [18]⟩) (.bundle [("~".toList, [("n".toList, ⟨[], .f32, [5]⟩)])])) ∧
    (((transformWithState body).apply [.bundle [("~".toList, [("w".toList, ⟨[1], .f32, [9]⟩)])], .none, .none]).run stackMach World.initial).1 =
      .ok (.pair (.arr ⟨[1], .f32, [9]⟩) (.bundle [("~".toList, [("n".toList, ⟨[], .f32, [5]⟩)])])) := by decide +kernel

/-- Inside a transform: a read under the getter returns something else and leaves the same. -/
example : InTransform busy ∧ SameButGetters busy { busy with hooks := { busy.hooks with paramGetters := [double] } } ∧ Reads (.getParam "w".toList [] .f32 none) ∧ ¬ Reads .nextKey :=
  ⟨busy_in, ⟨rfl, rfl, rfl, rfl, rfl, rfl, rfl⟩, trivial, not_false⟩

end Verif.Props.Getters
