import Verif.Lemmas.Top
import Verif.Lemmas.Control
import Verif.Props.Context

/-!
# Stateful control flow (C22, C23, C24, C25, C26, C27, C29, C30)
-/

set_option linter.unusedVariables false

namespace Verif.Props.Control
open Verif Names Frame LW
open Verif.Props.Context

/-! ### Specification vocabulary -/

/-- No module name, parameter name or state name occurs twice in the dictionaries of the current frame. -/
def Tidy (w : World) : Prop := ∀ F ∈ w.frames.head?, WF2 F.params ∧ WF2 F.state

/-- Changes the current frame. -/
def onTop (f : FrameS → FrameS) (w : World) : World :=
  { w with frames := match w.frames with
      | F :: rest => f F :: rest
      | [] => [] }

/-- `w1`, with the counters and names of modules that `w` had. -/
def keepNames (w w1 : World) : World :=
  onTop (fun F1 => { F1 with scopeStack := (w.frames.head?.map FrameS.scopeStack).getD F1.scopeStack }) w1

/-- `w1`, with the parameters that `w` had. -/
def keepParams (w w1 : World) : World :=
  onTop (fun F1 => { F1 with params := (w.frames.head?.map FrameS.params).getD F1.params }) w1

/-- `w`, with the reserved keys of the sequence in force brought to a full block. -/
def fillRng (w : World) : World :=
  onTop (fun F => { F with rngStack := match F.rngStack with
    | r :: tl => r.map PRNGSeq.reserveUpToFull :: tl
    | [] => [] }) w

/-- `w`: what happened between `w` and `w1` left no trace but module objects and the record of keys handed out. -/
def undo (w w1 : World) : World := { w with heap := w1.heap, log := w1.log }

/-- The data of the current frame that JAX carries through control flow. -/
def data (w : World) : Option IState := w.frames.head?.map fun F =>
  ⟨some F.params, F.state, (F.rngStack.headD none).map PRNGSeq.internalState, F.trace⟩

/-- Same structure, shapes and dtypes of the data of the current frame. -/
def sameShape (w w1 : World) : Bool :=
  match data w, data w1 with
  | some a, some b => b.sameStruct a
  | _, _ => false

/-! ### Reachable states are tidy -/

theorem tidy_toWorld {s : LW} {tl rest} : Tidy (toWorld s tl rest) ↔ s.loc.WF := by
  simp [Tidy, toWorld, Loc.WF]

/-- Every state reached inside a transform is tidy. -/
theorem tidy_run (p : Prog) {w : World} (hw : InTransform w) (ht : Tidy w) : Tidy (p.run stackMach w).2 := by
  obtain ⟨F, rest, r, tl, hF, hr⟩ := hw
  rw [run_curr hF hr]
  rw [← toWorld_curr hF hr, tidy_toWorld] at ht
  exact tidy_toWorld.2 ((grow_run p _).2.wf ht)

/-- Every transform starts in a tidy state. -/
theorem tidy_start (params state : Option PDict) (rng : Option PRNGSeq) (w : World) :
    Tidy { w with frames := World.frameOf (Ctx.new params state rng) :: w.frames } := by
  intro F hF
  cases hF
  exact WF2.ctxNew params state rng []

/-! ### C22, C23: `hk.jit`, `hk.remat`, `hk.named_call`, `hk.value_and_grad` -/

/-- C22 a function run through `hk.jit` (or `remat`, `named_call`, the value part of `value_and_grad`) that returns, returns the same value and
leaves the same parameters, state, rng, module objects and hooks as calling it directly; only the counters and names of the calling
scope are as if it had not run. -/
theorem jit_transparent (p : Prog) (w w1 : World) (v : Val) (hw : InTransform w) (ht : Tidy w) (h : p.run stackMach w = (.ok v, w1)) :
    (Prog.jit p).run stackMach w = (.ok v, keepNames w w1) := by
  obtain ⟨F, rest, r, tl, hF, hr⟩ := hw
  rw [← toWorld_curr hF hr, tidy_toWorld] at ht
  rw [run_curr hF hr] at h ⊢
  have e : (Prog.jit p).run localMach (curr F r w) = jitM localMach (p.run localMach) (curr F r w) := rfl
  rw [e, jitM_eq (grow_run p) ht]
  unfold atomic rescoped
  rcases hp : p.run localMach (curr F r w) with ⟨e | v', s1⟩ <;> rw [hp] at h <;> cases h
  unfold keepNames onTop toWorld LW.commit
  rw [hF]
  rfl

/-- C22 in particular a function that creates no module directly in the calling scope. -/
theorem jit_transparent_of_names (p : Prog) (w w1 : World) (v : Val) (hw : InTransform w) (ht : Tidy w) (h : p.run stackMach w = (.ok v, w1))
    (hn : w1.frames.head?.map FrameS.scopeStack = w.frames.head?.map FrameS.scopeStack) :
    (Prog.jit p).run stackMach w = p.run stackMach w := by
  rw [jit_transparent p w w1 v hw ht h, h]
  have : keepNames w w1 = w1 := by
    unfold keepNames onTop
    rw [← hn]
    obtain ⟨fs, hk, nc, hp, lg⟩ := w1
    cases fs <;> rfl
  rw [this]

/-- C23 a function that raises inside `hk.jit` changes nothing: the exception is the same and parameters, state, rng and names are as before. -/
theorem jit_atomic (p : Prog) (w w1 : World) (e : Exc) (hw : InTransform w) (ht : Tidy w) (h : p.run stackMach w = (.error e, w1)) :
    (Prog.jit p).run stackMach w = (.error e, undo w w1) := by
  obtain ⟨F, rest, r, tl, hF, hr⟩ := hw
  have ht' := ht
  rw [← toWorld_curr hF hr, tidy_toWorld] at ht
  rw [run_curr hF hr] at h ⊢
  have e' : (Prog.jit p).run localMach (curr F r w) = jitM localMach (p.run localMach) (curr F r w) := rfl
  rw [e', jitM_eq (grow_run p) ht]
  unfold atomic rescoped
  rcases hp : p.run localMach (curr F r w) with ⟨e | v', s1⟩ <;> rw [hp] at h <;> cases h
  conv_rhs => rw [← toWorld_curr hF hr]
  rfl

/-- A body that uses parameters, state and keys and then returns or raises. -/
def body (fail : Bool) : Prog :=
  .bind (getP "w") fun _ => .bind (.op (.setState "s".toList ⟨[], .f32, [5]⟩)) fun _ => .bind (.op .nextKey) fun _ =>
    if fail then .raise .indexError else .ret (.int 3)

theorem busy_tidy : Tidy busy := fun F hF => tidy_start none none (some (.ofSeed 0)) World.initial F hF

/-- The parameters of the current frame. -/
def topParams (w : World) : PDict := (w.frames.head?.map FrameS.params).getD []

/-- `hk.jit` of it in a running transform. -/
example : InTransform busy ∧ Tidy busy ∧ ((body false).run stackMach busy).1 = .ok (.int 3) ∧
    topParams ((Prog.jit (body false)).run stackMach busy).2 = [("~".toList, [("w".toList, ⟨[], .f32, [7]⟩)])] :=
  ⟨busy_in, busy_tidy, by decide +kernel⟩

example : ((body true).run stackMach busy).1 = .error .indexError ∧ topParams ((body true).run stackMach busy).2 ≠ [] ∧
    topParams ((Prog.jit (body true)).run stackMach busy).2 = [] := by decide +kernel

/-! ### C24: `hk.cond` and `hk.switch` -/

/-- The index `jax.lax.switch` uses. -/
def branchIndex (i : Int) (n : Nat) : Nat := if i < 0 then 0 else if i.toNat < n then i.toNat else n - 1

theorem clampIndex_eq (i : Int) (n : Nat) : clampIndex i n = branchIndex i n := by
  unfold clampIndex branchIndex
  split
  · omega
  · split <;> omega

/-- Running a branch by itself on a full block of keys, then refilling the block. -/
def alone (p : Prog) (w : World) : Except Exc Val × World := ((p.run stackMach (fillRng w)).1, fillRng (p.run stackMach (fillRng w)).2)

theorem fillRng_toWorld (s : LW) (tl rest) : fillRng (toWorld s tl rest) = toWorld s.full tl rest := rfl
theorem keepNames_toWorld (s s1 : LW) (tl rest) : keepNames (toWorld s tl rest) (toWorld s1 tl rest) = toWorld (s.commit s1) tl rest := rfl
theorem undo_toWorld (s s1 : LW) (tl rest) : undo (toWorld s tl rest) (toWorld s1 tl rest) = toWorld (s.back s1) tl rest := rfl

theorem alone_toWorld (p : Prog) (s : LW) (tl rest) : alone p (toWorld s tl rest) =
    ((p.run localMach s.full).1, toWorld (p.run localMach s.full).2.full tl rest) := by
  unfold alone
  rw [fillRng_toWorld, (ref_run p).1]
  rfl

theorem outcome_ok {m : M LW Val} {s s1 : LW} {v : Val} : Verif.outcome s m = (.ok v, s1) ↔
    ∃ s2, m s = (.ok v, s2) ∧ s1 = s.commit s2.full := by
  unfold Verif.outcome atomic rescoped thenFull M.bind
  rcases m s with ⟨e | v', s2⟩
  · simp
  · show ((Except.ok v', s.commit s2.full) = _) ↔ _
    constructor
    · rintro h; cases h; exact ⟨s2, rfl, rfl⟩
    · rintro ⟨s3, h, rfl⟩; cases h; rfl

theorem outcome_error {m : M LW Val} {s s1 : LW} {e : Exc} : Verif.outcome s m = (.error e, s1) ↔
    ∃ s2, m s = (.error e, s2) ∧ s1 = s.back s2 := by
  unfold Verif.outcome atomic rescoped thenFull M.bind
  rcases m s with ⟨e' | v', s2⟩
  · show ((Except.error e', s.back (s.commit s2)) = _) ↔ _
    constructor
    · rintro h; cases h; exact ⟨s2, rfl, rfl⟩
    · rintro ⟨s3, h, rfl⟩; cases h; rfl
  · show ((Except.ok v', s.commit s2.full) = _) ↔ _
    constructor
    · rintro h; cases h
    · rintro ⟨s3, h, rfl⟩; cases h

theorem choose_ok {i : Nat} {os : List (Except Exc Val × LW)} {s s1 : LW} {v : Val} (h : choose i os s = (.ok v, s1)) :
    os[i]? = some (.ok v, s1) ∧ ∀ o ∈ os, ∃ w s2, o = (.ok w, s2) := by
  unfold choose at h
  split at h
  · next o ho =>
    have := List.find?_some ho
    rw [h] at this
    cases this
  · next hn =>
    have hall : ∀ o ∈ os, ∃ w s2, o = (.ok w, s2) := by
      intro o ho
      have := List.find?_eq_none.1 hn o ho
      obtain ⟨e | w, s2⟩ := o
      · simp at this
      · exact ⟨w, s2, rfl⟩
    split at h
    · cases h
    · next o ho =>
      split at h
      · exact ⟨h ▸ ho, hall⟩
      · cases h

theorem choose_all_ok {i : Nat} {os : List (Except Exc Val × LW)} {s : LW} {o : Except Exc Val × LW} (hi : os[i]? = some o)
    (h : ∀ q ∈ os, agree q o = true) : choose i os s = o := by
  unfold choose
  split
  · next q hq =>
    have h1 := h q (List.mem_of_find?_eq_some hq)
    have h2 := List.find?_some hq
    obtain ⟨e | v, s'⟩ := q
    · simp [agree] at h1
    · simp at h2
  · rw [hi]
    dsimp only
    rw [if_pos]
    rw [List.all_eq_true]
    exact h

section
variable {w : World} (hw : InTransform w) (ht : Tidy w)
include hw ht

/-- C24 when `hk.switch` returns, it returns what the selected branch returns and leaves parameters, state and rng as running that branch
alone does; nothing of the other branches is visible.  (Alone: on the same state with a full block of keys.) -/
theorem switch_is_branch (i : Int) (n : Nat) (br : Nat → Prog) (v : Val) (w' : World)
    (h : (Prog.switch i n br).run stackMach w = (.ok v, w')) :
    ∃ w1, alone (br (branchIndex i n)) w = (.ok v, w1) ∧ w' = keepNames w w1 := by
  obtain ⟨F, rest, r, tl, hF, hr⟩ := hw
  have hc := toWorld_curr hF hr
  generalize curr F r w = s at hc
  subst hc
  rw [tidy_toWorld] at ht
  rw [(ref_run _).1] at h
  have e : (Prog.switch i n br).run localMach s = switchM localMach (clampIndex i n) ((List.range n).map fun j => (br j).run localMach) s := rfl
  rw [e, switchM_eq (by simp [grow_run]) ht] at h
  rcases hch : choose (clampIndex i n) (((List.range n).map fun j => (br j).run localMach).map (Verif.outcome s.full)) s.full with ⟨e | v', s1⟩ <;>
    rw [hch] at h <;> cases h
  have h1 := (choose_ok hch).1
  rw [List.getElem?_map, List.getElem?_map] at h1
  simp only [Option.map_map, Option.map_eq_some_iff, Function.comp_apply, List.getElem?_eq_some_iff, List.getElem_range] at h1
  obtain ⟨j, ⟨_, rfl⟩, hj⟩ := h1
  obtain ⟨s2, h2, rfl⟩ := outcome_ok.1 hj
  rw [alone_toWorld, ← clampIndex_eq, h2]
  exact ⟨_, rfl, rfl⟩

/-- C24 `hk.cond` likewise. -/
theorem cond_is_branch (b : Bool) (t f : Prog) (v : Val) (w' : World) (h : (Prog.cond b t f).run stackMach w = (.ok v, w')) :
    ∃ w1, alone (if b then t else f) w = (.ok v, w1) ∧ w' = keepNames w w1 := by
  obtain ⟨F, rest, r, tl, hF, hr⟩ := hw
  have hc := toWorld_curr hF hr
  generalize curr F r w = s at hc
  subst hc
  rw [tidy_toWorld] at ht
  rw [(ref_run _).1] at h
  have e : (Prog.cond b t f).run localMach s = switchM localMach (if b then 0 else 1) [t.run localMach, f.run localMach] s := rfl
  rw [e, switchM_eq (by simp [grow_run]) ht] at h
  rcases hch : choose (if b then 0 else 1) ([t.run localMach, f.run localMach].map (Verif.outcome s.full)) s.full with ⟨e | v', s1⟩ <;>
    rw [hch] at h <;> cases h
  have h1 := (choose_ok hch).1
  cases b
  · have h1 : Verif.outcome s.full (f.run localMach) = (.ok v, s1) := by simpa using h1
    obtain ⟨s2, h2, rfl⟩ := outcome_ok.1 h1
    rw [alone_toWorld]
    simp only [Bool.false_eq_true, if_false]
    rw [h2]
    exact ⟨_, rfl, rfl⟩
  · have h1 : Verif.outcome s.full (t.run localMach) = (.ok v, s1) := by simpa using h1
    obtain ⟨s2, h2, rfl⟩ := outcome_ok.1 h1
    rw [alone_toWorld]
    simp only [if_true]
    rw [h2]
    exact ⟨_, rfl, rfl⟩

/-- C24 conversely `hk.switch` returns whenever all branches return, with the structure of the selected one. -/
theorem switch_returns (i : Int) (n : Nat) (hn : 0 < n) (br : Nat → Prog)
    (h : ∀ j < n, ∃ v w1 v' w1', alone (br j) w = (.ok v, w1) ∧ alone (br (branchIndex i n)) w = (.ok v', w1') ∧
      v.sameStruct v' = true ∧ sameShape w1' w1 = true) :
    ∃ v w1, (Prog.switch i n br).run stackMach w = (.ok v, keepNames w w1) ∧ alone (br (branchIndex i n)) w = (.ok v, w1) := by
  have hi : branchIndex i n < n := by unfold branchIndex; split <;> [omega; split <;> omega]
  obtain ⟨F, rest, r, tl, hF, hr⟩ := hw
  have hc := toWorld_curr hF hr
  generalize curr F r w = s at hc
  subst hc
  rw [tidy_toWorld] at ht
  obtain ⟨_, _, v, w1, _, hv, _⟩ := h _ hi
  refine ⟨v, w1, ?_, hv⟩
  rw [(ref_run _).1]
  have e : (Prog.switch i n br).run localMach s = switchM localMach (clampIndex i n) ((List.range n).map fun j => (br j).run localMach) s := rfl
  rw [e, switchM_eq (by simp [grow_run]) ht, clampIndex_eq]
  rw [alone_toWorld] at hv
  rcases hb : (br (branchIndex i n)).run localMach s.full with ⟨e | v0, s0⟩ <;> rw [hb] at hv <;> cases hv
  have ho : Verif.outcome s.full ((br (branchIndex i n)).run localMach) = (.ok v, s.full.commit s0.full) := outcome_ok.2 ⟨s0, hb, rfl⟩
  rw [choose_all_ok (o := (.ok v, s.full.commit s0.full))]
  · rfl
  · rw [List.getElem?_map, List.getElem?_map, List.getElem?_range hi]
    exact congrArg some ho
  · intro q hq
    simp only [List.map_map, List.mem_map, List.mem_range, Function.comp_apply] at hq
    obtain ⟨j, hj, rfl⟩ := hq
    obtain ⟨vj, wj, v', w1', h1, h2, h3, h4⟩ := h j hj
    rw [alone_toWorld] at h1 h2
    rcases hbj : (br j).run localMach s.full with ⟨e | v1, s1⟩ <;> rw [hbj] at h1 <;> cases h1
    rw [hb] at h2
    cases h2
    rw [outcome_ok.2 ⟨s1, hbj, rfl⟩]
    unfold agree
    dsimp only
    rw [h3]
    exact h4

/-- C23 when a branch of `hk.switch` raises, the first such exception is raised and the frame is as it was when the branches were entered
(with a full block of keys). -/
theorem switch_atomic (i : Int) (n : Nat) (br : Nat → Prog) (e : Exc) (w' : World)
    (h : (Prog.switch i n br).run stackMach w = (.error e, w')) : ∃ w1, w' = undo (fillRng w) w1 := by
  obtain ⟨F, rest, r, tl, hF, hr⟩ := hw
  have hc := toWorld_curr hF hr
  generalize curr F r w = s at hc
  subst hc
  rw [tidy_toWorld] at ht
  rw [(ref_run _).1] at h
  have e' : (Prog.switch i n br).run localMach s = switchM localMach (clampIndex i n) ((List.range n).map fun j => (br j).run localMach) s := rfl
  rw [e', switchM_eq (by simp [grow_run]) ht] at h
  rcases hch : choose (clampIndex i n) (((List.range n).map fun j => (br j).run localMach).map (Verif.outcome s.full)) s.full with ⟨e | v', s1⟩ <;>
    rw [hch] at h <;> cases h
  unfold choose at hch
  split at hch
  · next o ho =>
    subst hch
    have := List.mem_of_find?_eq_some ho
    simp only [List.map_map, List.mem_map, List.mem_range, Function.comp_apply] at this
    obtain ⟨j, hj, ho⟩ := this
    obtain ⟨s2, _, rfl⟩ := outcome_error.1 ho
    exact ⟨toWorld s2 tl rest, rfl⟩
  · next hn =>
    have hs : s1 = s.full := by
      split at hch
      · cases hch; rfl
      · next o ho =>
        split at hch
        · subst hch
          have := List.find?_eq_none.1 hn _ (List.mem_of_getElem? ho)
          simp at this
        · cases hch; rfl
    subst hs
    exact ⟨toWorld s.full tl rest, rfl⟩

end

/-- Two branches that set the same state and draw keys. -/
def branch (n : Nat) : Prog :=
  .bind (.op (.setState "s".toList ⟨[], .f32, [n]⟩)) fun _ => .bind (.op .nextKey) fun _ => .ret (.int n)

/-- The current state values of the current frame. -/
def topState (w : World) : PDict := extractState false ((w.frames.head?.map FrameS.state).getD [])

example : InTransform busy ∧ Tidy busy ∧ ((Prog.switch 7 3 branch).run stackMach busy).1 = .ok (.int 2) ∧
    topState ((Prog.switch 7 3 branch).run stackMach busy).2 = [("~".toList, [("s".toList, ⟨[], .f32, [2]⟩)])] ∧
    ((Prog.cond false (branch 0) (branch 1)).run stackMach busy).1 = .ok (.int 1) :=
  ⟨busy_in, busy_tidy, by decide +kernel⟩

/-- The hypotheses of `switch_returns`. -/
example : ∀ j < 3, ∃ v w1 v' w1', alone (branch j) busy = (.ok v, w1) ∧ alone (branch (branchIndex 7 3)) busy = (.ok v', w1') ∧
    v.sameStruct v' = true ∧ sameShape w1' w1 = true := by
  intro j hj
  refine ⟨.int j, (alone (branch j) busy).2, .int 2, (alone (branch 2) busy).2, ?_⟩
  match j, hj with
  | 0, _ => exact ⟨rfl, rfl, by decide +kernel⟩
  | 1, _ => exact ⟨rfl, rfl, by decide +kernel⟩
  | 2, _ => exact ⟨rfl, rfl, by decide +kernel⟩

/-- A branch that raises. -/
example : ((Prog.switch 0 2 fun j => if j = 0 then branch 0 else body true).run stackMach busy).1 = .error .indexError := by decide +kernel

/-! ### C25: `hk.scan` -/

/-- The end of an iteration that started in `w` and ended in `w1`: names and parameters are put back, the block of keys is refilled. -/
def endStep (w w1 : World) : World := keepNames w (keepParams w (fillRng w1))

/-- The Python loop `for x in xs: c, y = f(c, x); ys.append(y)`. -/
def pyScan (f : Val → Val → Prog) : List Val → Val → World → Except Exc (Val × List Val) × World
  | [], c, w => (.ok (c, []), w)
  | x :: xs, c, w =>
    match (f c x).run stackMach w with
    | (.ok (.pair c' y), w1) =>
      match pyScan f xs c' (endStep w w1) with
      | (.ok q, w2) => (.ok (q.1, y :: q.2), w2)
      | (.error e, w2) => (.error e, w2)
    | (.ok _, w1) => (.error .structureMismatch, w1)
    | (.error e, w1) => (.error e, w1)

/-- Every step keeps the structure of the carry and of the state and makes no parameter: what `jax.lax.scan` and
`assert_no_new_parameters` insist on. -/
def Fits (f : Val → Val → Prog) : List Val → Val → World → Prop
  | [], _, _ => True
  | x :: xs, c, w => ∀ c' y w1, (f c x).run stackMach w = (.ok (.pair c' y), w1) →
      c'.sameStruct c = true ∧ sameShape w (keepParams w (fillRng w1)) = true ∧
      (∀ n ∈ paramNames (topParams w1), n ∈ paramNames (topParams w)) ∧ Fits f xs c' (endStep w w1)

theorem endStep_toWorld (s s1 : LW) (tl rest) : endStep (toWorld s tl rest) (toWorld s1 tl rest) = toWorld (s.commitN s1.full) tl rest := rfl

theorem hasNewParams_iff (a b : PDict) : hasNewParams a b = false ↔ ∀ n ∈ paramNames b, n ∈ paramNames a := by
  simp [hasNewParams]

theorem iterP_ok {m : M LW Val} {c : Val} {s s2 : LW} {cy : Val × Val} (h : iterP m c s = (.ok cy, s2)) :
    ∃ s1, m s = (.ok (.pair cy.1 cy.2), s1) ∧ s2 = s.commitN s1.full ∧ cy.1.sameStruct c = true ∧
      s1.full.istN.sameStruct s.istN = true ∧ hasNewParams s.loc.params s1.loc.params = false := by
  unfold iterP M.bind at h
  rcases hm : m s with ⟨e | v, s1⟩ <;> rw [hm] at h
  · cases h
  · cases v <;> dsimp only [asPair, M.throw, M.pure] at h <;> try cases h
    split at h
    · cases h
    · next hn =>
      split at h
      · next hs =>
        cases h
        simp only [Bool.and_eq_true] at hs
        exact ⟨s1, rfl, rfl, hs.1, hs.2, by simpa using hn⟩
      · cases h

theorem iterP_fits {m : M LW Val} {c c' y : Val} {s s1 : LW} (h : m s = (.ok (.pair c' y), s1)) (h1 : c'.sameStruct c = true)
    (h2 : s1.full.istN.sameStruct s.istN = true) (h3 : hasNewParams s.loc.params s1.loc.params = false) :
    iterP m c s = (.ok (c', y), s.commitN s1.full) := by
  unfold iterP M.bind
  rw [h]
  dsimp only [asPair, M.pure]
  rw [if_neg (by simp [h3]), if_pos (by simp [h1, h2])]

theorem iterList_ok {f : Val → Val → Prog} (tl rest) : ∀ xs c s r s', iterList (fun c x => (f c x).run localMach) xs c s = (.ok r, s') →
    pyScan f xs c (toWorld s tl rest) = (.ok r, toWorld s' tl rest) := by
  intro xs
  induction xs with
  | nil => intro c s r s' h; cases h; rfl
  | cons x xs ih =>
    intro c s r s' h
    unfold iterList M.bind at h
    rcases hp : iterP ((f c x).run localMach) c s with ⟨e | cy, s2⟩ <;> rw [hp] at h
    · cases h
    · obtain ⟨s1, hm, rfl, _⟩ := iterP_ok hp
      dsimp only at h
      rcases hl : iterList (fun c x => (f c x).run localMach) xs cy.1 (s.commitN s1.full) with ⟨e | q, s3⟩ <;> rw [hl] at h
      · cases h
      · cases h
        unfold pyScan
        rw [(ref_run _).1, hm]
        dsimp only
        rw [endStep_toWorld, ih _ _ _ _ hl]

theorem iterList_fits {f : Val → Val → Prog} (tl rest) : ∀ xs c s r w', Fits f xs c (toWorld s tl rest) →
    pyScan f xs c (toWorld s tl rest) = (.ok r, w') →
    ∃ s', iterList (fun c x => (f c x).run localMach) xs c s = (.ok r, s') ∧ w' = toWorld s' tl rest := by
  intro xs
  induction xs with
  | nil => intro c s r w' _ h; cases h; exact ⟨s, rfl, rfl⟩
  | cons x xs ih =>
    intro c s r w' hf h
    have hf1 := hf
    unfold Fits at hf1
    unfold pyScan at h
    rw [(ref_run _).1] at h hf1
    rcases hm : (f c x).run localMach s with ⟨e | v, s1⟩ <;> rw [hm] at h hf1
    · cases h
    · cases v with
      | pair c' y =>
        dsimp only at h
        obtain ⟨h1, h2, h3, h4⟩ := hf1 c' y _ rfl
        have h2' : s1.full.istN.sameStruct s.istN = true := by
          have : (⟨some s.loc.params, s1.full.loc.state, s1.full.loc.rng.map PRNGSeq.internalState, s1.loc.trace⟩ : IState).sameStruct
            ⟨some s.loc.params, s.loc.state, s.loc.rng.map PRNGSeq.internalState, s.loc.trace⟩ = true := h2
          unfold IState.sameStruct at this ⊢
          simp only [Bool.and_eq_true] at this ⊢
          exact ⟨⟨rfl, this.1.2⟩, this.2⟩
        rw [endStep_toWorld] at h h4
        rcases hl : pyScan f xs c' (toWorld (s.commitN s1.full) tl rest) with ⟨e | q, w2⟩ <;> rw [hl] at h
        · cases h
        · obtain ⟨s', hs', hw'⟩ := ih _ _ _ _ h4 hl
          cases h
          refine ⟨s', ?_, hw'⟩
          unfold iterList M.bind
          rw [iterP_fits hm h1 h2' ((hasNewParams_iff _ _).2 h3)]
          dsimp only
          rw [hs']
          rfl
      | _ => cases h

/-- Whether `apply` is running (parameters are frozen). -/
def InApply (w : World) : Prop := ∃ F ∈ w.frames.head?, F.frozen = true

/-- The order in which the elements are visited. -/
def inOrder {α : Type} (rev : Bool) (xs : List α) : List α := if rev then xs.reverse else xs

theorem scan_frozen {f : Val → Val → Prog} {init zero : Val} {xs : List Val} {rev : Bool} {s : LW} (ht : s.loc.WF) (hf : s.env.frozen = true) :
    (Prog.scan f init zero xs rev).run localMach s =
      match iterList (fun c x => (f c x).run localMach) (inOrder rev xs) init s.full with
      | (.ok r, s1) => (.ok (.pair r.1 (Val.ofList (inOrder rev r.2))), s1)
      | (.error e, s1) => (.error e, s.full.back s1) := by
  show scanM localMach _ init zero xs rev s = _
  unfold scanM
  rw [M.bind, top_eq]
  dsimp only [M.pure]
  rw [hf, if_pos rfl]
  unfold M.bind
  dsimp only
  have := scanTail_eq (fun c x => grow_run (f c x)) init xs rev ht
  unfold atomic M.bind at this
  have e : ({ env := s.env, loc := s.loc } : LW) = s := rfl
  rw [this]
  show _ = match iterList _ (if rev = true then xs.reverse else xs) init s.full with
      | (.ok r, s1) => _
      | (.error e, s1) => _
  rcases iterList (fun c x => (f c x).run localMach) (if rev = true then xs.reverse else xs) init s.full with ⟨e | r, s1⟩
  · rfl
  · rfl

/-- C25 in apply, when `hk.scan` returns, it returns the carry of the Python loop over the elements in scan order, the outputs of that loop,
each at the position of its element, and leaves the state and rng of that loop. -/
theorem scan_apply {w : World} (hw : InTransform w) (ht : Tidy w) (ha : InApply w) (f : Val → Val → Prog) (init zero : Val) (xs : List Val) (rev : Bool)
    (v : Val) (w' : World) (h : (Prog.scan f init zero xs rev).run stackMach w = (.ok v, w')) :
    ∃ c ys, pyScan f (inOrder rev xs) init (fillRng w) = (.ok (c, ys), w') ∧ v = .pair c (Val.ofList (inOrder rev ys)) := by
  obtain ⟨F, rest, r, tl, hF, hr⟩ := hw
  have hc := toWorld_curr hF hr
  generalize curr F r w = s at hc
  subst hc
  rw [tidy_toWorld] at ht
  have hf : s.env.frozen = true := by obtain ⟨G, hG, h⟩ := ha; cases hG; exact h
  rw [(ref_run _).1, scan_frozen ht hf] at h
  rcases hi : iterList (fun c x => (f c x).run localMach) (inOrder rev xs) init s.full with ⟨e | q, s1⟩ <;> rw [hi] at h <;> cases h
  exact ⟨q.1, q.2, iterList_ok tl rest _ _ _ _ _ hi, rfl⟩

/-- C25 conversely, in apply `hk.scan` returns whenever the Python loop does and every step keeps the structure of carry and state. -/
theorem scan_apply_returns {w : World} (hw : InTransform w) (ht : Tidy w) (ha : InApply w) (f : Val → Val → Prog) (init zero : Val) (xs : List Val)
    (rev : Bool) (c : Val) (ys : List Val) (w' : World) (h : pyScan f (inOrder rev xs) init (fillRng w) = (.ok (c, ys), w'))
    (hfit : Fits f (inOrder rev xs) init (fillRng w)) :
    (Prog.scan f init zero xs rev).run stackMach w = (.ok (.pair c (Val.ofList (inOrder rev ys))), w') := by
  obtain ⟨F, rest, r, tl, hF, hr⟩ := hw
  have hc := toWorld_curr hF hr
  generalize curr F r w = s at hc
  subst hc
  rw [tidy_toWorld] at ht
  have hf : s.env.frozen = true := by obtain ⟨G, hG, h⟩ := ha; cases hG; exact h
  rw [(ref_run _).1, scan_frozen ht hf]
  rw [fillRng_toWorld] at h hfit
  obtain ⟨s', h1, rfl⟩ := iterList_fits tl rest _ _ _ _ _ hfit h
  rw [h1]

/-- C23 in apply, when `hk.scan` raises, the frame is as it was (with a full block of keys). -/
theorem scan_atomic {w : World} (hw : InTransform w) (ht : Tidy w) (ha : InApply w) (f : Val → Val → Prog) (init zero : Val) (xs : List Val)
    (rev : Bool) (e : Exc) (w' : World) (h : (Prog.scan f init zero xs rev).run stackMach w = (.error e, w')) :
    ∃ w1, w' = undo (fillRng w) w1 := by
  obtain ⟨F, rest, r, tl, hF, hr⟩ := hw
  have hc := toWorld_curr hF hr
  generalize curr F r w = s at hc
  subst hc
  rw [tidy_toWorld] at ht
  have hf : s.env.frozen = true := by obtain ⟨G, hG, h⟩ := ha; cases hG; exact h
  rw [(ref_run _).1, scan_frozen ht hf] at h
  rcases hi : iterList (fun c x => (f c x).run localMach) (inOrder rev xs) init s.full with ⟨e | q, s1⟩ <;> rw [hi] at h <;> cases h
  exact ⟨toWorld s1 tl rest, rfl⟩

/-- A running apply with a state entry. -/
def applying : World :=
  { World.initial with frames := [World.frameOf (Ctx.new (some []) (some [("~".toList, [("s".toList, ⟨[], .f32, [0]⟩)])]) (some (.ofSeed 0)))] }

theorem applying_in : InTransform applying := ⟨_, _, _, _, rfl, rfl⟩
theorem applying_apply : InApply applying := ⟨_, rfl, rfl⟩
theorem applying_tidy : Tidy applying := fun F hF =>
  tidy_start (some []) (some [("~".toList, [("s".toList, ⟨[], .f32, [0]⟩)])]) (some (.ofSeed 0)) World.initial F hF

/-- A step: adds the element to the carry, puts the carry into the state, draws a key, gives the element back. -/
def step (c x : Val) : Prog :=
  match c, x with
  | .int c, .int x => .bind (.op (.setState "s".toList ⟨[], .f32, [c]⟩)) fun _ => .bind (.op .nextKey) fun _ => .ret (.pair (.int (c + x)) (.int x))
  | _, _ => .raise .indexError

example : InTransform applying ∧ Tidy applying ∧ InApply applying ∧
    ((Prog.scan step (.int 1) (.int 0) [.int 2, .int 3] true).run stackMach applying).1 =
      .ok (.pair (.int 6) (Val.ofList [.int 2, .int 3])) ∧
    topState ((Prog.scan step (.int 1) (.int 0) [.int 2, .int 3] true).run stackMach applying).2 = [("~".toList, [("s".toList, ⟨[], .f32, [4]⟩)])] :=
  ⟨applying_in, applying_tidy, applying_apply, by decide +kernel⟩

/-- `Fits`, computed; only used to check the example below. -/
def fitsB (f : Val → Val → Prog) : List Val → Val → World → Bool
  | [], _, _ => true
  | x :: xs, c, w =>
    match (f c x).run stackMach w with
    | (.ok (.pair c' _), w1) => c'.sameStruct c && sameShape w (keepParams w (fillRng w1)) &&
        decide (∀ n ∈ paramNames (topParams w1), n ∈ paramNames (topParams w)) && fitsB f xs c' (endStep w w1)
    | _ => true

theorem fitsB_sound {f : Val → Val → Prog} : ∀ {xs c w}, fitsB f xs c w = true → Fits f xs c w := by
  intro xs
  induction xs with
  | nil => intro _ _ _; trivial
  | cons x xs ih =>
    intro c w h c' y w1 hr
    unfold fitsB at h
    rw [hr] at h
    simp only [Bool.and_eq_true, decide_eq_true_eq] at h
    exact ⟨h.1.1.1, h.1.1.2, h.1.2, ih h.2⟩

example : Fits step (inOrder true [.int 2, .int 3]) (.int 1) (fillRng applying) ∧
    (pyScan step (inOrder true [.int 2, .int 3]) (.int 1) (fillRng applying)).1 = .ok (.int 6, [.int 3, .int 2]) :=
  ⟨fitsB_sound (by decide +kernel), by decide +kernel⟩

/-- Whether `init` is running. -/
def InInit (w : World) : Prop := ∃ F ∈ w.frames.head?, F.frozen = false

theorem scanTail_ok {f : Val → Val → Prog} {c : Val} {xs : List Val} {rev : Bool} {s s' : LW} {r : Val × List Val} (ht : s.loc.WF)
    (h : scanTail localMach (fun c x => (f c x).run localMach) c xs rev s = (.ok r, s')) (tl rest) :
    ∃ ys, pyScan f (inOrder rev xs) c (fillRng (toWorld s tl rest)) = (.ok (r.1, ys), toWorld s' tl rest) ∧ r.2 = inOrder rev ys := by
  rw [scanTail_eq (fun c x => grow_run (f c x)) c xs rev ht] at h
  unfold atomic M.bind at h
  have e : inOrder rev xs = if rev = true then xs.reverse else xs := rfl
  rw [← e] at h
  rcases hi : iterList (fun c x => (f c x).run localMach) (inOrder rev xs) c s.full with ⟨e | q, s1⟩ <;> rw [hi] at h <;> cases h
  exact ⟨q.2, iterList_ok tl rest _ _ _ _ _ hi, rfl⟩

/-- C25 in init the first step of the scan order runs directly (so that it may create parameters) and the loop over the remaining
elements follows; the carry, the parameters and the state are those of the loop.  Missing for the full claim: with `reverse` the output of the
first step, which belongs to the last element, is put in front of the others. -/
theorem scan_init_partial {w : World} (hw : InTransform w) (ht : Tidy w) (ha : InInit w) (f : Val → Val → Prog) (init zero : Val) (xs : List Val)
    (rev : Bool) (x0 : Val) (xs' : List Val) (hx : inOrder rev xs = x0 :: xs') (v : Val) (w' : World)
    (h : (Prog.scan f init zero xs rev).run stackMach w = (.ok v, w')) :
    ∃ c y w1 c' ys, (f init x0).run stackMach w = (.ok (.pair c y), w1) ∧
      pyScan f xs' c (if xs' = [] then w1 else fillRng w1) = (.ok (c', ys), w') ∧
      v = .pair c' (Val.ofList (y :: inOrder rev ys)) := by
  obtain ⟨F, rest, r, tl, hF, hr⟩ := hw
  have hc := toWorld_curr hF hr
  generalize curr F r w = s at hc
  subst hc
  rw [tidy_toWorld] at ht
  have hf : s.env.frozen = false := by obtain ⟨G, hG, h⟩ := ha; cases hG; exact h
  rw [(ref_run _).1] at h
  have hrun : (Prog.scan f init zero xs rev).run localMach s = scanM localMach (fun c x => (f c x).run localMach) init zero xs rev s := rfl
  have hx0 : (if rev = true then xs.getLast? else xs.head?) = some x0 := by
    cases rev
    · have : xs = x0 :: xs' := hx
      subst this; rfl
    · have : xs.reverse = x0 :: xs' := hx
      have : xs = (x0 :: xs').reverse := by rw [← this, List.reverse_reverse]
      subst this
      simp
  have hxs : inOrder rev (if rev = true then xs.dropLast else xs.tail) = xs' := by
    cases rev
    · have : xs = x0 :: xs' := hx
      subst this; rfl
    · have : xs.reverse = x0 :: xs' := hx
      have : xs = (x0 :: xs').reverse := by rw [← this, List.reverse_reverse]
      subst this
      simp [inOrder]
  unfold scanM at hrun
  rw [M.bind, top_eq] at hrun
  dsimp only [M.pure] at hrun
  rw [hf, if_neg (by simp), hx0] at hrun
  dsimp only at hrun
  rw [hrun] at h
  unfold M.bind at h
  have hg := grow_run (f init x0) s
  rcases hm : (f init x0).run localMach s with ⟨e | v1, s1⟩
  · have hm' : (f init x0).run localMach ⟨s.env, s.loc⟩ = (.error e, s1) := hm
    simp only [hm'] at h
    cases h
  · have hm' : (f init x0).run localMach ⟨s.env, s.loc⟩ = (.ok v1, s1) := hm
    rw [hm] at hg
    simp only [hm'] at h
    cases v1 with
    | pair c y =>
      dsimp only [asPair, M.pure] at h
      rw [(ref_run _).1, hm]
      generalize hys : (if rev = true then xs.dropLast else xs.tail) = ys at hxs h
      have hemp : ys.isEmpty = true ↔ xs' = [] := by
        rw [← hxs]
        cases rev <;> simp [inOrder]
      by_cases hy : ys.isEmpty = true
      · rw [if_pos hy] at h
        have hxe := hemp.1 hy
        subst hxe
        cases h
        exact ⟨c, y, _, c, [], rfl, rfl, by cases rev <;> rfl⟩
      · rw [if_neg hy] at h
        have hxe : xs' ≠ [] := fun h => hy (hemp.2 h)
        rcases hst : scanTail localMach (fun c x => (f c x).run localMach) c ys rev s1 with ⟨e | q, s2⟩ <;> rw [hst] at h
        · cases h
        · cases h
          obtain ⟨zs, h1, h2⟩ := scanTail_ok (hg.2.wf ht) hst tl rest
          rw [hxs] at h1
          refine ⟨c, y, _, q.1, zs, rfl, ?_, by rw [← h2]⟩
          rw [if_neg hxe]
          exact h1
    | _ => dsimp only [asPair, M.throw] at h; cases h

theorem busy_init : InInit busy := ⟨_, rfl, rfl⟩

example : InTransform busy ∧ Tidy busy ∧ InInit busy ∧ inOrder false [Val.int 2, .int 3] = .int 2 :: [.int 3] ∧
    ((Prog.scan step (.int 1) (.int 0) [.int 2, .int 3] false).run stackMach busy).1 = .ok (.pair (.int 6) (Val.ofList [.int 2, .int 3])) :=
  ⟨busy_in, busy_tidy, busy_init, by decide +kernel⟩

/-- C25 the outputs of a reversed scan are in the wrong positions in init: a step that returns its element as output returns the elements
in a different order than it got them (and than it returns them in apply). -/
theorem scan_init_reverse_wrong : ∃ (f : Val → Val → Prog) (init zero : Val) (xs : List Val) (w wa : World),
    InTransform w ∧ InInit w ∧ InTransform wa ∧ InApply wa ∧
    ((Prog.scan f init zero xs true).run stackMach wa).1 = .ok (.pair init (Val.ofList xs)) ∧
    ((Prog.scan f init zero xs true).run stackMach w).1 = .ok (.pair init (Val.ofList xs.reverse)) ∧ Val.ofList xs.reverse ≠ Val.ofList xs :=
  ⟨fun c x => .ret (.pair c x), .int 0, .int 0, [.int 1, .int 2], busy, applying, busy_in, busy_init, applying_in, applying_apply,
    by decide +kernel, by decide +kernel, by decide +kernel⟩

/-- C25 scanning nothing in init still runs the step once, on a made-up element: state appears that the loop would not have made. -/
theorem scan_init_empty_runs : ∃ (f : Val → Val → Prog) (init zero : Val) (w : World), InTransform w ∧ InInit w ∧
    ((Prog.scan f init zero [] false).run stackMach w).1 = .ok (.pair init (Val.ofList [])) ∧
    topState ((Prog.scan f init zero [] false).run stackMach w).2 ≠ topState w :=
  ⟨step, .int 1, .int 0, busy, busy_in, busy_init, by decide +kernel⟩

/-! ### C26: `hk.fori_loop` -/

/-- Python's `range(lower, upper)`. -/
def pyRange (lower upper : Int) : List Int := (List.range (upper - lower).toNat).map fun (k : Nat) => lower + k

/-- The Python loop `for i in is: v = body(i, v)`; after each iteration names are put back and the block of keys is refilled. -/
def pyFor (body : Int → Val → Prog) : List Int → Val → World → Except Exc Val × World
  | [], v, w => (.ok v, w)
  | i :: is, v, w =>
    match (body i v).run stackMach w with
    | (.ok v', w1) => pyFor body is v' (keepNames w (fillRng w1))
    | (.error e, w1) => (.error e, w1)

/-- Every iteration keeps the structure of the value and of the data of the frame: what `jax.lax.fori_loop` insists on. -/
def ForFits (body : Int → Val → Prog) : List Int → Val → World → Prop
  | [], _, _ => True
  | i :: is, v, w => ∀ v' w1, (body i v).run stackMach w = (.ok v', w1) →
      v'.sameStruct v = true ∧ sameShape w (fillRng w1) = true ∧ ForFits body is v' (keepNames w (fillRng w1))

theorem pyRange_succ (lo up : Int) (h : lo < up) : pyRange lo up = lo :: pyRange (lo + 1) up := by
  unfold pyRange
  have : (up - lo).toNat = (up - (lo + 1)).toNat + 1 := by omega
  rw [this, List.range_succ_eq_map]
  simp only [List.map_cons, List.map_map]
  congr 1
  · simp
  · apply List.map_congr_left
    intro k _
    simp only [Function.comp_apply, Nat.succ_eq_add_one]
    omega

theorem pyRange_empty (lo up : Int) (h : up ≤ lo) : pyRange lo up = [] := by
  unfold pyRange
  have : (up - lo).toNat = 0 := by omega
  rw [this]; rfl

theorem thenFull_ok {m : M LW Val} {v : Val} {s s1 : LW} (h : m s = (.ok v, s1)) : thenFull m s = (.ok v, s1.full) := by
  unfold thenFull M.bind
  rw [h]
  rfl

theorem thenFull_error {m : M LW Val} {e : Exc} {s s1 : LW} (h : m s = (.error e, s1)) : thenFull m s = (.error e, s1) := by
  unfold thenFull M.bind
  rw [h]

theorem iter_ok {m : M LW Val} {v v' : Val} {s s2 : LW} (h : iter m v s = (.ok v', s2)) :
    ∃ s1, m s = (.ok v', s1) ∧ s2 = s.commit s1.full ∧ v'.sameStruct v = true ∧ s1.full.ist.sameStruct s.ist = true := by
  unfold iter rescoped at h
  rcases hm : m s with ⟨e | v1, s1⟩
  · rw [thenFull_error hm] at h
    cases h
  · rw [thenFull_ok hm] at h
    dsimp only at h
    split at h
    · next hs =>
      cases h
      simp only [Bool.and_eq_true] at hs
      exact ⟨s1, rfl, rfl, hs.1, hs.2⟩
    · cases h

theorem iter_fits {m : M LW Val} {v v' : Val} {s s1 : LW} (h : m s = (.ok v', s1)) (h1 : v'.sameStruct v = true)
    (h2 : s1.full.ist.sameStruct s.ist = true) : iter m v s = (.ok v', s.commit s1.full) := by
  unfold iter rescoped
  rw [thenFull_ok h]
  dsimp only
  rw [if_pos]
  simp only [Bool.and_eq_true]
  exact ⟨h1, h2⟩

theorem iterate_ok {body : Int → Val → Prog} (tl rest) (up : Int) : ∀ n lo v s r s', n = (up - lo).toNat →
    iterate (fun i v => (body i v).run localMach) n lo v s = (.ok r, s') →
    pyFor body (pyRange lo up) v (toWorld s tl rest) = (.ok r, toWorld s' tl rest) := by
  intro n
  induction n with
  | zero => intro lo v s r s' hn h; cases h; rw [pyRange_empty lo up (by omega)]; rfl
  | succ n ih =>
    intro lo v s r s' hn h
    unfold iterate M.bind at h
    rcases hp : iter ((body lo v).run localMach) v s with ⟨e | v', s2⟩ <;> rw [hp] at h
    · cases h
    · obtain ⟨s1, hm, rfl, _⟩ := iter_ok hp
      dsimp only at h
      rw [pyRange_succ lo up (by omega)]
      unfold pyFor
      rw [(ref_run _).1, hm]
      dsimp only
      rw [fillRng_toWorld, keepNames_toWorld]
      exact ih _ _ _ _ _ (by omega) h

theorem iterate_fits {body : Int → Val → Prog} (tl rest) (up : Int) : ∀ n lo v s r w', n = (up - lo).toNat →
    ForFits body (pyRange lo up) v (toWorld s tl rest) → pyFor body (pyRange lo up) v (toWorld s tl rest) = (.ok r, w') →
    ∃ s', iterate (fun i v => (body i v).run localMach) n lo v s = (.ok r, s') ∧ w' = toWorld s' tl rest := by
  intro n
  induction n with
  | zero => intro lo v s r w' hn _ h; rw [pyRange_empty lo up (by omega)] at h; cases h; exact ⟨s, rfl, rfl⟩
  | succ n ih =>
    intro lo v s r w' hn hf h
    rw [pyRange_succ lo up (by omega)] at h hf
    unfold pyFor at h
    unfold ForFits at hf
    rw [(ref_run _).1] at h hf
    rcases hm : (body lo v).run localMach s with ⟨e | v', s1⟩ <;> rw [hm] at h hf
    · cases h
    · obtain ⟨h1, h2, h3⟩ := hf v' _ rfl
      dsimp only at h
      rw [fillRng_toWorld, keepNames_toWorld] at h h3
      obtain ⟨s', h4, h5⟩ := ih _ _ _ _ _ (by omega) h3 h
      refine ⟨s', ?_, h5⟩
      unfold iterate M.bind
      rw [iter_fits hm h1 h2]
      exact h4

theorem fori_frozen {body : Int → Val → Prog} {init : Val} {lo up : Int} {s : LW} (ht : s.loc.WF) (hf : s.env.frozen = true) :
    (Prog.fori lo up body init).run localMach s =
      atomic (iterate (fun i v => (body i v).run localMach) (up - lo).toNat lo init) s.full := by
  show foriM localMach lo up _ init s = _
  unfold foriM
  rw [M.bind, top_eq]
  dsimp only [M.pure]
  rw [hf, if_pos rfl]
  exact foriTail_eq (fun c x => grow_run (body c x)) lo up init ht

/-- C26 in apply, when `hk.fori_loop` returns, it returns the value of the Python loop over `range(lower, upper)` and leaves the data of
that loop. -/
theorem fori_apply {w : World} (hw : InTransform w) (ht : Tidy w) (ha : InApply w) (body : Int → Val → Prog) (lo up : Int) (init v : Val)
    (w' : World) (h : (Prog.fori lo up body init).run stackMach w = (.ok v, w')) :
    pyFor body (pyRange lo up) init (fillRng w) = (.ok v, w') := by
  obtain ⟨F, rest, r, tl, hF, hr⟩ := hw
  have hc := toWorld_curr hF hr
  generalize curr F r w = s at hc
  subst hc
  rw [tidy_toWorld] at ht
  have hf : s.env.frozen = true := by obtain ⟨G, hG, h⟩ := ha; cases hG; exact h
  rw [(ref_run _).1, fori_frozen ht hf] at h
  unfold atomic at h
  rcases hi : iterate (fun i v => (body i v).run localMach) (up - lo).toNat lo init s.full with ⟨e | q, s1⟩ <;> rw [hi] at h <;> cases h
  exact iterate_ok tl rest up _ _ _ _ _ _ rfl hi

/-- C26 conversely, in apply `hk.fori_loop` returns whenever the Python loop does and every iteration keeps the structure. -/
theorem fori_apply_returns {w : World} (hw : InTransform w) (ht : Tidy w) (ha : InApply w) (body : Int → Val → Prog) (lo up : Int) (init v : Val)
    (w' : World) (h : pyFor body (pyRange lo up) init (fillRng w) = (.ok v, w')) (hfit : ForFits body (pyRange lo up) init (fillRng w)) :
    (Prog.fori lo up body init).run stackMach w = (.ok v, w') := by
  obtain ⟨F, rest, r, tl, hF, hr⟩ := hw
  have hc := toWorld_curr hF hr
  generalize curr F r w = s at hc
  subst hc
  rw [tidy_toWorld] at ht
  have hf : s.env.frozen = true := by obtain ⟨G, hG, h⟩ := ha; cases hG; exact h
  rw [(ref_run _).1, fori_frozen ht hf]
  rw [fillRng_toWorld] at h hfit
  obtain ⟨s', h1, rfl⟩ := iterate_fits tl rest up _ _ _ _ _ _ rfl hfit h
  unfold atomic
  rw [h1]

/-- C23 in apply, when `hk.fori_loop` raises, the frame is as it was (with a full block of keys). -/
theorem fori_atomic {w : World} (hw : InTransform w) (ht : Tidy w) (ha : InApply w) (body : Int → Val → Prog) (lo up : Int) (init : Val) (e : Exc)
    (w' : World) (h : (Prog.fori lo up body init).run stackMach w = (.error e, w')) : ∃ w1, w' = undo (fillRng w) w1 := by
  obtain ⟨F, rest, r, tl, hF, hr⟩ := hw
  have hc := toWorld_curr hF hr
  generalize curr F r w = s at hc
  subst hc
  rw [tidy_toWorld] at ht
  have hf : s.env.frozen = true := by obtain ⟨G, hG, h⟩ := ha; cases hG; exact h
  rw [(ref_run _).1, fori_frozen ht hf] at h
  unfold atomic at h
  rcases hi : iterate (fun i v => (body i v).run localMach) (up - lo).toNat lo init s.full with ⟨e | q, s1⟩ <;> rw [hi] at h <;> cases h
  exact ⟨toWorld s1 tl rest, rfl⟩

/-- C26 in init, for a non-empty range, the first iteration runs directly (so that it may create parameters) and the loop over the rest
of the range follows. Missing for the full claim: an empty range (see `fori_init_empty_runs`). -/
theorem fori_init_partial {w : World} (hw : InTransform w) (ht : Tidy w) (ha : InInit w) (body : Int → Val → Prog) (lo up : Int) (hlt : lo < up)
    (init v : Val) (w' : World) (h : (Prog.fori lo up body init).run stackMach w = (.ok v, w')) :
    ∃ v1 w1, (body lo init).run stackMach w = (.ok v1, w1) ∧
      pyFor body (pyRange (lo + 1) up) v1 (if up = lo + 1 then w1 else fillRng w1) = (.ok v, w') := by
  obtain ⟨F, rest, r, tl, hF, hr⟩ := hw
  have hc := toWorld_curr hF hr
  generalize curr F r w = s at hc
  subst hc
  rw [tidy_toWorld] at ht
  have hf : s.env.frozen = false := by obtain ⟨G, hG, h⟩ := ha; cases hG; exact h
  rw [(ref_run _).1] at h
  have hrun : (Prog.fori lo up body init).run localMach s = foriM localMach lo up (fun c x => (body c x).run localMach) init s := rfl
  unfold foriM at hrun
  rw [M.bind, top_eq] at hrun
  dsimp only [M.pure] at hrun
  rw [hf, if_neg (by simp)] at hrun
  rw [hrun] at h
  unfold M.bind at h
  have hg := grow_run (body lo init) s
  rcases hm : (body lo init).run localMach s with ⟨e | v1, s1⟩
  · have hm' : (body lo init).run localMach ⟨s.env, s.loc⟩ = (.error e, s1) := hm
    simp only [hm'] at h
    cases h
  · have hm' : (body lo init).run localMach ⟨s.env, s.loc⟩ = (.ok v1, s1) := hm
    rw [hm] at hg
    simp only [hm'] at h
    rw [(ref_run _).1, hm]
    by_cases hup : up - (lo + 1) = 0
    · rw [if_pos hup] at h
      cases h
      refine ⟨v, _, rfl, ?_⟩
      rw [pyRange_empty _ _ (by omega), if_pos (by omega)]
      rfl
    · rw [if_neg hup, foriTail_eq (fun c x => grow_run (body c x)) _ _ _ (hg.2.wf ht)] at h
      unfold atomic at h
      rcases hi : iterate (fun i v => (body i v).run localMach) (up - (lo + 1)).toNat (lo + 1) v1 s1.full with ⟨e | q, s2⟩ <;>
        rw [hi] at h <;> cases h
      refine ⟨v1, _, rfl, ?_⟩
      rw [if_neg (by omega)]
      exact iterate_ok tl rest up _ _ _ _ _ _ rfl hi

/-- Puts the value into the state and adds the index. -/
def addIndex (i : Int) (v : Val) : Prog :=
  match v with
  | .int v => .bind (.op (.setState "s".toList ⟨[], .f32, [v]⟩)) fun _ => .ret (.int (v + i))
  | _ => .raise .indexError

example : InTransform applying ∧ Tidy applying ∧ InApply applying ∧
    ((Prog.fori 3 6 addIndex (.int 1)).run stackMach applying).1 = .ok (.int 13) ∧
    topState ((Prog.fori 3 6 addIndex (.int 1)).run stackMach applying).2 = [("~".toList, [("s".toList, ⟨[], .f32, [8]⟩)])] ∧
    ((Prog.fori 3 6 addIndex (.int 1)).run stackMach busy).1 = .ok (.int 13) ∧
    ((Prog.fori 3 6 addIndex .unit).run stackMach applying).1 = .error .indexError :=
  ⟨applying_in, applying_tidy, applying_apply, by decide +kernel⟩

/-- `ForFits`, computed; only used to check the example below. -/
def forFitsB (body : Int → Val → Prog) : List Int → Val → World → Bool
  | [], _, _ => true
  | i :: is, v, w =>
    match (body i v).run stackMach w with
    | (.ok v', w1) => v'.sameStruct v && sameShape w (fillRng w1) && forFitsB body is v' (keepNames w (fillRng w1))
    | _ => true

theorem forFitsB_sound {body : Int → Val → Prog} : ∀ {is v w}, forFitsB body is v w = true → ForFits body is v w := by
  intro is
  induction is with
  | nil => intro _ _ _; trivial
  | cons i is ih =>
    intro v w h v' w1 hr
    unfold forFitsB at h
    rw [hr] at h
    simp only [Bool.and_eq_true] at h
    exact ⟨h.1.1, h.1.2, ih h.2⟩

example : ForFits addIndex (pyRange 3 6) (.int 1) (fillRng applying) ∧
    (pyFor addIndex (pyRange 3 6) (.int 1) (fillRng applying)).1 = .ok (.int 13) :=
  ⟨forFitsB_sound (by decide +kernel), by decide +kernel⟩

/-- C26 in init an empty range still runs the body once, and its value is returned. -/
theorem fori_init_empty_runs : ∃ (body : Int → Val → Prog) (init : Val) (w : World), InTransform w ∧ InInit w ∧
    pyRange 5 5 = [] ∧ ∃ v, ((Prog.fori 5 5 body init).run stackMach w).1 = .ok v ∧ v ≠ init :=
  ⟨addIndex, .int 1, busy, busy_in, busy_init, rfl, .int 6, by decide +kernel⟩

/-! ### C29: `hk.vmap` -/

/-- The data of the current frame: parameters, state and rng. -/
def stored (w : World) : Option IState := (data w).map fun d => { d with trace := [] }

/-- `vs` are what `f` returns on `as`, one by one and each time from `w`, and every time the data afterwards is that of `w0`. -/
inductive Each (f : Val → Prog) (w w0 : World) : List Val → List Val → Prop where
  | nil : Each f w w0 [] []
  | cons {a r as rs w1} : (f a).run stackMach w = (.ok r, w1) → stored w1 = stored w0 → Each f w w0 as rs → Each f w w0 (a :: as) (r :: rs)

theorem stored_toWorld (s : LW) (tl rest) : stored (toWorld s tl rest) = some s.ist.noTrace := rfl

theorem collect_ok {f : Val → Prog} (tl rest) {s s0 : LW} : ∀ {xs vs}, collect s0.ist s (fun v => (f v).run localMach) xs = .ok vs ↔
    Each f (toWorld s tl rest) (toWorld s0 tl rest) xs vs := by
  intro xs
  induction xs with
  | nil =>
    intro vs
    constructor
    · intro h; cases h; exact .nil
    · intro h; cases h; rfl
  | cons x xs ih =>
    intro vs
    unfold collect
    constructor
    · intro h
      rcases hm : (f x).run localMach s with ⟨e | v, s1⟩ <;> rw [hm] at h
      · cases h
      · dsimp only at h
        split at h
        · next he =>
          split at h
          · cases h
          · next vs' hv =>
            cases h
            refine .cons (w1 := toWorld s1 tl rest) ?_ ?_ (ih.1 hv)
            · rw [(ref_run _).1, hm]
            · rw [stored_toWorld, stored_toWorld, he]
        · cases h
    · intro h
      cases h with
      | cons h1 h2 h3 =>
        rw [(ref_run _).1] at h1
        rcases hm : (f x).run localMach s with ⟨e | v, s1⟩ <;> rw [hm] at h1 <;> cases h1
        rw [stored_toWorld, stored_toWorld] at h2
        dsimp only
        rw [if_pos (Option.some.inj h2), ih.2 h3]

theorem collect_error {f : Val → M LW Val} {st : IState} {s s' : LW} {e : Exc} : ∀ {xs}, collect st s f xs = .error (e, s') →
    ∃ s1, s' = s.back s1 := by
  intro xs
  induction xs with
  | nil => intro h; cases h
  | cons x xs ih =>
    intro h
    unfold collect at h
    rcases hm : f x s with ⟨e | v, s1⟩ <;> rw [hm] at h
    · cases h; exact ⟨s1, rfl⟩
    · dsimp only at h
      split at h
      · split at h
        · next hq => cases h; exact ih hq
        · cases h
      · cases h; exact ⟨s1, rfl⟩

/-- C29 `hk.vmap(f)` returns exactly when `f` returns on every element, run on its own from the incoming data, and all these runs leave
the same data. The outputs are those of the runs and the data afterwards is the data they agree on. -/
theorem vmap_elementwise {w : World} (hw : InTransform w) (ht : Tidy w) (f : Val → Prog) (x : Val) (xs : List Val) (v : Val) (w' : World) :
    (Prog.vmap f x xs).run stackMach w = (.ok v, w') ↔
      ∃ r0 w0 rs, (f x).run stackMach w = (.ok r0, w0) ∧ Each f w w0 xs rs ∧ v = Val.ofList (r0 :: rs) ∧ w' = keepNames w w0 := by
  obtain ⟨F, rest, r, tl, hF, hr⟩ := hw
  have hc := toWorld_curr hF hr
  generalize curr F r w = s at hc
  subst hc
  rw [tidy_toWorld] at ht
  have e' : (Prog.vmap f x xs).run localMach s = vmapM localMach (fun v => (f v).run localMach) x xs s := rfl
  rw [(ref_run _).1, (ref_run _).1, e', vmapM_eq (fun v => grow_run (f v)) x xs ht]
  rcases hm : (f x).run localMach s with ⟨e | v0, s1⟩
  · dsimp only
    constructor
    · intro h; cases h
    · rintro ⟨_, _, _, h, _⟩; cases h
  · dsimp only
    constructor
    · intro h
      rcases hq : collect s1.ist s (fun v => (f v).run localMach) xs with ⟨e, s'⟩ | vs <;> rw [hq] at h <;> cases h
      exact ⟨v0, _, vs, rfl, (collect_ok tl rest).1 hq, rfl, rfl⟩
    · rintro ⟨r0, w0, rs, h, he, rfl, rfl⟩
      cases h
      rw [(collect_ok tl rest).2 he]
      rfl

/-- C23 when `hk.vmap` raises, the frame is as it was. -/
theorem vmap_atomic {w : World} (hw : InTransform w) (ht : Tidy w) (f : Val → Prog) (x : Val) (xs : List Val) (e : Exc) (w' : World)
    (h : (Prog.vmap f x xs).run stackMach w = (.error e, w')) : ∃ w1, w' = undo w w1 := by
  obtain ⟨F, rest, r, tl, hF, hr⟩ := hw
  have hc := toWorld_curr hF hr
  generalize curr F r w = s at hc
  subst hc
  rw [tidy_toWorld] at ht
  have e' : (Prog.vmap f x xs).run localMach s = vmapM localMach (fun v => (f v).run localMach) x xs s := rfl
  rw [(ref_run _).1, e', vmapM_eq (fun v => grow_run (f v)) x xs ht] at h
  rcases hm : (f x).run localMach s with ⟨e | v0, s1⟩ <;> rw [hm] at h
  · cases h; exact ⟨toWorld s1 tl rest, rfl⟩
  · dsimp only at h
    rcases hq : collect s1.ist s (fun v => (f v).run localMach) xs with ⟨e, s'⟩ | vs <;> rw [hq] at h <;> cases h
    obtain ⟨s2, rfl⟩ := collect_error hq
    exact ⟨toWorld s2 tl rest, rfl⟩

/-- Sets the state to 4, draws a key and gives the element back; raises on anything but an int. -/
def shared (v : Val) : Prog :=
  match v with
  | .int v => .bind (.op (.setState "s".toList ⟨[], .f32, [4]⟩)) fun _ => .bind (.op .nextKey) fun _ => .ret (.int v)
  | _ => .raise .indexError

/-- Stores the element: the state would depend on the batch. -/
def unshared (v : Val) : Prog :=
  match v with
  | .int v => .bind (.op (.setState "s".toList ⟨[], .f32, [v]⟩)) fun _ => .ret (.int v)
  | _ => .raise .indexError

example : InTransform applying ∧ Tidy applying ∧
    ((Prog.vmap shared (.int 1) [.int 2, .int 3]).run stackMach applying).1 = .ok (Val.ofList [.int 1, .int 2, .int 3]) ∧
    topState ((Prog.vmap shared (.int 1) [.int 2, .int 3]).run stackMach applying).2 = [("~".toList, [("s".toList, ⟨[], .f32, [4]⟩)])] ∧
    ((Prog.vmap unshared (.int 1) [.int 2]).run stackMach applying).1 = .error .structureMismatch ∧
    ((Prog.vmap shared (.int 1) [.unit]).run stackMach applying).1 = .error .indexError :=
  ⟨applying_in, applying_tidy, by decide +kernel⟩

/-! ### C27: `hk.while_loop` -/

/-- The Python loop `while c(v): v = body(v)`, every iteration of which keeps the structure of the value and of the data (what
`jax.lax.while_loop` insists on); names are put back after each iteration. `PyWhile c body v w r w'`: from `v` in `w` it ends with `r` in `w'`. -/
inductive PyWhile (c body : Val → Prog) : Val → World → Val → World → Prop where
  | stop {v w w1} : (c v).run stackMach w = (.ok (.bool false), w1) → PyWhile c body v w v w1
  | go {v w w1 v' w2 r w'} : (c v).run stackMach w = (.ok (.bool true), w1) → (body v).run stackMach w1 = (.ok v', w2) →
      v'.sameStruct v = true → sameShape w1 w2 = true → PyWhile c body v' (keepNames w1 w2) r w' → PyWhile c body v w r w'

/-- The condition is a function of the loop value: it reads and changes nothing. -/
def PureCond (c : Val → Prog) (p : Val → Bool) : Prop :=
  ∀ v w, InTransform w → (c v).run stackMach w = (.ok (.bool (p v)), w)

theorem toWorld_inj {s s1 : LW} {tl rest} (h : toWorld s tl rest = toWorld s1 tl rest) : s = s1 := by
  obtain ⟨⟨f, m, hk, nc⟩, p, st, r, sc, hp, lg, tr⟩ := s
  obtain ⟨⟨f1, m1, hk1, nc1⟩, p1, st1, r1, sc1, hp1, lg1, tr1⟩ := s1
  simp only [toWorld, World.mk.injEq, List.cons.injEq, FrameS.mk.injEq, and_true] at h
  obtain ⟨⟨rfl, rfl, rfl, rfl, rfl, rfl, rfl⟩, rfl, rfl, rfl, rfl⟩ := h
  rfl

theorem toWorld_in (s : LW) (tl rest) : InTransform (toWorld s tl rest) := ⟨_, _, _, _, rfl, rfl⟩

theorem PureCond.loc {c : Val → Prog} {p : Val → Bool} (h : PureCond c p) (v : Val) (s : LW) :
    (c v).run localMach s = (.ok (.bool (p v)), s) := by
  have := h v _ (toWorld_in s [] [])
  rw [(ref_run _).1] at this
  rcases hm : (c v).run localMach s with ⟨o, s1⟩
  rw [hm] at this
  simp only [Prod.mk.injEq] at this
  rw [this.1, toWorld_inj this.2]

theorem stateChanged_self (l : Loc) : stateChanged l l = false := by
  simp [stateChanged]

theorem PureCond.whileCond {c : Val → Prog} {p : Val → Bool} (h : PureCond c p) (v : Val) (s : LW) :
    whileCond localMach (fun v => (c v).run localMach) v s = (.ok (p v), s) := by
  unfold Verif.whileCond
  rw [M.bind, top_eq]
  dsimp only [M.get]
  rw [M.bind, h.loc v]
  dsimp only
  rw [M.bind, top_eq]
  dsimp only [M.get]
  rw [stateChanged_self]
  rfl

theorem iterW_ok {m : M LW Val} {v v' : Val} {s s2 : LW} : iterW m v s = (.ok v', s2) ↔
    ∃ s1, m s = (.ok v', s1) ∧ s2 = s.commit s1 ∧ v'.sameStruct v = true ∧ s1.ist.sameStruct s.ist = true := by
  unfold iterW rescoped
  rcases hm : m s with ⟨e | v1, s1⟩
  · dsimp only
    constructor
    · intro h; cases h
    · rintro ⟨_, h, _⟩; cases h
  · dsimp only
    constructor
    · intro h
      split at h
      · next hs =>
        cases h
        simp only [Bool.and_eq_true] at hs
        exact ⟨s1, rfl, rfl, hs.1, hs.2⟩
      · cases h
    · rintro ⟨s3, h, rfl, h1, h2⟩
      cases h
      rw [if_pos]
      simp only [Bool.and_eq_true]
      exact ⟨h1, h2⟩

theorem iterWhile_ok {c body : Val → Prog} {p : Val → Bool} (hp : PureCond c p) (o S : LW) (tl rest) : ∀ n v s r s',
    iterWhile (fun v => whileCond localMach (fun v => (c v).run localMach) v S) (fun v => (body v).run localMach) o n v s = (.ok r, s') →
    PyWhile c body v (toWorld s tl rest) r (toWorld s' tl rest) := by
  intro n
  induction n with
  | zero => intro v s r s' h; cases h
  | succ n ih =>
    intro v s r s' h
    unfold iterWhile at h
    rw [hp.whileCond] at h
    have hcv : (c v).run stackMach (toWorld s tl rest) = (.ok (.bool (p v)), toWorld s tl rest) := hp v _ (toWorld_in s tl rest)
    cases hb : p v with
    | false =>
      rw [hb] at h hcv
      cases h
      exact .stop hcv
    | true =>
      rw [hb] at h hcv
      dsimp only at h
      rcases hm : iterW ((body v).run localMach) v s with ⟨e | v', s2⟩ <;> rw [hm] at h
      · cases h
      · obtain ⟨s1, h1, rfl, h2, h3⟩ := iterW_ok.1 hm
        refine .go (w2 := toWorld s1 tl rest) hcv ?_ h2 h3 (ih _ _ _ _ h)
        rw [(ref_run _).1, h1]

theorem pyWhile_iter {c body : Val → Prog} {p : Val → Bool} (hp : PureCond c p) (o S : LW) (tl rest) {v w r w'}
    (h : PyWhile c body v w r w') : ∀ s, w = toWorld s tl rest → ∃ n s', w' = toWorld s' tl rest ∧
    iterWhile (fun v => whileCond localMach (fun v => (c v).run localMach) v S) (fun v => (body v).run localMach) o n v s = (.ok r, s') := by
  induction h with
  | @stop v w w1 h =>
    rintro s rfl
    rw [hp v _ (toWorld_in s tl rest)] at h
    simp only [Prod.mk.injEq, Except.ok.injEq, Val.bool.injEq] at h
    refine ⟨1, s, h.2.symm, ?_⟩
    unfold iterWhile
    rw [hp.whileCond, h.1]
  | @go v w w1 v' w2 r w' h h1 h2 h3 _ ih =>
    rintro s rfl
    rw [hp v _ (toWorld_in s tl rest)] at h
    simp only [Prod.mk.injEq, Except.ok.injEq, Val.bool.injEq] at h
    obtain ⟨hb, rfl⟩ := h
    rw [(ref_run _).1] at h1
    rcases hm : (body v).run localMach s with ⟨e | v1, s1⟩ <;> rw [hm] at h1 <;> cases h1
    obtain ⟨n, s', h4, h5⟩ := ih (s.commit s1) rfl
    refine ⟨n + 1, s', h4, ?_⟩
    unfold iterWhile
    rw [hp.whileCond, hb]
    dsimp only
    rw [iterW_ok.2 ⟨s1, hm, rfl, h2, h3⟩]
    exact h5

theorem commit_self {s s2 : LW} (he : s2.env = s.env) (hs : s2.loc.scopes = s.loc.scopes) : s.commit s2 = s2 := by
  obtain ⟨E, l⟩ := s2
  dsimp only at he hs
  subst he
  obtain ⟨p, st, r, sc, h, lg, tr⟩ := l
  dsimp only at hs
  subst hs
  rfl

theorem while_frozen {c body : Val → Prog} {p : Val → Bool} (hp : PureCond c p) (fuel : Nat) (init : Val) {s : LW} (ht : s.loc.WF)
    (hf : s.env.frozen = true) : (Prog.whileLoop fuel c body init).run localMach s =
      iterWhile (fun v => whileCond localMach (fun v => (c v).run localMach) v s) (fun v => (body v).run localMach) s fuel init s := by
  have e' : (Prog.whileLoop fuel c body init).run localMach s =
    whileM localMach fuel (fun v => (c v).run localMach) (fun v => (body v).run localMach) init s := rfl
  rw [e', whileM_eq (fun v => grow_run (c v)) (fun v => grow_run (body v)), hf, if_pos rfl, hp.whileCond]
  dsimp only
  have hl := (whileLoopM_eq (S := s) (o := s) (c := whileCond localMach (fun v => (c v).run localMach))
    (fun v => grow_run (body v)) fuel init s rfl rfl (GrowL.preord.refl s)).2
  show (match iterWhile _ _ s fuel init s with | (.ok v, s2) => (Except.ok v, s.whileEnd s2) | (.error e, s2) => (.error e, s2)) = _
  rcases hi : iterWhile (fun v => whileCond localMach (fun v => (c v).run localMach) v s) (fun v => (body v).run localMach) s fuel init s with ⟨e | v, s2⟩
  · rfl
  · obtain ⟨hg, he, hs⟩ := hl v s2 hi
    dsimp only
    unfold LW.whileEnd
    rw [update_full ht hg, commit_self he hs]

/-- C27 in apply, for conditions that only look at the loop value, `hk.while_loop` returns exactly what the Python loop returns and leaves
the data of that loop, provided the iterations keep the structure. Missing for the full claim: conditions that read state
(see `while_stale_condition`) or consume keys (see `while_condition_key_reused`). -/
theorem while_apply_partial {w : World} (hw : InTransform w) (ht : Tidy w) (ha : InApply w) (c body : Val → Prog) (p : Val → Bool)
    (hp : PureCond c p) (init v : Val) (w' : World) :
    (∃ fuel, (Prog.whileLoop fuel c body init).run stackMach w = (.ok v, w')) ↔ PyWhile c body init w v w' := by
  obtain ⟨F, rest, r, tl, hF, hr⟩ := hw
  have hc := toWorld_curr hF hr
  generalize curr F r w = s at hc
  subst hc
  rw [tidy_toWorld] at ht
  have hf : s.env.frozen = true := by obtain ⟨G, hG, h⟩ := ha; cases hG; exact h
  constructor
  · rintro ⟨fuel, h⟩
    rw [(ref_run _).1, while_frozen hp fuel init ht hf] at h
    rcases hi : iterWhile (fun v => whileCond localMach (fun v => (c v).run localMach) v s) (fun v => (body v).run localMach) s fuel init s with ⟨e | q, s1⟩ <;>
      rw [hi] at h <;> cases h
    exact iterWhile_ok hp s s tl rest _ _ _ _ _ hi
  · intro h
    obtain ⟨n, s', rfl, h1⟩ := pyWhile_iter hp s s tl rest h s rfl
    exact ⟨n, by rw [(ref_run _).1, while_frozen hp n init ht hf, h1]⟩

/-- C27 in init `hk.while_loop` raises and changes nothing. -/
theorem while_init_raises {w : World} (hw : InTransform w) (ha : InInit w) (fuel : Nat) (c body : Val → Prog) (init : Val) :
    (Prog.whileLoop fuel c body init).run stackMach w = (.error .whileInInit, w) := by
  obtain ⟨F, rest, r, tl, hF, hr⟩ := hw
  have hc := toWorld_curr hF hr
  generalize curr F r w = s at hc
  subst hc
  have hf : s.env.frozen = false := by obtain ⟨G, hG, h⟩ := ha; cases hG; exact h
  have e' : (Prog.whileLoop fuel c body init).run localMach s =
    whileM localMach fuel (fun v => (c v).run localMach) (fun v => (body v).run localMach) init s := rfl
  rw [(ref_run _).1, e', whileM_eq (fun v => grow_run (c v)) (fun v => grow_run (body v)), hf]
  rfl

/-- Number of parameters and states stored so far in the current frame. -/
def stores (w : World) : Nat := (w.frames.head?.map fun F => storesIn F.trace).getD 0

/-- The key and the reserved keys of the sequence in force. -/
def heldKeys (w : World) : List Key := (w.frames.head?.map fun F => rngIds (F.rngStack.headD none)).getD []

/-- C27 a condition that stores a parameter or state, or that makes the sequence hold a new key, is rejected. -/
theorem while_rejects {w : World} (hw : InTransform w) (ha : InApply w) (fuel : Nat) (c body : Val → Prog) (init v : Val) (w1 : World)
    (h : (c init).run stackMach w = (.ok v, w1)) (hch : stores w1 ≠ stores w ∨ ∃ k ∈ heldKeys w1, k ∉ heldKeys w) :
    ((Prog.whileLoop fuel c body init).run stackMach w).1 = .error .stateChanged := by
  obtain ⟨F, rest, r, tl, hF, hr⟩ := hw
  have hc := toWorld_curr hF hr
  generalize curr F r w = s at hc
  subst hc
  have hf : s.env.frozen = true := by obtain ⟨G, hG, h⟩ := ha; cases hG; exact h
  have e' : (Prog.whileLoop fuel c body init).run localMach s =
    whileM localMach fuel (fun v => (c v).run localMach) (fun v => (body v).run localMach) init s := rfl
  rw [(ref_run _).1, e', whileM_eq (fun v => grow_run (c v)) (fun v => grow_run (body v)), hf, if_pos rfl]
  rw [(ref_run _).1] at h
  rcases hm : (c init).run localMach s with ⟨e | v1, s1⟩ <;> rw [hm] at h <;> cases h
  have hs : stateChanged s.loc s1.loc = true := by
    unfold stateChanged
    rcases hch with hch | ⟨k, h1, h2⟩
    · have : storesIn s1.loc.trace ≠ storesIn s.loc.trace := hch
      simp [this]
    · have h1 : k ∈ rngIds s1.loc.rng := h1
      have h2 : k ∉ rngIds s.loc.rng := h2
      rw [Bool.or_eq_true]
      right
      rw [List.any_eq_true]
      exact ⟨k, h1, by simpa using h2⟩
  have hcond : whileCond localMach (fun v => (c v).run localMach) init s = (.error .stateChanged, s1) := by
    unfold Verif.whileCond
    rw [M.bind, top_eq]
    dsimp only [M.get]
    rw [M.bind, hm]
    dsimp only
    rw [M.bind, top_eq]
    dsimp only [M.get]
    rw [hs]
    rfl
  rw [hcond]

/-- `v < n`. -/
def below (n : Int) (v : Val) : Prog :=
  match v with
  | .int v => .ret (.bool (decide (v < n)))
  | _ => .ret (.bool false)

theorem below_pure (n : Int) : PureCond (below n) (fun v => match v with | .int v => decide (v < n) | _ => false) := by
  intro v w _
  cases v <;> rfl

example : InTransform applying ∧ Tidy applying ∧ InApply applying ∧
    ((Prog.whileLoop 9 (below 3) (addIndex 1) (.int 0)).run stackMach applying).1 = .ok (.int 3) ∧
    topState ((Prog.whileLoop 9 (below 3) (addIndex 1) (.int 0)).run stackMach applying).2 = [("~".toList, [("s".toList, ⟨[], .f32, [2]⟩)])] :=
  ⟨applying_in, applying_tidy, applying_apply, by decide +kernel⟩

example : InTransform busy ∧ InInit busy := ⟨busy_in, busy_init⟩

example : ((addIndex 1 (.int 0)).run stackMach applying).1 = .ok (.int 1) ∧
    stores ((addIndex 1 (.int 0)).run stackMach applying).2 ≠ stores applying ∧
    (∃ k ∈ heldKeys ((Prog.op .nextKey).run stackMach applying).2, k ∉ heldKeys applying) := by decide +kernel

/-- Whether the value is below 5 and the state is 0. -/
def peek (v : Val) : Prog := .bind (.op (.getState "s".toList none none none)) fun a =>
  match v, a with
  | .int v, .arr a => .ret (.bool (decide (v < 5) && decide (a.data = [0])))
  | _, _ => .raise .indexError

/-- Sets the state to 1 and adds 1. -/
def raiseFlag (v : Val) : Prog :=
  match v with
  | .int v => .bind (.op (.setState "s".toList ⟨[], .f32, [1]⟩)) fun _ => .ret (.int (v + 1))
  | _ => .raise .indexError

/-- The Python loop, run for at most `n` iterations. -/
def pyWhile (c body : Val → Prog) : Nat → Val → Prog
  | 0, _ => .raise .outOfFuel
  | n + 1, v => .bind (c v) fun b => match b with
    | .bool true => .bind (body v) (pyWhile c body n)
    | _ => .ret v

/-- C27 a condition that reads state sees the state before the loop in every iteration: the Python loop stops after one iteration,
`hk.while_loop` runs five. -/
theorem while_stale_condition : ∃ (c body : Val → Prog) (init : Val) (w : World), InTransform w ∧ InApply w ∧
    ((pyWhile c body 9 init).run stackMach w).1 = .ok (.int 1) ∧
    ((Prog.whileLoop 9 c body init).run stackMach w).1 = .ok (.int 5) :=
  ⟨peek, raiseFlag, .int 0, applying, applying_in, applying_apply, by decide +kernel⟩

/-- Draws a key, then `v < 1`. -/
def keyCond (v : Val) : Prog := .bind (.op .nextKey) fun _ => below 1 v

/-- Draws a key, reserves another one, adds 1. -/
def keyBody (v : Val) : Prog :=
  match v with
  | .int v => .bind (.op .nextKey) fun _ => .bind (.op (.reserve 1)) fun _ => .ret (.int (v + 1))
  | _ => .raise .indexError

/-- C27 a condition that consumes a reserved key is not rejected, and the body is handed the same key again. -/
theorem while_condition_key_reused : ∃ (c body : Val → Prog) (init : Val) (w : World), InTransform w ∧ InApply w ∧ w.log = [] ∧
    ((Prog.bind (.op (.reserve 3)) fun _ => .whileLoop 9 c body init).run stackMach w).1 = .ok (.int 1) ∧
    ¬ ((Prog.bind (.op (.reserve 3)) fun _ => .whileLoop 9 c body init).run stackMach w).2.log.Nodup :=
  ⟨keyCond, keyBody, .int 0, applying, applying_in, applying_apply, by decide +kernel⟩

/-! ### C23 for while loops, and for loops in init -/

/-- Every exception a while loop ends with: a condition raised, or the frame is the one after the first evaluation of the condition. -/
theorem iterWhile_error {c : Val → Except Exc Bool × LW} {body : Val → M LW Val} {o : LW} : ∀ n v s e s',
    iterWhile c body o n v s = (.error e, s') → (∃ v, c v = (.error e, s')) ∨ ∃ s1, s' = o.back s1 := by
  intro n
  induction n with
  | zero => intro v s e s' h; cases h; exact .inr ⟨s, rfl⟩
  | succ n ih =>
    intro v s e s' h
    unfold iterWhile at h
    rcases hc : c v with ⟨e1 | b, s1⟩ <;> rw [hc] at h
    · cases h; exact .inl ⟨v, hc⟩
    · cases b with
      | false => cases h
      | true =>
        dsimp only at h
        rcases hm : iterW (body v) v s with ⟨e1 | v', s2⟩ <;> rw [hm] at h
        · cases h; exact .inr ⟨s2, rfl⟩
        · exact ih _ _ _ _ h

theorem whileCond_state {c : Val → Prog} {v : Val} {s : LW} {tl rest} :
    ∃ o, (c v).run stackMach (toWorld s tl rest) =
      (o, toWorld (whileCond localMach (fun v => (c v).run localMach) v s).2 tl rest) := by
  refine ⟨((c v).run localMach s).1, ?_⟩
  rw [(ref_run _).1]
  congr 2
  unfold Verif.whileCond
  rw [M.bind, top_eq]
  dsimp only [M.get]
  unfold M.bind
  rcases hm : (c v).run localMach s with ⟨e | r, s1⟩
  · have hm' : (c v).run localMach ⟨s.env, s.loc⟩ = (.error e, s1) := hm
    simp only [hm']
  · have hm' : (c v).run localMach ⟨s.env, s.loc⟩ = (.ok r, s1) := hm
    simp only [hm', top_eq, M.get]
    split
    · rfl
    · cases r <;> rfl

/-- C23 in apply, when `hk.while_loop` raises, either it was because of the condition, which runs in the enclosing function, or the frame
is as it was after the condition was first evaluated: nothing the body did is left. -/
theorem while_atomic {w : World} (hw : InTransform w) (ha : InApply w) (fuel : Nat) (c body : Val → Prog) (init : Val) (e : Exc)
    (w' : World) (h : (Prog.whileLoop fuel c body init).run stackMach w = (.error e, w')) :
    (∃ v o, (c v).run stackMach w = (o, w')) ∨ ∃ o w1 w2, (c init).run stackMach w = (o, w1) ∧ w' = undo w1 w2 := by
  obtain ⟨F, rest, r, tl, hF, hr⟩ := hw
  have hc := toWorld_curr hF hr
  generalize curr F r w = s at hc
  subst hc
  have hf : s.env.frozen = true := by obtain ⟨G, hG, h⟩ := ha; cases hG; exact h
  have e' : (Prog.whileLoop fuel c body init).run localMach s =
    whileM localMach fuel (fun v => (c v).run localMach) (fun v => (body v).run localMach) init s := rfl
  rw [(ref_run _).1, e', whileM_eq (fun v => grow_run (c v)) (fun v => grow_run (body v)), hf, if_pos rfl] at h
  obtain ⟨o, ho⟩ := whileCond_state (c := c) (v := init) (s := s) (tl := tl) (rest := rest)
  rcases hcd : whileCond localMach (fun v => (c v).run localMach) init s with ⟨e1 | b, s1⟩ <;> rw [hcd] at h ho
  · cases h; exact .inl ⟨init, o, ho⟩
  · dsimp only at h
    generalize hs0 : ({ s with loc := { s.loc with scopes := s1.loc.scopes, heap := s1.loc.heap, log := s1.loc.log } } : LW) = s0 at h
    rcases hi : iterWhile (fun v => whileCond localMach (fun v => (c v).run localMach) v s) (fun v => (body v).run localMach) s1 fuel init s0
      with ⟨e1 | q, s2⟩ <;> rw [hi] at h <;> cases h
    rcases iterWhile_error _ _ _ _ _ hi with ⟨v, hv⟩ | ⟨s3, rfl⟩
    · obtain ⟨o, ho⟩ := whileCond_state (c := c) (v := v) (s := s) (tl := tl) (rest := rest)
      rw [hv] at ho
      exact .inl ⟨v, o, ho⟩
    · exact .inr ⟨o, _, toWorld s3 tl rest, ho, rfl⟩

/-- C23 in init, when `hk.fori_loop` raises, either the first iteration did, which runs in the enclosing function, or the frame is as it
was after the first iteration (with a full block of keys). -/
theorem fori_init_atomic {w : World} (hw : InTransform w) (ht : Tidy w) (ha : InInit w) (body : Int → Val → Prog) (lo up : Int) (init : Val)
    (e : Exc) (w' : World) (h : (Prog.fori lo up body init).run stackMach w = (.error e, w')) :
    (body lo init).run stackMach w = (.error e, w') ∨
    ∃ v w1 w2, (body lo init).run stackMach w = (.ok v, w1) ∧ w' = undo (fillRng w1) w2 := by
  obtain ⟨F, rest, r, tl, hF, hr⟩ := hw
  have hc := toWorld_curr hF hr
  generalize curr F r w = s at hc
  subst hc
  rw [tidy_toWorld] at ht
  have hf : s.env.frozen = false := by obtain ⟨G, hG, h⟩ := ha; cases hG; exact h
  rw [(ref_run _).1] at h
  have hrun : (Prog.fori lo up body init).run localMach s = foriM localMach lo up (fun c x => (body c x).run localMach) init s := rfl
  unfold foriM at hrun
  rw [M.bind, top_eq] at hrun
  dsimp only [M.pure] at hrun
  rw [hf, if_neg (by simp)] at hrun
  rw [hrun] at h
  unfold M.bind at h
  have hg := grow_run (body lo init) s
  rw [(ref_run _).1]
  rcases hm : (body lo init).run localMach s with ⟨e | v1, s1⟩
  · have hm' : (body lo init).run localMach ⟨s.env, s.loc⟩ = (.error e, s1) := hm
    simp only [hm'] at h
    cases h
    exact .inl rfl
  · have hm' : (body lo init).run localMach ⟨s.env, s.loc⟩ = (.ok v1, s1) := hm
    rw [hm] at hg
    simp only [hm'] at h
    by_cases hup : up - (lo + 1) = 0
    · rw [if_pos hup] at h
      cases h
    · rw [if_neg hup, foriTail_eq (fun c x => grow_run (body c x)) _ _ _ (hg.2.wf ht)] at h
      unfold atomic at h
      rcases hi : iterate (fun i v => (body i v).run localMach) (up - (lo + 1)).toNat (lo + 1) v1 s1.full with ⟨e | q, s2⟩ <;>
        rw [hi] at h <;> cases h
      exact .inr ⟨v1, _, toWorld s2 tl rest, rfl, rfl⟩

/-- Stores 1, draws a key and raises when the value has reached 2; else adds 1. -/
def trips (v : Val) : Prog :=
  match v with
  | .int v => .bind (.op (.setState "s".toList ⟨[], .f32, [1]⟩)) fun _ => .bind (.op .nextKey) fun _ =>
      if v < 2 then .bind (.op (.reserve 1)) fun _ => .ret (.int (v + 1)) else .raise .indexError
  | _ => .raise .indexError

example : InTransform applying ∧ InApply applying ∧
    ((Prog.bind (.op (.reserve 3)) fun _ => .whileLoop 9 (below 3) trips (.int 0)).run stackMach applying).1 = .error .indexError ∧
    topState ((Prog.bind (.op (.reserve 3)) fun _ => .whileLoop 9 (below 3) trips (.int 0)).run stackMach applying).2 = topState applying :=
  ⟨applying_in, applying_apply, by decide +kernel⟩

example : InTransform busy ∧ Tidy busy ∧ InInit busy ∧
    ((Prog.fori 0 5 (fun _ => trips) (.int 0)).run stackMach busy).1 = .error .indexError ∧
    ((trips (.int 0)).run stackMach busy).1 = .ok (.int 1) :=
  ⟨busy_in, busy_tidy, busy_init, by decide +kernel⟩

end Verif.Props.Control
