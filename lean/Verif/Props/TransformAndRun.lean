import Verif.Props.AnyProgram
import Verif.Props.Context
import Verif.Props.Transform
import Verif.Props.Control
import Verif.Props.State
import Verif.Model.TransformAndRun

/-!
# C200: `apply` after `init` computes what `init` computed, whatever the control flow, and `hk.testing.transform_and_run`
-/

set_option linter.unusedVariables false

namespace Verif.Props.TransformAndRun
open Verif Names Frame Verif.TestUtils Verif.Props.AnyProgram
open Verif.Props.Stack (Bare)
open Verif.Props.Transform (inInit entered_run)
open Verif.Props.ModuleTree (here_start)
open Verif.Props.Control (topState)
open Verif.Props.StraightLine (bundle dir Tidy Fresh fresh_plain letter letter_plain)

/-! ### Programs that do not ask for keys -/

/-- Asks that neither hand out keys nor say whether `init` is running. Initializers may draw keys. -/
def StillAsk : Ask → Prop
  | .param .. => True
  | .getState .. => True
  | .setState .. => True
  | _ => False

/-- Programs that ask for nothing else, whatever they do with the values. -/
def Still : Code → Prop
  | .ret _ => True
  | .raise _ => True
  | .ask a k => StillAsk a ∧ ∀ v, Still (k v)
  | .make _ c r => (∀ l x, Still (c l x)) ∧ Still r
  | .call _ _ k => ∀ v, Still (k v)

/-- The memory of `apply`, which got what is in `M` at the end of `init`, where the memory of `init` was `m`: all parameters are there; state that `init` had has the same value; the rest has its initial
value. -/
structure Rel (M m n : Mem) : Prop where
  params : ∀ q k, lookup2 n.params q k = lookup2 M.params q k
  state : ∀ q k p, lookup2 m.state q k = some p → ∃ p', lookup2 n.state q k = some p' ∧ p'.current = p.current
  rest : ∀ q k p, lookup2 m.state q k = none → lookup2 M.state q k = some p → ∃ p', lookup2 n.state q k = some p' ∧ p'.current = p.initial
  only : ∀ q k, lookup2 M.state q k = none → lookup2 n.state q k = none

/-- No name is twice in the memory. -/
def Wf (m : Mem) : Prop := WF2 m.params ∧ WF2 m.state

/-- The second does in `apply` what the first did in `init`. -/
def Retraces (d e : Den) : Prop := ∀ x m v m1, d x m = .ok (v, m1) → Le m m1 ∧ (Wf m → Wf m1) ∧ ∀ M n, Le m1 M → Rel M m n → ∃ n1, e x n = .ok (v, n1) ∧ Rel M m1 n1

theorem answer_retraces (q : Str) {a : Ask} (ha : StillAsk a) : Retraces (fun _ => answer false q a) (fun _ => answer true q a) := by
  intro x m v m1 h
  refine ⟨answer_keeps false q a x m v m1 h, ?_⟩
  obtain ⟨P, S, r⟩ := m
  cases a with
  | param k sh dt init =>
    cases init with
    | none => cases h
    | some init =>
      unfold answer at h
      dsimp only at h
      cases hl : lookup2 P q k with
      | none =>
        rw [hl] at h
        dsimp only at h
        rw [if_neg (by simp)] at h
        cases hd : draws (init sh dt) r with
        | error e => rw [hd] at h; cases h
        | ok o =>
          rw [hd] at h
          dsimp only at h
          by_cases hs : o.1.shape = sh
          · rw [if_pos hs] at h
            cases h
            refine ⟨fun hw => ⟨hw.1.store2 _ _ _, hw.2⟩, fun M n hM hn => ⟨n, ?_, hn.params, hn.state, hn.rest, hn.only⟩⟩
            have e : lookup2 n.params q k = some o.1 := (hn.params q k).trans (hM.params q k o.1 (by
              show lookup2 (store2 P q k o.1) q k = _
              rw [lookup2_store2, if_pos ⟨rfl, rfl⟩]))
            show answer true q _ n = _
            unfold answer
            dsimp only
            rw [e]
            dsimp only
            rw [if_pos hs]
          · rw [if_neg hs] at h
            cases h
      | some a =>
        rw [hl] at h
        dsimp only at h
        by_cases hs : a.shape = sh
        · rw [if_pos hs] at h
          cases h
          refine ⟨id, fun M n hM hn => ⟨n, ?_, hn⟩⟩
          have e : lookup2 n.params q k = some a := (hn.params q k).trans (hM.params q k a hl)
          show answer true q _ n = _
          unfold answer
          dsimp only
          rw [e]
          dsimp only
          rw [if_pos hs]
        · rw [if_neg hs] at h
          cases h
  | getState k sh dt init =>
    unfold answer at h
    dsimp only at h
    cases hl : lookup2 S q k with
    | some p =>
      rw [hl] at h
      cases h
      refine ⟨id, fun M n hM hn => ?_⟩
      obtain ⟨p', e1, e2⟩ := hn.state q k p hl
      refine ⟨n, ?_, hn⟩
      show answer true q _ n = _
      unfold answer
      dsimp only
      rw [e1, ← e2]
    | none =>
      rw [hl] at h
      cases init with
      | none => cases h
      | some init =>
        cases sh with
        | none => cases h
        | some sh =>
          cases dt with
          | none => cases h
          | some dt =>
            dsimp only at h
            cases hd : draws (init sh dt) r with
            | error e => rw [hd] at h; cases h
            | ok o =>
              rw [hd] at h
              cases h
              refine ⟨fun hw => ⟨hw.1, hw.2.store2 _ _ _⟩, fun M n hM hn => ?_⟩
              obtain ⟨pM, f1, f2⟩ := hM.state q k ⟨o.1, o.1⟩ (by
                show lookup2 (store2 S q k _) q k = _
                rw [lookup2_store2, if_pos ⟨rfl, rfl⟩])
              obtain ⟨p', e1, e2⟩ := hn.rest q k pM hl f1
              have e3 : p'.current = o.1 := e2.trans f2
              refine ⟨n, ?_, hn.params, fun q' k' p hp => ?_, fun q' k' p hp hp' => ?_, hn.only⟩
              · show answer true q _ n = _
                unfold answer
                dsimp only
                rw [e1, ← e3]
              · replace hp : lookup2 (store2 S q k ⟨o.1, o.1⟩) q' k' = some p := hp
                rw [lookup2_store2] at hp
                by_cases e : q = q' ∧ k = k'
                · obtain ⟨rfl, rfl⟩ := e
                  rw [if_pos ⟨rfl, rfl⟩] at hp
                  cases hp
                  exact ⟨p', e1, e3⟩
                · rw [if_neg e] at hp
                  exact hn.state q' k' p hp
              · replace hp : lookup2 (store2 S q k ⟨o.1, o.1⟩) q' k' = none := hp
                rw [lookup2_store2] at hp
                by_cases e : q = q' ∧ k = k'
                · rw [if_pos e] at hp
                  cases hp
                · rw [if_neg e] at hp
                  exact hn.rest q' k' p hp hp'
  | setState k v' =>
    cases h
    refine ⟨fun hw => ⟨hw.1, hw.2.store2 _ _ _⟩, fun M n hM hn => ⟨_, rfl, hn.params, fun q' k' p hp => ?_, fun q' k' p hp hp' => ?_, fun q' k' hp => ?_⟩⟩
    · replace hp : lookup2 (store2 S q k _) q' k' = some p := hp
      show ∃ p', lookup2 (store2 n.state q k _) q' k' = some p' ∧ _
      rw [lookup2_store2] at hp ⊢
      by_cases e : q = q' ∧ k = k'
      · rw [if_pos e] at hp ⊢
        cases hp
        exact ⟨_, rfl, rfl⟩
      · rw [if_neg e] at hp ⊢
        exact hn.state q' k' p hp
    · replace hp : lookup2 (store2 S q k _) q' k' = none := hp
      show ∃ p', lookup2 (store2 n.state q k _) q' k' = some p' ∧ _
      rw [lookup2_store2] at hp ⊢
      by_cases e : q = q' ∧ k = k'
      · rw [if_pos e] at hp
        cases hp
      · rw [if_neg e] at hp ⊢
        exact hn.rest q' k' p hp hp'
    · show lookup2 (store2 n.state q k _) q' k' = none
      rw [lookup2_store2]
      by_cases e : q = q' ∧ k = k'
      · obtain ⟨rfl, rfl⟩ := e
        obtain ⟨pM, f1, -⟩ := hM.state q k _ (show lookup2 (store2 S q k _) q k = some _ by rw [lookup2_store2, if_pos ⟨rfl, rfl⟩])
        rw [f1] at hp
        cases hp
      · rw [if_neg e]
        exact hn.only q' k' hp
  | key => exact ha.elim
  | keys n => exact ha.elim
  | maybeKey => exact ha.elim
  | reserve n => exact ha.elim
  | runningInit => exact ha.elim

mutual
theorem denO_both {Q : Den → Den → Prop} {f g : Nat → Str → List Den → Den} (hf : ∀ l q ks ls, List.Forall₂ Q ks ls → Q (f l q ks) (g l q ls)) : ∀ (t : Obj) (path : Str) (used : List Str), Q (denO f path used t) (denO g path used t)
  | .node n l kids, path, used => by
    rw [denO, denO]
    exact hf l _ _ _ (denOs_both hf kids _ _)
theorem denOs_both {Q : Den → Den → Prop} {f g : Nat → Str → List Den → Den} (hf : ∀ l q ks ls, List.Forall₂ Q ks ls → Q (f l q ks) (g l q ls)) : ∀ (ts : List Obj) (path : Str) (used : List Str), List.Forall₂ Q (denOs f path used ts) (denOs g path used ts)
  | [], path, used => by
    rw [denOs, denOs]
    exact .nil
  | t :: ts, path, used => by
    rw [denOs, denOs]
    exact .cons (denO_both hf t path used) (denOs_both hf ts path _)
end

theorem forall2_append {Q : Den → Den → Prop} : ∀ {a b c d : List Den}, List.Forall₂ Q a b → List.Forall₂ Q c d → List.Forall₂ Q (a ++ c) (b ++ d)
  | _, _, _, _, .nil, h => h
  | _, _, _, _, .cons h t, h' => .cons h (forall2_append t h')

theorem forall2_get {Q : Den → Den → Prop} : ∀ {a b : List Den}, List.Forall₂ Q a b → ∀ {i : Nat} {d : Den}, a[i]? = some d → ∃ e, b[i]? = some e ∧ Q d e
  | _, _, .nil, i, d, h => by cases h
  | _, _, .cons h t, 0, d, h' => by
    cases h'
    exact ⟨_, rfl, h⟩
  | _, _, .cons h t, i + 1, d, h' => forall2_get t (i := i) h'

theorem flat_retraces : ∀ (b : Code) (w : Option Str) (used : List Str) (ds es : List Den), Still b → List.Forall₂ Retraces ds es → Retraces (fun _ => flat false b w used ds) (fun _ => flat true b w used es)
  | .ret v', w, used, ds, es, hs, hd => fun x m v m1 h => by
    cases h
    exact ⟨.refl _, id, fun M n hM hn => ⟨n, rfl, hn⟩⟩
  | .raise e, w, used, ds, es, hs, hd => fun x m v m1 h => by cases h
  | .ask a k, w, used, ds, es, hs, hd => fun x m v m1 h => by
    dsimp only at h
    rw [flat] at h
    cases ha : answer false (bundle w) a m with
    | error e => rw [ha] at h; cases h
    | ok o =>
      obtain ⟨v', m'⟩ := o
      rw [ha] at h
      obtain ⟨h1, h2, h3⟩ := answer_retraces (bundle w) hs.1 x m v' m' ha
      obtain ⟨g1, g2, g3⟩ := flat_retraces (k v') w used ds es (hs.2 v') hd x m' v m1 h
      refine ⟨h1.trans g1, fun hw => g2 (h2 hw), fun M n hM hn => ?_⟩
      obtain ⟨n', e1, hn'⟩ := h3 M n (g1.trans hM) hn
      obtain ⟨n1, e2, hn1⟩ := g3 M n' hM hn'
      refine ⟨n1, ?_, hn1⟩
      dsimp only at e1 e2 ⊢
      rw [flat, e1]
      exact e2
  | .make t c r, w, used, ds, es, hs, hd => fun x m v m1 h => by
    dsimp only at h
    rw [flat] at h
    have hd' : List.Forall₂ Retraces (ds ++ [denO (fun l q ks x m => flat false (c l x) (some q) [] (ds ++ ks) m) (dir w) used t]) (es ++ [denO (fun l q ks x m => flat true (c l x) (some q) [] (es ++ ks) m) (dir w) used t]) :=
      forall2_append hd (.cons (denO_both (f := fun l q ks x m => flat false (c l x) (some q) [] (ds ++ ks) m) (g := fun l q ks x m => flat true (c l x) (some q) [] (es ++ ks) m)
        (fun l q ks ls hk x => flat_retraces (c l x) (some q) [] _ _ (hs.1 l x) (forall2_append hd hk) x) t _ _) .nil)
    obtain ⟨g1, g2, g3⟩ := flat_retraces r w (used ++ [t.name]) _ _ hs.2 hd' x m v m1 h
    refine ⟨g1, g2, fun M n hM hn => ?_⟩
    obtain ⟨n1, e2, hn1⟩ := g3 M n hM hn
    refine ⟨n1, ?_, hn1⟩
    dsimp only at e2 ⊢
    rw [flat]
    exact e2
  | .call i y k, w, used, ds, es, hs, hd => fun x m v m1 h => by
    dsimp only at h
    rw [flat] at h
    cases hi : ds[i]? with
    | none => rw [hi] at h; cases h
    | some d =>
      rw [hi] at h
      dsimp only at h
      cases ha : d y m with
      | error e => rw [ha] at h; cases h
      | ok o =>
        obtain ⟨v', m'⟩ := o
        rw [ha] at h
        obtain ⟨e, he, hq⟩ := forall2_get hd hi
        obtain ⟨h1, h2, h3⟩ := hq y m v' m' ha
        obtain ⟨g1, g2, g3⟩ := flat_retraces (k v') w used ds es (hs v') hd x m' v m1 h
        refine ⟨h1.trans g1, fun hw => g2 (h2 hw), fun M n hM hn => ?_⟩
        obtain ⟨n', e1, hn'⟩ := h3 M n (g1.trans hM) hn
        obtain ⟨n1, e2, hn1⟩ := g3 M n' hM hn'
        refine ⟨n1, ?_, hn1⟩
        dsimp only at e2 ⊢
        rw [flat, he]
        dsimp only
        rw [e1]
        exact e2

/-! ### `apply` on what `init` returned -/

/-- Running the program where `init` runs it. -/
theorem in_init {w : World} (hw : Bare w) {b : Code} (ok : Ok b 0 []) (r : Option PRNGSeq) :
    match flat false b none [] [] ⟨[], [], r⟩ with
    | .error e => ((program b).run stackMach (inInit r w)).1 = .error e
    | .ok o => ((program b).run stackMach (inInit r w)).1 = .ok o.1 ∧ topState ((program b).run stackMach (inInit r w)).2 = extractState false o.2.state := by
  have h := run_flat (frozen := false) b none [] [] [] (ctxStart (Ctx.new none none r) w) ok Tidy.nil ⟨rfl, fun i m d hm => by cases hm⟩ (here_start _ hw rfl) rfl
  have em : mem (ctxStart (Ctx.new none none r) w).loc = ⟨[], [], r⟩ := rfl
  rw [em] at h
  unfold inInit program
  rw [entered_run]
  cases hf : flat false b none [] [] ⟨[], [], r⟩ with
  | error e =>
    rw [hf] at h
    obtain ⟨s', e1⟩ := h
    dsimp only
    rw [e1]
  | ok o =>
    rw [hf] at h
    obtain ⟨v, m⟩ := o
    obtain ⟨s', used', e1, -, -, rfl⟩ := h
    dsimp only
    rw [e1]
    exact ⟨rfl, rfl⟩

/-- C200: if the program returns `v` in `init`, whatever it does with the values it gets, then `apply` on what `init` returned gives `v` again, with any rng and from anywhere, and the state that the program
left in `init`. -/
theorem apply_after_init {w w1 : World} (hw : Bare w) {b : Code} (ok : Ok b 0 []) (hs : Still b) {rng : RngArg} {r : Option PRNGSeq} (hr : rng.toSeq = .ok r) {v : Val}
    (h : (program b).run stackMach (inInit r w) = (.ok v, w1)) :
    ∃ P S, ((Prog.initT rng (program b)).run stackMach w).1 = .ok (.pair (.bundle P) (.bundle S)) ∧
      ∀ {w' : World} {rng' : RngArg} {r' : Option PRNGSeq}, Bare w' → rng'.toSeq = .ok r' →
        ∃ S', ((Prog.applyT (some P) (some S) rng' (program b)).run stackMach w').1 = .ok (.pair v (.bundle S')) ∧ ∀ q n, lookup2 S' q n = lookup2 (topState w1) q n := by
  have hi := in_init hw ok r
  cases hf : flat false b none [] [] ⟨[], [], r⟩ with
  | error e =>
    rw [hf, h] at hi
    cases hi
  | ok o =>
    obtain ⟨u, M⟩ := o
    rw [hf, h] at hi
    obtain ⟨e1, e2⟩ := hi
    replace e1 : v = u := by injection e1
    subst e1
    refine ⟨M.params, extractState true M.state, ?_, fun {w' rng' r'} hw' hr' => ?_⟩
    · rw [init_code hw ok hr, hf]
      rfl
    · obtain ⟨-, h2, h3⟩ := flat_retraces b none [] [] [] hs .nil .unit ⟨[], [], r⟩ v M hf
      have hwf := h2 ⟨WF2.nil, WF2.nil⟩
      have hS : WF2 (extractState true M.state) := hwf.2.mapVals fun _ _ p => if true then p.initial else p.current
      have hl : ∀ q k, lookup2 (pairs (extractState true M.state)) q k = (lookup2 M.state q k).map fun p => ⟨p.initial, p.initial⟩ := fun q k => by
        rw [lookup_pairs, State.lookup2_extract, Option.map_map]
        rfl
      have hR : Rel M ⟨[], [], r⟩ ⟨M.params, pairs (extractState true M.state), r'⟩ := by
        refine ⟨fun _ _ => rfl, fun q k p hp => ?_, fun q k p _ hp => ⟨⟨p.initial, p.initial⟩, ?_, rfl⟩, fun q k hp => ?_⟩
        · cases (show (none : Option StatePair) = some p from hp)
        · exact (hl q k).trans (by rw [hp]; rfl)
        · exact (hl q k).trans (by rw [hp]; rfl)
      obtain ⟨n1, g1, g2⟩ := h3 M _ (.refl M) hR
      dsimp only at g1
      refine ⟨extractState false n1.state, ?_, fun q k => ?_⟩
      · rw [apply_code hw' ok hr', dict2_of_wf hwf.1, dict2_of_wf hS, g1]
        rfl
      · dsimp only at e2
        rw [e2, State.lookup2_extract, State.lookup2_extract]
        cases hM : lookup2 M.state q k with
        | none =>
          rw [g2.only q k hM]
        | some p =>
          obtain ⟨p', f1, f2⟩ := g2.state q k p hM
          rw [f1]
          show some p'.current = some p.current
          rw [f2]

/-! ### `transform_and_run` -/

/-- C200: for any function, `transform_and_run` leaves everything but the store of modules as it was, whether it returns or raises. -/
theorem run_context (seed : Option Int) (runApply : Bool) (f : Prog) (w : World) : ∃ h, ((transformAndRun seed runApply f).run stackMach w).2 = { w with heap := h } := by
  obtain ⟨h1, e1⟩ := (Context.ambient_untouched f (seedRng seed) none none w).1
  rw [transformAndRun, Prog.run, M.bind]
  rcases hr : (Prog.initT (seedRng seed) f).run stackMach w with ⟨e | v, w1⟩
  · rw [hr] at e1
    exact ⟨h1, e1⟩
  · rw [hr] at e1
    replace e1 : w1 = _ := e1
    subst e1
    dsimp only
    split
    · rename_i P S
      cases runApply with
      | false => exact ⟨h1, rfl⟩
      | true =>
        rw [if_pos rfl, Prog.run, M.bind]
        obtain ⟨h2, e2⟩ := (Context.ambient_untouched f (seedRng seed) (some P) (some S) { w with heap := h1 }).2
        rcases hr2 : (Prog.applyT (some P) (some S) (seedRng seed) f).run stackMach { w with heap := h1 } with ⟨e | u, w2⟩
        · rw [hr2] at e2
          exact ⟨h2, e2⟩
        · rw [hr2] at e2
          replace e2 : w2 = _ := e2
          subst e2
          dsimp only
          split <;> exact ⟨h2, rfl⟩
    · exact ⟨h1, rfl⟩

theorem seed_toSeq (seed : Option Int) : (seedRng seed).toSeq = .ok (seed.map PRNGSeq.ofSeed) := by
  cases seed <;> rfl

/-- C200: for any program, also with keys, `transform_and_run` runs it on an empty memory and then on the parameters and the initial state of that run with the same rng, and returns what the second run
returns; what either raises is raised. -/
theorem run_code {w : World} (hw : Bare w) {b : Code} (ok : Ok b 0 []) (seed : Option Int) (runApply : Bool) :
    ((transformAndRun seed runApply (program b)).run stackMach w).1 = match flat false b none [] [] ⟨[], [], seed.map PRNGSeq.ofSeed⟩ with
      | .error e => .error e
      | .ok o => if runApply then (flat true b none [] [] ⟨dict2 o.2.params, pairs (dict2 (extractState true o.2.state)), seed.map PRNGSeq.ofSeed⟩).map Prod.fst else .ok .none := by
  have h1 := init_code hw ok (seed_toSeq seed)
  obtain ⟨h', e1⟩ := (Context.ambient_untouched (program b) (seedRng seed) none none w).1
  rw [transformAndRun, Prog.run, M.bind]
  rcases hr : (Prog.initT (seedRng seed) (program b)).run stackMach w with ⟨x, w1'⟩
  rw [hr] at h1 e1
  replace e1 : w1' = _ := e1
  subst e1
  cases hf : flat false b none [] [] ⟨[], [], seed.map PRNGSeq.ofSeed⟩ with
  | error e =>
    rw [hf] at h1
    cases h1
    rfl
  | ok o =>
    rw [hf] at h1
    cases h1
    cases runApply with
    | false => rfl
    | true =>
      have h2 := apply_code (w := { w with heap := h' }) hw ok (seed_toSeq seed) o.2.params (extractState true o.2.state)
      dsimp only
      rw [if_pos rfl, if_pos rfl, Prog.run, M.bind]
      rcases hr2 : (Prog.applyT (some o.2.params) (some (extractState true o.2.state)) (seedRng seed) (program b)).run stackMach { w with heap := h' } with ⟨x, w2⟩
      rw [hr2] at h2
      cases hf2 : flat true b none [] [] ⟨dict2 o.2.params, pairs (dict2 (extractState true o.2.state)), seed.map PRNGSeq.ofSeed⟩ with
      | error e =>
        rw [hf2] at h2
        cases h2
        rfl
      | ok o2 =>
        rw [hf2] at h2
        cases h2
        rfl

/-- C200: a function that asks for no keys passes `transform_and_run` if it passes in `init`, with the same value; it runs the second time on the parameters and the state of the first. -/
theorem run_passes {w w1 : World} (hw : Bare w) {b : Code} (ok : Ok b 0 []) (hs : Still b) (seed : Option Int) (runApply : Bool) {v : Val}
    (h : (program b).run stackMach (inInit (seed.map PRNGSeq.ofSeed) w) = (.ok v, w1)) : ((transformAndRun seed runApply (program b)).run stackMach w).1 = .ok (if runApply then v else .none) := by
  obtain ⟨P, S, h1, h2⟩ := apply_after_init hw ok hs (seed_toSeq seed) h
  obtain ⟨h', e1⟩ := (Context.ambient_untouched (program b) (seedRng seed) none none w).1
  rw [transformAndRun, Prog.run, M.bind]
  rcases hr : (Prog.initT (seedRng seed) (program b)).run stackMach w with ⟨x, w1'⟩
  rw [hr] at h1 e1
  cases h1
  replace e1 : w1' = _ := e1
  subst e1
  cases runApply with
  | false => rfl
  | true =>
    obtain ⟨S', h3, -⟩ := h2 (w' := { w with heap := h' }) hw (seed_toSeq seed)
    dsimp only
    rw [if_pos rfl, if_pos rfl, Prog.run, M.bind]
    rcases hr2 : (Prog.applyT (some P) (some S) (seedRng seed) (program b)).run stackMach { w with heap := h' } with ⟨x, w2⟩
    rw [hr2] at h3
    cases h3
    rfl

/-- C200: what a function raises in `init` is what `transform_and_run` raises. -/
theorem run_raises {w w1 : World} (hw : Bare w) {b : Code} (ok : Ok b 0 []) (seed : Option Int) (runApply : Bool) {e : Exc}
    (h : (program b).run stackMach (inInit (seed.map PRNGSeq.ofSeed) w) = (.error e, w1)) : ((transformAndRun seed runApply (program b)).run stackMach w).1 = .error e := by
  have hi := in_init hw ok (seed.map PRNGSeq.ofSeed)
  rw [run_code hw ok]
  cases hf : flat false b none [] [] ⟨[], [], seed.map PRNGSeq.ofSeed⟩ with
  | ok o =>
    rw [hf, h] at hi
    cases hi.1
  | error e' =>
    rw [hf, h] at hi
    exact hi.symm

/-! ### Cases -/

namespace Demo
open Verif.Props.Stack.Net (world)
open Verif.Props.StraightLine.Demo (num one)
open Verif.Props.AnyProgram.Demo

theorem branches_still : Still branches := ⟨trivial, fun n => ⟨trivial, fun _ => ⟨fun _ x => ⟨trivial, fun _ => trivial⟩, by
  split
  · trivial
  · split
    · exact fun _ => trivial
    · trivial⟩⟩⟩

/-- The program of C197 that looks at its counter to decide whether to ask for a parameter returns 6 + 0 in `init`. -/
theorem branches_init : ∃ w1, (program branches).run stackMach (inInit ((some 0).map PRNGSeq.ofSeed) world) = (.ok (one 6), w1) := by
  rcases h : (program branches).run stackMach (inInit ((some 0).map PRNGSeq.ofSeed) world) with ⟨x, w1⟩
  have := in_init (w := world) ⟨rfl, rfl⟩ branches_ok ((some 0).map PRNGSeq.ofSeed)
  rw [show flat false branches none [] [] ⟨[], [], (some (0 : Int)).map PRNGSeq.ofSeed⟩ = .ok (one 6, ⟨[(sC, [(sW, ⟨[1], .f32, [6]⟩)])], [(sTilde, [(sN, ⟨count 0, count 1⟩)])], _⟩) from rfl, h] at this
  obtain ⟨rfl, -⟩ := this
  exact ⟨w1, rfl⟩

/-- So this is what `transform_and_run` returns. -/
example : ((transformAndRun (some 0) true (program branches)).run stackMach world).1 = .ok (one 6) := by
  obtain ⟨w1, h⟩ := branches_init
  exact run_passes ⟨rfl, rfl⟩ branches_ok branches_still (some 0) true h

/-- And what `apply` returns without rng on what `init` returned. -/
example : ∃ P S S', ((Prog.initT (.key (.root 0)) (program branches)).run stackMach world).1 = .ok (.pair (.bundle P) (.bundle S)) ∧
    ((Prog.applyT (some P) (some S) .none (program branches)).run stackMach world).1 = .ok (.pair (one 6) (.bundle S')) := by
  obtain ⟨w1, h⟩ := branches_init
  obtain ⟨P, S, h1, h2⟩ := apply_after_init (rng := .key (.root 0)) ⟨rfl, rfl⟩ branches_ok branches_still rfl h
  obtain ⟨S', h3, -⟩ := h2 (w' := world) (rng' := .none) ⟨rfl, rfl⟩ rfl
  exact ⟨P, S, S', h1, h3⟩

/-- A function that asks for a parameter, which takes a key in `init` only, and then for a key. -/
def keyed : Code := .ask (.param sW [1] .f32 (some drawn)) fun _ => .ask .key fun k => .ret k

theorem keyed_ok : Ok keyed 0 [] := fun _ _ => trivial

/-- It does not get the same key in `init` and in `apply`, so that `run_passes` fails for it. -/
theorem keyed_differs : ((program keyed).run stackMach (inInit ((some 0).map PRNGSeq.ofSeed) world)).1 = .ok (.key (.child (.child (.root 0) 2 0) 2 1)) ∧
    ((transformAndRun (some 0) true (program keyed)).run stackMach world).1 = .ok (.key (.child (.root 0) 2 1)) :=
  ⟨(in_init (w := world) ⟨rfl, rfl⟩ keyed_ok ((some 0).map PRNGSeq.ofSeed)).1, (run_code ⟨rfl, rfl⟩ keyed_ok (some 0) true).trans (by rfl)⟩

/-- Without a seed the parameter cannot be drawn. -/
example : ((transformAndRun none true (program branches)).run stackMach world).1 = .error .noRng := by
  rcases h : (program branches).run stackMach (inInit ((none : Option Int).map PRNGSeq.ofSeed) world) with ⟨x, w1⟩
  have := in_init (w := world) ⟨rfl, rfl⟩ branches_ok ((none : Option Int).map PRNGSeq.ofSeed)
  rw [show flat false branches none [] [] ⟨[], [], (none : Option Int).map PRNGSeq.ofSeed⟩ = .error .noRng from rfl, h] at this
  replace this : x = .error .noRng := this
  subst this
  exact run_raises ⟨rfl, rfl⟩ branches_ok none true h

end Demo

end Verif.Props.TransformAndRun
