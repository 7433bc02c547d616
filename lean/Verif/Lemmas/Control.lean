import Verif.Lemmas.Grow

/-!
# Stateful control flow without copies

`stateful.py` runs bodies on copies of the frame's data and writes differences back.  Here: what that amounts to, as equations
on the local machine.
-/

set_option linter.unusedVariables false

namespace Verif
open Names Frame

variable {α β : Type}

namespace LW

/-- The data of the frame as an `InternalState`. -/
def ist (s : LW) : IState := ⟨some s.loc.params, s.loc.state, s.loc.rng.map PRNGSeq.internalState, s.loc.trace⟩

/-- The same without parameters. -/
def istN (s : LW) : IState := ⟨none, s.loc.state, s.loc.rng.map PRNGSeq.internalState, s.loc.trace⟩

/-- Enter a frame with the given data. -/
def load (s : LW) (st : IState) : LW :=
  { s with loc := { s.loc with params := st.params.getD s.loc.params, state := st.state, rng := st.rng.map PRNGSeq.ofState, trace := st.trace } }

/-- `s`, with the module objects and the record of keys of `s1`: everything else that happened between `s` and `s1` is undone. -/
def back (s s1 : LW) : LW := { s with loc := { s.loc with heap := s1.loc.heap, log := s1.loc.log } }

/-- `s1` with the name scopes of `s`. -/
def commit (s s1 : LW) : LW := { s1 with loc := { s1.loc with scopes := s.loc.scopes } }

/-- The rng sequence normalised. -/
def full (s : LW) : LW := { s with loc := { s.loc with rng := s.loc.rng.map PRNGSeq.reserveUpToFull } }

end LW

open LW

theorem ofState_internalState (q : PRNGSeq) : PRNGSeq.ofState q.internalState = q := rfl

theorem map_ofState (r : Option PRNGSeq) : (r.map PRNGSeq.internalState).map PRNGSeq.ofState = r := by
  cases r <;> rfl

theorem load_ist (s s0 : LW) : s.load s0.ist =
    { s with loc := { s.loc with params := s0.loc.params, state := s0.loc.state, rng := s0.loc.rng, trace := s0.loc.trace } } := by
  unfold load ist
  simp only [Option.getD_some, map_ofState]

theorem load_self (s : LW) : s.load s.ist = s := by rw [load_ist]

theorem load_back {S s0 : LW} (he : s0.env = S.env) (hs : s0.loc.scopes = S.loc.scopes) : (S.back s0).load s0.ist = s0 := by
  rw [load_ist]
  obtain ⟨E, l⟩ := s0
  dsimp only at he hs
  subst he
  obtain ⟨p, st, r, sc, h, lg, tr⟩ := l
  dsimp only at hs
  subst hs
  rfl

theorem top_eq (f : FOp α) (s : LW) : localMach.top f s = ((f s.env s.loc).1, { s with loc := (f s.env s.loc).2 }) := rfl

theorem temp_eq (st : IState) (m : M LW α) (s : LW) : localMach.temp st m s = ((m (s.load st)).1, s.back (m (s.load st)).2) := rfl

theorem internal_eq (s : LW) : localMach.top (fun _ => internalState true) s = (.ok s.ist, s) := rfl
theorem internalN_eq (s : LW) : localMach.top (fun _ => internalState false) s = (.ok s.istN, s) := rfl
theorem reserve_eq (s : LW) : localMach.top (fun _ => reserveFull) s = (.ok (), s.full) := rfl

theorem back_back (s a b : LW) : (s.back a).back b = s.back b := rfl

/-- Writing back the data of `s1`. -/
theorem update_full {s s1 : LW} (hw : s.loc.WF) (hg : GrowL s s1) :
    localMach.top (updateInternalState s1.ist.full) (s.back s1) = (.ok (), s.commit s1) := by
  obtain ⟨he, hg⟩ := hg
  obtain ⟨E, p, st, r, sc, h, lg, tr⟩ := s
  obtain ⟨E1, p1, st1, r1, sc1, h1, lg1, tr1⟩ := s1
  dsimp only at he hg hw
  subst he
  have hp := updateRecursive_full hg.params (hg.wf hw).1
  have hst := updateRecursive_full hg.state (hg.wf hw).2
  have hr := hg.rng
  have hf := hg.frozen
  rw [top_eq, updateInternalState_eq]
  dsimp only [IState.full, ist, back, commit, Option.map_some, Option.getD_some] at hp hst hr hf ⊢
  rw [hp, hst]
  obtain ⟨fr, mods, hk, nc⟩ := E1
  cases fr with
  | true =>
    have e := hf rfl
    subst e
    cases r <;> cases r1 <;> first | rfl | (simp at hr)
  | false => cases r <;> cases r1 <;> first | rfl | (simp at hr)

/-- Writing back the difference between `s` and `s1`. -/
theorem update_diff {s s1 : LW} (hw : s.loc.WF) (hg : GrowL s s1) :
    localMach.top (updateInternalState (difference s.ist s1.ist)) (s.back s1) = (.ok (), s.commit s1) := by
  obtain ⟨he, hg⟩ := hg
  obtain ⟨E, p, st, r, sc, h, lg, tr⟩ := s
  obtain ⟨E1, p1, st1, r1, sc1, h1, lg1, tr1⟩ := s1
  dsimp only at he hg hw
  subst he
  have hsP : ∀ a b : Arr, (decide (a ≠ b)) = false → a = b := fun a b h => by simpa using h
  have hsS : ∀ a b : StatePair, (decide (a ≠ b)) = false → a = b := fun a b h => by simpa using h
  have hp := updateRecursive_diff2 hsP hg.params (hg.wf hw).1
  have hst := updateRecursive_diff2 hsS hg.state (hg.wf hw).2
  have hr := hg.rng
  have hf := hg.frozen
  rw [top_eq, updateInternalState_eq]
  dsimp only [difference, differenceWith, ist, back, commit, Option.map_some, Option.getD_some] at hp hst hr hf ⊢
  rw [hp, hst]
  obtain ⟨fr, mods, hk, nc⟩ := E1
  cases fr with
  | true =>
    have e := hf rfl
    subst e
    cases r <;> cases r1 <;> first | rfl | (simp at hr)
  | false => cases r <;> cases r1 <;> first | rfl | (simp at hr)

/-! ### Blocks that commit or undo -/

/-- A body that is undone when it raises. -/
def atomic (m : M LW α) : M LW α := fun s =>
  match m s with
  | (.ok a, s1) => (.ok a, s1)
  | (.error e, s1) => (.error e, s.back s1)

/-- A body whose effect on name scopes is undone. -/
def rescoped (m : M LW α) : M LW α := fun s => ((m s).1, s.commit (m s).2)

/-- A body followed by normalising the rng sequence. -/
def thenFull (m : M LW α) : M LW α := m >>- fun v => localMach.top (fun _ => reserveFull) >>- fun _ => M.pure v

theorem Pres.thenFull {m : M LW α} (h : Pres GrowL m) : Pres GrowL (thenFull m) :=
  Pres.bind GrowL.preord h fun _ => Pres.bind GrowL.preord GrowL.topPres.reserve fun _ => Pres.pure GrowL.preord _

theorem growL_commit {s s1 : LW} (h : GrowL s s1) : GrowL s (s.commit s1) :=
  ⟨h.1, h.2.wf, h.2.params, h.2.state, h.2.frozen, h.2.rng, rfl⟩

theorem growL_back (s s1 : LW) : GrowL s (s.back s1) := ⟨rfl, Grow.of_same rfl rfl rfl rfl⟩

theorem Pres.rescoped {m : M LW α} (h : Pres GrowL m) : Pres GrowL (rescoped m) := fun s => growL_commit (h s)

theorem Pres.atomic {m : M LW α} (h : Pres GrowL m) : Pres GrowL (atomic m) := by
  intro s
  have hs := h s
  unfold Verif.atomic
  rcases hm : m s with ⟨e | v, s1⟩
  · exact growL_back s s1
  · rw [hm] at hs; exact hs

/-- `hk.jit` and its relatives: the body itself, but undone when it raises, and without effect on name scopes. -/
theorem jitM_eq {m : M LW Val} (hm : Pres GrowL m) {s : LW} (hw : s.loc.WF) : jitM localMach m s = atomic (rescoped m) s := by
  unfold jitM atomic rescoped
  rw [M.bind, internal_eq]
  dsimp only
  rw [M.bind, temp_eq, load_self]
  have hg := hm s
  unfold M.bind
  rcases h : m s with ⟨e | v, s1⟩
  · rfl
  · rw [h] at hg
    dsimp only
    rw [internal_eq]
    dsimp only [M.pure]
    rw [update_diff hw hg]

theorem evalShapeM_eq (m : M LW Val) (s : LW) :
    evalShapeM localMach m s = ((m s).1.map Val.shapeOnly, s.back (m s).2) := by
  unfold evalShapeM
  rw [M.bind, internal_eq]
  dsimp only
  rw [M.bind, temp_eq, load_self]
  rcases h : m s with ⟨e | v, s1⟩ <;> rfl

/-! ### Branches -/

theorem branchM_eq (st : IState) (m : M LW Val) (s : LW) : branchM localMach st m s =
    match thenFull m (s.load st) with
    | (.ok v, s1) => (.ok (v, s1.ist), s.back s1)
    | (.error e, s1) => (.error e, s.back s1) := by
  unfold branchM thenFull
  rw [temp_eq]
  unfold M.bind
  rcases h : m (s.load st) with ⟨e | v, s1⟩
  · rfl
  · rfl

/-- The outcome of one branch, as seen by the caller. -/
def outcome (s : LW) (m : M LW Val) : Except Exc Val × LW := atomic (rescoped (thenFull m)) s

/-- Whether two successful outcomes have the same structure. -/
def agree (a b : Except Exc Val × LW) : Bool :=
  match a.1, b.1 with
  | .ok v, .ok w => v.sameStruct w && a.2.ist.sameStruct b.2.ist
  | _, _ => false

/-- What `switch` returns, given the outcomes of all branches: the first exception if there is one; else the outcome of the
chosen branch, if all outcomes have its structure. -/
def choose (i : Nat) (os : List (Except Exc Val × LW)) (s : LW) : Except Exc Val × LW :=
  match os.find? (fun o => match o.1 with | .error _ => true | .ok _ => false) with
  | some o => o
  | none =>
    match os[i]? with
    | none => (.error .structureMismatch, s)
    | some o => if os.all fun q => agree q o then o else (.error .structureMismatch, s)

theorem runBranches_eq {s : LW} : ∀ {ms : List (M LW Val)}, (∀ m ∈ ms, Pres GrowL m) →
    (∃ e s1, runBranches localMach s.ist ms s = .error (e, s1) ∧
      (ms.map (outcome s)).find? (fun o => match o.1 with | .error _ => true | .ok _ => false) = some (.error e, s1)) ∨
    (∃ rs, runBranches localMach s.ist ms s = .ok rs ∧
      (ms.map (outcome s)).find? (fun o => match o.1 with | .error _ => true | .ok _ => false) = none ∧
      List.Forall₂ (fun r o => ∃ s1, GrowL s s1 ∧ r = ((r.1.1, s1.ist), s.back s1) ∧ o = (Except.ok r.1.1, s.commit s1)) rs (ms.map (outcome s))) := by
  intro ms
  induction ms with
  | nil => intro _; exact .inr ⟨[], rfl, rfl, List.Forall₂.nil⟩
  | cons m ms ih =>
    intro hms
    have hg := Pres.thenFull (hms m (by simp)) s
    unfold runBranches
    rw [branchM_eq, load_self]
    rcases h : thenFull m s with ⟨e | v, s1⟩
    · left
      refine ⟨e, s.back s1, rfl, ?_⟩
      have : outcome s m = (.error e, s.back s1) := by unfold outcome atomic rescoped; rw [h]; rfl
      simp [this]
    · rw [h] at hg
      have ho : outcome s m = (.ok v, s.commit s1) := by unfold outcome atomic rescoped; rw [h]
      dsimp only
      rcases ih (fun m hm => hms m (by simp [hm])) with ⟨e, s2, h1, h2⟩ | ⟨rs, h1, h2, h3⟩
      · left
        rw [h1]
        refine ⟨e, s2, rfl, ?_⟩
        rw [List.map_cons, List.find?_cons, ho]
        exact h2
      · right
        rw [h1]
        refine ⟨_, rfl, ?_, ?_⟩
        · rw [List.map_cons, List.find?_cons, ho]
          exact h2
        · rw [List.map_cons]
          exact List.Forall₂.cons ⟨s1, hg, rfl, ho⟩ h3

theorem forall₂_getElem? {γ δ : Type} {R : γ → δ → Prop} {l : List γ} {l' : List δ} (h : List.Forall₂ R l l') (i : Nat) :
    (l[i]? = none ∧ l'[i]? = none) ∨ ∃ a b, l[i]? = some a ∧ l'[i]? = some b ∧ R a b := by
  induction h generalizing i with
  | nil => left; simp
  | cons hab _ ih =>
    cases i with
    | zero => right; exact ⟨_, _, rfl, rfl, hab⟩
    | succ i => simpa using ih i

theorem forall₂_all {γ δ : Type} {R : γ → δ → Prop} {l : List γ} {l' : List δ} (h : List.Forall₂ R l l') {p : γ → Bool} {q : δ → Bool}
    (hpq : ∀ a b, R a b → p a = q b) : l.all p = l'.all q := by
  induction h with
  | nil => rfl
  | cons hab _ ih => rw [List.all_cons, List.all_cons, ih, hpq _ _ hab]

theorem ist_commit (s s1 : LW) : (s.commit s1).ist = s1.ist := rfl

/-- `hk.cond` and `hk.switch`. -/
theorem switchM_eq {i : Nat} {ms : List (M LW Val)} (hms : ∀ m ∈ ms, Pres GrowL m) {s : LW} (hw : s.loc.WF) :
    switchM localMach i ms s = choose i (ms.map (outcome s.full)) s.full := by
  have hwf : s.full.loc.WF := hw
  unfold switchM
  rw [M.bind, reserve_eq]
  dsimp only
  rw [M.bind, internal_eq]
  dsimp only
  unfold switchFrom choose
  rcases runBranches_eq (s := s.full) hms with ⟨e, s1, h1, h2⟩ | ⟨rs, h1, h2, h3⟩
  · rw [h1, h2]
  · rw [h1, h2]
    dsimp only
    rcases forall₂_getElem? h3 i with ⟨h4, h5⟩ | ⟨⟨⟨v, st⟩, s'⟩, b, h4, h5, s1, hg, hr, rfl⟩
    · rw [h4, h5]
    · rw [h4, h5]
      simp only [Prod.mk.injEq, true_and] at hr
      obtain ⟨rfl, rfl⟩ := hr
      dsimp only
      rw [forall₂_all h3 (q := fun q => agree q (.ok v, s.full.commit s1))]
      · split
        · rw [M.bind, update_full hwf hg]; rfl
        · rfl
      · rintro ⟨⟨v', st'⟩, s2⟩ b ⟨s3, -, hr, rfl⟩
        simp only [Prod.mk.injEq, true_and] at hr
        obtain ⟨rfl, rfl⟩ := hr
        rfl

/-! ### `fori_loop` -/

/-- One iteration: the body, then normalise the rng; name scopes as before; the structure must not change. -/
def iter (m : M LW Val) (v : Val) : M LW Val := fun s =>
  match rescoped (thenFull m) s with
  | (.ok v', s1) => if v'.sameStruct v && s1.ist.sameStruct s.ist then (.ok v', s1) else (.error .structureMismatch, s1)
  | (.error e, s1) => (.error e, s1)

/-- The Python loop `for i in range(lo, lo + n): v = body(i, v)`. -/
def iterate (body : Int → Val → M LW Val) : Nat → Int → Val → M LW Val
  | 0, _, v => M.pure v
  | n + 1, i, v => iter (body i v) v >>- fun v' => iterate body n (i + 1) v'

theorem iter_props {m : M LW Val} (h : Pres GrowL m) (v : Val) (s : LW) :
    GrowL s (iter m v s).2 ∧ (iter m v s).2.loc.scopes = s.loc.scopes := by
  have hs := Pres.rescoped (Pres.thenFull h) s
  unfold iter
  rcases hm : rescoped (thenFull m) s with ⟨e | v', s1⟩
  · have : s1 = (rescoped (thenFull m) s).2 := by rw [hm]
    subst this
    exact ⟨hs, rfl⟩
  · have : s1 = (rescoped (thenFull m) s).2 := by rw [hm]
    subst this
    dsimp only
    split <;> exact ⟨hs, rfl⟩

theorem foriStep_eq {S s0 : LW} {body : Int → Val → M LW Val} (i : Int) (v : Val) (he : s0.env = S.env)
    (hs : s0.loc.scopes = S.loc.scopes) : foriStep localMach body i v s0.ist (S.back s0) =
      match iter (body i v) v s0 with
      | (.ok v', s1) => (.ok (v', s1.ist), S.back s1)
      | (.error e, s1) => (.error e, S.back s1) := by
  unfold foriStep iter rescoped
  rw [M.bind, branchM_eq, load_back he hs]
  rcases thenFull (body i v) s0 with ⟨e | v', s1⟩
  · rfl
  · dsimp only
    rw [ist_commit]
    split <;> rfl

theorem foriLoop_eq {S : LW} {body : Int → Val → M LW Val} (hb : ∀ i v, Pres GrowL (body i v)) :
    ∀ (n : Nat) (i : Int) (v : Val) (s0 : LW), GrowL S s0 → s0.loc.scopes = S.loc.scopes →
      (foriLoop (foriStep localMach body) n i v s0.ist (S.back s0) =
        match iterate body n i v s0 with
        | (.ok v', s1) => (.ok (v', s1.ist), S.back s1)
        | (.error e, s1) => (.error e, S.back s1)) ∧
      GrowL S (iterate body n i v s0).2 ∧ (iterate body n i v s0).2.loc.scopes = S.loc.scopes := by
  intro n
  induction n with
  | zero => intro i v s0 hg hs; exact ⟨rfl, hg, hs⟩
  | succ n ih =>
    intro i v s0 hg hs
    unfold foriLoop iterate
    rw [M.bind, foriStep_eq i v hg.1 hs]
    obtain ⟨hg1, hs1⟩ := iter_props (hb i v) v s0
    unfold M.bind
    rcases hm : iter (body i v) v s0 with ⟨e | v', s1⟩ <;> rw [hm] at hg1 hs1
    · exact ⟨rfl, GrowL.preord.trans hg hg1, hs1.trans hs⟩
    · exact ih (i + 1) v' s1 (GrowL.preord.trans hg hg1) (hs1.trans hs)

theorem back_self (s : LW) : s.back s = s := rfl

theorem commit_of_scopes {s s1 : LW} (h : s1.loc.scopes = s.loc.scopes) : s.commit s1 = s1 := by
  unfold commit; rw [← h]

/-- `hk.fori_loop` after the unrolled step: the Python loop on normalised rng, undone when it raises. -/
theorem foriTail_eq {body : Int → Val → M LW Val} (hb : ∀ i v, Pres GrowL (body i v)) (lo up : Int) (init : Val) {s : LW}
    (hw : s.loc.WF) : foriTail localMach lo up body init s = atomic (iterate body (up - lo).toNat lo init) s.full := by
  have hwf : s.full.loc.WF := hw
  obtain ⟨h1, h2, h3⟩ := foriLoop_eq hb (up - lo).toNat lo init s.full (GrowL.preord.refl _) rfl
  unfold foriTail atomic
  rw [M.bind, reserve_eq]
  dsimp only
  rw [M.bind, internal_eq]
  dsimp only
  rw [back_self] at h1
  rw [M.bind, h1]
  rcases hm : iterate body (up - lo).toNat lo init s.full with ⟨e | v, s1⟩ <;> rw [hm] at h2 h3
  dsimp only
  rw [M.bind, update_full hwf h2, commit_of_scopes h3]
  rfl

/-! ### `scan` -/

/-- `s1` with the parameters and name scopes of `s`. -/
def LW.commitN (s s1 : LW) : LW := { s1 with loc := { s1.loc with params := s.loc.params, scopes := s.loc.scopes } }

/-- One scan iteration. -/
def iterP (m : M LW Val) (c : Val) : M LW (Val × Val) := fun s =>
  match (m >>- asPair) s with
  | (.error e, s1) => (.error e, s.commitN s1)
  | (.ok cy, s1) =>
    if hasNewParams s.loc.params s1.loc.params then (.error .newParams, s.commitN s1)
    else if cy.1.sameStruct c && s1.full.istN.sameStruct s.istN then (.ok cy, s.commitN s1.full)
    else (.error .structureMismatch, s.commitN s1)

/-- The Python loop over a list: carry and outputs. -/
def iterList (f : Val → Val → M LW Val) : List Val → Val → M LW (Val × List Val)
  | [], c => M.pure (c, [])
  | x :: xs, c => iterP (f c x) c >>- fun r => iterList f xs r.1 >>- fun q => M.pure (q.1, r.2 :: q.2)

theorem growL_commitN {s s1 : LW} (h : GrowL s s1) : GrowL s (s.commitN s1) :=
  ⟨h.1, fun w => ⟨w.1, (h.2.wf w).2⟩, Ext2.refl _, h.2.state, fun _ => rfl, h.2.rng, rfl⟩

theorem growL_full (s : LW) : GrowL s s.full := GrowL.topPres.reserve s

theorem iterP_props {m : M LW Val} (h : Pres GrowL m) (c : Val) (s : LW) :
    GrowL s (iterP m c s).2 ∧ (iterP m c s).2.loc.scopes = s.loc.scopes ∧ (iterP m c s).2.loc.params = s.loc.params := by
  have hs := Pres.bind GrowL.preord h (fun v => pres_asPair GrowL.preord v) s
  unfold iterP
  rcases hm : (m >>- asPair) s with ⟨e | cy, s1⟩ <;> rw [hm] at hs
  · exact ⟨growL_commitN hs, rfl, rfl⟩
  · dsimp only
    split
    · exact ⟨growL_commitN hs, rfl, rfl⟩
    · split
      · exact ⟨growL_commitN (GrowL.preord.trans hs (growL_full s1)), rfl, rfl⟩
      · exact ⟨growL_commitN hs, rfl, rfl⟩

theorem loadN_back {S s0 : LW} (he : s0.env = S.env) (hs : s0.loc.scopes = S.loc.scopes) (hp : s0.loc.params = S.loc.params) :
    (S.back s0).load s0.istN = s0 := by
  unfold load istN
  simp only [map_ofState, Option.getD_none]
  obtain ⟨E, l⟩ := s0
  dsimp only at he hs
  subst he
  obtain ⟨p, st, r, sc, h, lg, tr⟩ := l
  dsimp only at hs hp
  subst hs hp
  rfl

theorem scanStep_eq {S s0 : LW} {f : Val → Val → M LW Val} (c x : Val) (he : s0.env = S.env)
    (hs : s0.loc.scopes = S.loc.scopes) (hp : s0.loc.params = S.loc.params) : scanStep localMach f c x s0.istN (S.back s0) =
      match iterP (f c x) c s0 with
      | (.ok cy, s1) => (.ok (cy.1, cy.2, s1.istN), S.back s1)
      | (.error e, s1) => (.error e, S.back s1) := by
  unfold scanStep iterP
  rw [M.bind, temp_eq, loadN_back he hs hp, M.bind, internal_eq]
  dsimp only
  unfold M.bind
  rcases f c x s0 with ⟨e | v, s1⟩
  · rfl
  · dsimp only
    rcases asPair v s1 with ⟨e | cy, s2⟩
    · rfl
    · dsimp only
      rw [internal_eq]
      dsimp only
      by_cases hn : hasNewParams s0.loc.params s2.loc.params = true
      · rw [if_pos hn, if_pos (show hasNewParams (s0.ist.params.getD []) (s2.ist.params.getD []) = true from hn)]; rfl
      · rw [if_neg hn, if_neg (show ¬ hasNewParams (s0.ist.params.getD []) (s2.ist.params.getD []) = true from hn)]
        rw [reserve_eq]
        dsimp only
        rw [internalN_eq]
        dsimp only [M.pure]
        by_cases hc : (cy.1.sameStruct c && s2.full.istN.sameStruct s0.istN) = true
        · rw [if_pos hc, if_pos hc]; rfl
        · rw [if_neg hc, if_neg hc]; rfl

theorem scanLoop_eq {S : LW} {f : Val → Val → M LW Val} (hf : ∀ i v, Pres GrowL (f i v)) :
    ∀ (xs : List Val) (c : Val) (s0 : LW), GrowL S s0 → s0.loc.scopes = S.loc.scopes → s0.loc.params = S.loc.params →
      (scanLoop (scanStep localMach f) xs c s0.istN (S.back s0) =
        match iterList f xs c s0 with
        | (.ok r, s1) => (.ok (r.1, r.2, s1.istN), S.back s1)
        | (.error e, s1) => (.error e, S.back s1)) ∧
      GrowL S (iterList f xs c s0).2 ∧ (iterList f xs c s0).2.loc.scopes = S.loc.scopes ∧
      (iterList f xs c s0).2.loc.params = S.loc.params := by
  intro xs
  induction xs with
  | nil => intro c s0 hg hs hp; exact ⟨rfl, hg, hs, hp⟩
  | cons x xs ih =>
    intro c s0 hg hs hp
    unfold scanLoop iterList
    rw [M.bind, scanStep_eq c x hg.1 hs hp]
    obtain ⟨hg1, hs1, hp1⟩ := iterP_props (hf c x) c s0
    unfold M.bind
    rcases hm : iterP (f c x) c s0 with ⟨e | cy, s1⟩ <;> rw [hm] at hg1 hs1 hp1
    · exact ⟨rfl, GrowL.preord.trans hg hg1, hs1.trans hs, hp1.trans hp⟩
    · dsimp only
      obtain ⟨k1, k2, k3, k4⟩ := ih cy.1 s1 (GrowL.preord.trans hg hg1) (hs1.trans hs) (hp1.trans hp)
      rw [k1]
      rcases hi : iterList f xs cy.1 s1 with ⟨e | r, s2⟩ <;> rw [hi] at k2 k3 k4 <;> exact ⟨rfl, k2, k3, k4⟩

/-- Writing back everything but the parameters. -/
theorem update_fullN {s s1 : LW} (hw : s.loc.WF) (hg : GrowL s s1) :
    localMach.top (updateInternalState s1.istN.full) (s.back s1) = (.ok (), s.commitN s1) := by
  obtain ⟨he, hg⟩ := hg
  obtain ⟨E, p, st, r, sc, h, lg, tr⟩ := s
  obtain ⟨E1, p1, st1, r1, sc1, h1, lg1, tr1⟩ := s1
  dsimp only at he hg hw
  subst he
  have hst := updateRecursive_full hg.state (hg.wf hw).2
  have hr := hg.rng
  rw [top_eq, updateInternalState_eq]
  dsimp only [IState.full, istN, back, commitN, Option.map_none, Option.getD_none] at hst hr ⊢
  rw [hst]
  obtain ⟨fr, mods, hk, nc⟩ := E1
  cases fr <;> cases r <;> cases r1 <;> first | rfl | (simp at hr)

theorem scanTail_eq {f : Val → Val → M LW Val} (hf : ∀ i v, Pres GrowL (f i v)) (c : Val) (xs : List Val) (rev : Bool) {s : LW}
    (hw : s.loc.WF) : scanTail localMach f c xs rev s =
      atomic (iterList f (if rev then xs.reverse else xs) c >>- fun r => M.pure (r.1, if rev then r.2.reverse else r.2)) s.full := by
  have hwf : s.full.loc.WF := hw
  obtain ⟨h1, h2, h3, h4⟩ := scanLoop_eq hf (if rev then xs.reverse else xs) c s.full (GrowL.preord.refl _) rfl rfl
  unfold scanTail atomic
  rw [M.bind, reserve_eq]
  dsimp only
  rw [M.bind, internalN_eq]
  dsimp only
  rw [back_self] at h1
  rw [M.bind, h1, M.bind]
  rcases hm : iterList f (if rev then xs.reverse else xs) c s.full with ⟨e | v, s1⟩ <;> rw [hm] at h2 h3 h4
  dsimp only
  rw [M.bind, update_fullN hwf h2]
  have : s.full.commitN s1 = s1 := by unfold commitN; rw [← h3, ← h4]
  rw [this]
  rfl

/-! ### `while_loop` -/

/-- One iteration of a while loop: no normalisation of the rng. -/
def iterW (m : M LW Val) (v : Val) : M LW Val := fun s =>
  match rescoped m s with
  | (.ok v', s1) => if v'.sameStruct v && s1.ist.sameStruct s.ist then (.ok v', s1) else (.error .structureMismatch, s1)
  | (.error e, s1) => (.error e, s1)

/-- The Python loop `while c(v): v = body(v)`, with the condition given by its outcomes `c` and the state `o` to fall back to when the
body raises. -/
def iterWhile (c : Val → Except Exc Bool × LW) (body : Val → M LW Val) (o : LW) : Nat → Val → M LW Val
  | 0, _ => fun s => (.error .outOfFuel, o.back s)
  | n + 1, v => fun s =>
    match c v with
    | (.error e, s') => (.error e, s')
    | (.ok false, _) => (.ok v, s)
    | (.ok true, _) =>
      match iterW (body v) v s with
      | (.ok v', s1) => iterWhile c body o n v' s1
      | (.error e, s1) => (.error e, o.back s1)

/-- The state after a while loop that ended in `s2`, when evaluating the condition once before gave `s1`. -/
def LW.whileEnd (s1 s2 : LW) : LW := (localMach.top (updateInternalState s2.ist.full) (s1.back s2)).2

theorem iterW_props {m : M LW Val} (h : Pres GrowL m) (v : Val) (s : LW) :
    GrowL s (iterW m v s).2 ∧ (iterW m v s).2.loc.scopes = s.loc.scopes := by
  have hs := Pres.rescoped h s
  unfold iterW
  rcases hm : rescoped m s with ⟨e | v', s1⟩
  · have : s1 = (rescoped m s).2 := by rw [hm]
    subst this
    exact ⟨hs, rfl⟩
  · have : s1 = (rescoped m s).2 := by rw [hm]
    subst this
    dsimp only
    split <;> exact ⟨hs, rfl⟩

theorem whileBody_eq {S s0 : LW} {body : Val → M LW Val} (v : Val) (he : s0.env = S.env)
    (hs : s0.loc.scopes = S.loc.scopes) : whileBody localMach body v s0.ist (S.back s0) =
      match iterW (body v) v s0 with
      | (.ok v', s1) => (.ok (v', s1.ist), S.back s1)
      | (.error e, s1) => (.error e, S.back s1) := by
  unfold whileBody iterW rescoped
  rw [M.bind, temp_eq, load_back he hs]
  unfold M.bind
  rcases body v s0 with ⟨e | v', s1⟩
  · rfl
  · dsimp only
    rw [internal_eq]
    dsimp only [M.pure]
    rw [ist_commit]
    split <;> rfl

theorem whileLoopM_eq {S o : LW} {c : Val → M LW Bool} {body : Val → M LW Val} (hb : ∀ v, Pres GrowL (body v)) :
    ∀ (n : Nat) (v : Val) (s0 : LW), s0.env = S.env → s0.loc.scopes = S.loc.scopes → GrowL o s0 →
      (whileLoopM c (whileBody localMach body) o n v s0.ist (S.back s0) =
        match iterWhile (fun v => c v o) body S n v s0 with
        | (.ok v', s1) => (.ok (v', s1.ist), S.back s1)
        | (.error e, s1) => (.error e, s1)) ∧
      (∀ v' s1, iterWhile (fun v => c v o) body S n v s0 = (.ok v', s1) →
        GrowL o s1 ∧ s1.env = S.env ∧ s1.loc.scopes = S.loc.scopes) := by
  intro n
  induction n with
  | zero => intro v s0 he hs hg; exact ⟨rfl, fun _ _ h => by simp [iterWhile] at h⟩
  | succ n ih =>
    intro v s0 he hs hg
    unfold whileLoopM iterWhile
    rcases hc : c v o with ⟨e | b, s'⟩
    · exact ⟨rfl, fun _ _ h => by simp at h⟩
    · cases b with
      | false =>
        refine ⟨rfl, fun v' s1 h => ?_⟩
        simp only [Prod.mk.injEq, Except.ok.injEq] at h
        rw [← h.2]; exact ⟨hg, he, hs⟩
      | true =>
        dsimp only
        rw [M.bind, whileBody_eq v he hs]
        obtain ⟨hg1, hs1⟩ := iterW_props (hb v) v s0
        rcases hm : iterW (body v) v s0 with ⟨e | v', s1⟩ <;> rw [hm] at hg1 hs1
        · exact ⟨rfl, fun _ _ h => by simp at h⟩
        · exact ih v' s1 (hg1.1.trans he) (hs1.trans hs) (GrowL.preord.trans hg hg1)

theorem updateFull_ok {s1 s2 : LW} (h : s2.loc.rng.isSome = s1.loc.rng.isSome) :
    localMach.top (updateInternalState s2.ist.full) (s1.back s2) = (.ok (), s1.whileEnd s2) := by
  unfold whileEnd
  rw [top_eq, updateInternalState_eq]
  congr 1
  obtain ⟨E, p, st, r, sc, h, lg, tr⟩ := s1
  obtain ⟨E1, p1, st1, r1, sc1, h1, lg1, tr1⟩ := s2
  cases r <;> cases r1 <;> first | rfl | (simp at h)

/-- `hk.while_loop`. -/
theorem whileM_eq {c body : Val → M LW Val} (hc : ∀ v, Pres GrowL (c v)) (hb : ∀ v, Pres GrowL (body v)) (fuel : Nat) (init : Val)
    (s : LW) : whileM localMach fuel c body init s =
      if s.env.frozen then
        match whileCond localMach c init s with
        | (.error e, s') => (.error e, s')
        | (.ok _, s1) =>
          match iterWhile (fun v => whileCond localMach c v s) body s1 fuel init
              { s with loc := { s.loc with scopes := s1.loc.scopes, heap := s1.loc.heap, log := s1.loc.log } } with
          | (.ok v, s2) => (.ok v, s1.whileEnd s2)
          | (.error e, s2) => (.error e, s2)
      else (.error .whileInInit, s) := by
  unfold whileM
  rw [M.bind, top_eq]
  dsimp only
  cases hf : s.env.frozen with
  | false => rfl
  | true =>
    simp only [if_true]
    show (M.bind _ _) s = _
    rw [M.bind, internal_eq]
    dsimp only
    unfold whileFrom
    have hcond : Pres GrowL (whileCond localMach c init) := pres_whileCond GrowL.preord GrowL.topPres hc init
    have hg := hcond s
    rcases hm : whileCond localMach c init s with ⟨e | b, s1⟩
    · rfl
    · rw [hm] at hg
      dsimp only at hg ⊢
      have hlen := hg.2.depth
      have key := whileLoopM_eq (S := s1) (o := s) (c := whileCond localMach c) hb fuel init
        { s with loc := { s.loc with scopes := s1.loc.scopes, heap := s1.loc.heap, log := s1.loc.log } } hg.1.symm rfl
        ⟨rfl, Grow.of_same rfl rfl rfl hlen⟩
      obtain ⟨k1, k2⟩ := key
      rw [M.bind]
      have k1' : whileLoopM (whileCond localMach c) (whileBody localMach body) s fuel init s.ist s1 = _ := k1
      rw [k1']
      rcases hi : iterWhile (fun v => whileCond localMach c v s) body s1 fuel init
        { s with loc := { s.loc with scopes := s1.loc.scopes, heap := s1.loc.heap, log := s1.loc.log } } with ⟨e | v, s2⟩
      · rfl
      · obtain ⟨g1, g2, g3⟩ := k2 v s2 hi
        dsimp only
        rw [M.bind, updateFull_ok (g1.2.rng.trans hg.2.rng.symm)]
        rfl

/-! ### `vmap` -/

theorem difference_inj {s a b : LW} (hw : s.loc.WF) (ha : GrowL s a) (hb : GrowL s b)
    (h : (difference s.ist a.ist).noTrace = (difference s.ist b.ist).noTrace) : a.ist.noTrace = b.ist.noTrace := by
  have h1 := update_diff hw ha
  have h2 := update_diff hw hb
  have e : ∀ d d' : Diff, d.noTrace = d'.noTrace →
      (localMach.top (updateInternalState d) (s.back a)).2.ist.noTrace = (localMach.top (updateInternalState d') (s.back b)).2.ist.noTrace := by
    rintro ⟨p, st, r, tr⟩ ⟨p', st', r', tr'⟩ hd
    obtain ⟨rfl, rfl, rfl, -⟩ := Diff.mk.inj hd
    rw [top_eq, top_eq, updateInternalState_eq, updateInternalState_eq]
    rfl
  have e := e _ _ h
  rw [h2, h1] at e
  exact e

theorem difference_same {s a b : LW} (h : a.ist.noTrace = b.ist.noTrace) : (difference s.ist a.ist).noTrace = (difference s.ist b.ist).noTrace := by
  have e : ∀ x y : IState, x.noTrace = y.noTrace → (difference s.ist x).noTrace = (difference s.ist y).noTrace := by
    rintro ⟨p, st, r, tr⟩ ⟨p', st', r', tr'⟩ hd
    obtain ⟨rfl, rfl, rfl, -⟩ := IState.mk.inj hd
    rfl
  exact e _ _ h

/-- The outcomes of the batch elements: the first exception, or all results if all ended with the same data. -/
def collect (st : IState) (s : LW) (f : Val → M LW Val) : List Val → Except (Exc × LW) (List Val)
  | [] => .ok []
  | x :: xs =>
    match f x s with
    | (.error e, s1) => .error (e, s.back s1)
    | (.ok v, s1) =>
      if s1.ist.noTrace = st.noTrace then
        match collect st s f xs with
        | .error x => .error x
        | .ok vs => .ok (v :: vs)
      else .error (.structureMismatch, s.back s1)

theorem vmapBody_eq (m : M LW Val) (s : LW) : vmapBody localMach s.ist m s =
    match m s with
    | (.ok v, s1) => (.ok (v, difference s.ist s1.ist), s.back s1)
    | (.error e, s1) => (.error e, s.back s1) := by
  unfold vmapBody
  rw [temp_eq, load_self]
  unfold M.bind
  rcases m s with ⟨e | v, s1⟩ <;> rfl

theorem vmapRest_eq {f : Val → M LW Val} (hf : ∀ v, Pres GrowL (f v)) {s a : LW} (hw : s.loc.WF) (ha : GrowL s a) : ∀ xs : List Val,
    vmapRest localMach s.ist (difference s.ist a.ist) f s xs = collect a.ist s f xs := by
  intro xs
  induction xs with
  | nil => rfl
  | cons x xs ih =>
    have hg := hf x s
    unfold vmapRest collect
    rw [vmapBody_eq]
    rcases hm : f x s with ⟨e | v, s1⟩
    · rfl
    · rw [hm] at hg
      dsimp only
      by_cases he : s1.ist.noTrace = a.ist.noTrace
      · rw [if_pos he, if_pos (difference_same he), ih]
        cases collect a.ist s f xs <;> rfl
      · rw [if_neg he, if_neg fun h => he (difference_inj hw hg ha h)]

/-- `hk.vmap` on a non-empty batch. -/
theorem vmapM_eq {f : Val → M LW Val} (hf : ∀ v, Pres GrowL (f v)) (x : Val) (xs : List Val) {s : LW} (hw : s.loc.WF) :
    vmapM localMach f x xs s =
      match f x s with
      | (.error e, s1) => (.error e, s.back s1)
      | (.ok v, s1) =>
        match collect s1.ist s f xs with
        | .error (e, s') => (.error e, s')
        | .ok vs => (.ok (Val.ofList (v :: vs)), s.commit s1) := by
  unfold vmapM
  rw [M.bind, internal_eq]
  dsimp only
  unfold vmapFrom
  rw [vmapBody_eq]
  have hg := hf x s
  rcases hm : f x s with ⟨e | v, s1⟩
  · rfl
  · rw [hm] at hg
    dsimp only
    rw [vmapRest_eq hf hw hg]
    rcases collect s1.ist s f xs with ⟨e, s'⟩ | vs
    · rfl
    · dsimp only
      rw [M.bind, update_diff hw hg]
      rfl

end Verif
