import Verif.Model.ImpalaSystem
import Verif.Props.ImpalaLearner

/-!
# The threads of the IMPALA example compute what a sequential program computes (C190)
-/

set_option linter.unusedVariables false

namespace Verif.Props.ImpalaSystem
open Verif.Impala Verif.ImpalaSystem Verif.Props.Impala
open Verif.ImpalaLite (Traj)

variable {A P O G U D B L : Type}

/-! ### Specification: the sequential program -/

/-- Where the sequential program is: how many updates it has made, the parameters after each, the state of the optimiser, what the actors keep, and its log. -/
structure Seq (A P O L : Type) where
  updates : Nat
  params : Nat → P
  optState : O
  actors : Nat → A
  written : List (L × Nat)

/-- The trajectories, made one after the other, each with the parameters of its version. -/
def makeAll (W : Work A P O G U D B L) (frames : Nat) (params : Nat → P) : (Nat → A) → List Traj → List D × (Nat → A)
  | actors, [] => ([], actors)
  | actors, t :: ts =>
    let r := W.unroll (actors t.actor) (t.version * frames) (params t.version)
    let rest := makeAll W frames params (Function.update actors t.actor r.2) ts
    (r.1 :: rest.1, rest.2)

/-- Make the trajectories of a batch, then update. -/
def batchStep (W : Work A P O G U D B L) (frames : Nat) (q : Seq A P O L) (b : List Traj) : Seq A P O L :=
  let m := makeAll W frames q.params q.actors b
  let p := q.params q.updates
  let g := W.lossGrad p (W.stack m.1)
  let u := W.optUpdate g.2 q.optState
  let p' := W.applyUpdates p u.1
  ⟨q.updates + 1, Function.update q.params (q.updates + 1) p', u.2, m.2, q.written ++ [(W.addNorms g.1 g.2 p', (q.updates + 1) * frames)]⟩

/-- The sequential program on a list of batches. -/
def replay (W : Work A P O G U D B L) (frames : Nat) (actors : Nat → A) (p : P) (bs : List (List Traj)) : Seq A P O L :=
  bs.foldl (batchStep W frames) ⟨0, fun _ => p, W.optInit p, actors, []⟩

/-! ### Making trajectories -/

theorem makeAll_append (W : Work A P O G U D B L) (f : Nat) (ps : Nat → P) : ∀ (ts us : List Traj) (as : Nat → A),
    makeAll W f ps as (ts ++ us) = ((makeAll W f ps as ts).1 ++ (makeAll W f ps (makeAll W f ps as ts).2 us).1, (makeAll W f ps (makeAll W f ps as ts).2 us).2)
  | [], us, as => rfl
  | t :: ts, us, as => by
    rw [List.cons_append, makeAll, makeAll_append W f ps ts us]
    rfl

theorem makeAll_congr (W : Work A P O G U D B L) (f : Nat) {ps ps' : Nat → P} : ∀ (ts : List Traj) (as : Nat → A), (∀ t ∈ ts, ps t.version = ps' t.version) →
    makeAll W f ps as ts = makeAll W f ps' as ts
  | [], as, h => rfl
  | t :: ts, as, h => by
    rw [makeAll, makeAll, h t List.mem_cons_self, makeAll_congr W f ts _ fun u hu => h u (List.mem_cons_of_mem _ hu)]

theorem replay_snoc (W : Work A P O G U D B L) (f : Nat) (as : Nat → A) (p : P) (bs : List (List Traj)) (b : List Traj) :
    replay W f as p (bs ++ [b]) = batchStep W f (replay W f as p bs) b := by
  unfold replay
  rw [List.foldl_append]
  rfl

theorem replay_updates (W : Work A P O G U D B L) (f : Nat) (as : Nat → A) (p : P) (bs : List (List Traj)) : (replay W f as p bs).updates = bs.length := by
  induction bs using List.reverseRecOn with
  | nil => rfl
  | append_singleton bs b ih =>
    rw [replay_snoc, List.length_append]
    show (replay W f as p bs).updates + 1 = _
    rw [ih]
    rfl

/-! ### The invariant -/

/-- The trajectories that wait for the learner. -/
def waiting (s : State) : List Traj := working s.learner ++ s.deviceQ.flatten ++ s.batch ++ s.hostQ

theorem line_eq (s : State) : line s = s.seen.flatten ++ waiting s := by
  unfold line waiting
  simp only [List.append_assoc]

/-- The data is that of the sequential program after the batches seen, and the trajectories that wait are those it would make next. -/
structure Inv (W : Work A P O G U D B L) (c : Config) (as : Nat → A) (p : P) (s : State) (d : Data A P O D L) : Prop where
  params : d.params = (replay W c.framesPerIter as p s.seen).params s.seen.length
  optState : d.optState = (replay W c.framesPerIter as p s.seen).optState
  written : d.written = (replay W c.framesPerIter as p s.seen).written
  served : d.served = (s.seen.length * c.framesPerIter, d.params)
  next : (makeAll W c.framesPerIter (replay W c.framesPerIter as p s.seen).params (replay W c.framesPerIter as p s.seen).actors (waiting s)).1 = (waiting s).map d.contents
  idle : ∀ i, (∀ t, s.actor i ≠ .push t) →
    d.actors i = (makeAll W c.framesPerIter (replay W c.framesPerIter as p s.seen).params (replay W c.framesPerIter as p s.seen).actors (waiting s)).2 i
  busy : ∀ i t, s.actor i = .push t → (d.contents t, d.actors i) =
    W.unroll ((makeAll W c.framesPerIter (replay W c.framesPerIter as p s.seen).params (replay W c.framesPerIter as p s.seen).actors (waiting s)).2 i)
      (t.version * c.framesPerIter) ((replay W c.framesPerIter as p s.seen).params t.version)

theorem inv_start (W : Work A P O G U D B L) (c : Config) (junk : Traj → D) (as : Nat → A) (p : P) : Inv W c as p start (begin W junk as p) :=
  ⟨rfl, rfl, rfl, by simp [start, begin], rfl, fun i _ => rfl, fun i t h => (by cases h)⟩

/-- An access that only moves references. -/
theorem inv_same {W : Work A P O G U D B L} {c : Config} {as : Nat → A} {p : P} {s s' : State} {d : Data A P O D L} (h : Inv W c as p s d) (h1 : s'.seen = s.seen) (h2 : waiting s' = waiting s)
    (h3 : ∀ i t, s'.actor i = .push t ↔ s.actor i = .push t) : Inv W c as p s' d := by
  refine ⟨?_, ?_, ?_, ?_, ?_, ?_, ?_⟩
  · rw [h1]; exact h.params
  · rw [h1]; exact h.optState
  · rw [h1]; exact h.written
  · rw [h1]; exact h.served
  · rw [h1, h2]; exact h.next
  · intro i hi
    rw [h1, h2]
    exact h.idle i fun t ht => hi t ((h3 i t).2 ht)
  · intro i t ht
    rw [h1, h2]
    exact h.busy i t ((h3 i t).1 ht)

theorem inv_step {W : Work A P O G U D B L} {c : Config} {as : Nat → A} {p : P} {s s' : State} {d : Data A P O D L} {e : Event} (hf : Flow c s) (h : Inv W c as p s d)
    (he : Impala.step c s e = some s') : Inv W c as p s' (effect W c s d e) := by
  cases e with
  | actorTest i =>
    simp only [Impala.step] at he
    split at he
    · next hc =>
      cases he
      refine inv_same h rfl rfl fun j t => ?_
      show Function.update s.actor i _ j = _ ↔ _
      by_cases hj : j = i
      · subst hj
        rw [Function.update_self, hc.2]
        cases s.stop <;> simp
      · rw [Function.update_of_ne hj]
    · cases he
  | actorPull i =>
    simp only [Impala.step] at he
    split at he
    · next hc =>
      cases he
      set t0 : Traj := ⟨i, s.made i, s.seen.length⟩ with ht0
      have hnew : ∀ t, t ∈ waiting s → t ≠ t0 := by
        rintro t ht rfl
        have hm : t0 ∈ line s := by rw [line_eq]; exact List.mem_append_right _ ht
        have : t0.number ∈ Verif.Props.ImpalaLite.numbers i (line s) := by
          unfold Verif.Props.ImpalaLite.numbers
          exact List.mem_map.2 ⟨t0, List.mem_filter.2 ⟨hm, by simp [ht0]⟩, rfl⟩
        rw [hf.order i, List.mem_range] at this
        exact lt_irrefl _ this
      have hidle := h.idle i (fun t ht => by rw [hc.2] at ht; cases ht)
      refine ⟨h.params, h.optState, h.written, h.served, ?_, ?_, ?_⟩
      · refine h.next.trans (List.map_congr_left fun t ht => ?_)
        show d.contents t = Function.update d.contents t0 _ t
        rw [Function.update_of_ne (hnew t ht)]
      · intro j hj
        have hji : j ≠ i := by
          rintro rfl
          exact hj _ (Function.update_self _ _ _)
        show Function.update d.actors i _ j = _
        rw [Function.update_of_ne hji]
        refine h.idle j fun t ht => hj t ?_
        show Function.update s.actor i _ j = _
        rw [Function.update_of_ne hji]
        exact ht
      · intro j t ht
        by_cases hji : j = i
        · subst hji
          have : t = t0 := by
            have ht : Function.update s.actor j (Actor.push t0) j = .push t := ht
            rw [Function.update_self] at ht
            injection ht with ht
            exact ht.symm
          subst this
          show (Function.update d.contents t0 _ t0, Function.update d.actors j _ j) = _
          rw [Function.update_self, Function.update_self]
          show (_, _) = W.unroll ((makeAll W c.framesPerIter (replay W c.framesPerIter as p s.seen).params (replay W c.framesPerIter as p s.seen).actors (waiting s)).2 j)
            (s.seen.length * c.framesPerIter) ((replay W c.framesPerIter as p s.seen).params s.seen.length)
          rw [← hidle, h.served, h.params]
        · have ht' : s.actor j = .push t := by
            have ht : Function.update s.actor i (Actor.push t0) j = .push t := ht
            rw [Function.update_of_ne hji] at ht
            exact ht
          have hne : t ≠ t0 := by
            rintro rfl
            exact hji (hf.push j _ ht').1.symm
          show (Function.update d.contents t0 _ t, Function.update d.actors i _ j) = _
          rw [Function.update_of_ne hne, Function.update_of_ne hji]
          exact h.busy j t ht'
    · cases he
  | actorPush i =>
    simp only [Impala.step] at he
    split at he
    · next t ha =>
      split at he
      · next hc =>
        cases he
        obtain ⟨rfl, -, -, -⟩ := hf.push i t ha
        have hb := h.busy _ t ha
        have hw : waiting ({ s with actor := Function.update s.actor t.actor .test, made := Function.update s.made t.actor (s.made t.actor + 1), hostQ := s.hostQ ++ [t] } : State) = waiting s ++ [t] := by
          unfold waiting
          simp only [List.append_assoc]
        have hm := makeAll_append W c.framesPerIter (replay W c.framesPerIter as p s.seen).params (waiting s) [t] (replay W c.framesPerIter as p s.seen).actors
        simp only [makeAll] at hm
        rw [← hb] at hm
        refine ⟨h.params, h.optState, h.written, h.served, ?_, ?_, ?_⟩
        · rw [hw, hm, List.map_append]
          dsimp only
          rw [h.next]
          rfl
        · intro j hj
          rw [hw, hm]
          dsimp only
          by_cases hji : j = t.actor
          · subst hji
            rw [Function.update_self]
            rfl
          · rw [Function.update_of_ne hji]
            refine h.idle j fun u hu => hj u ?_
            show Function.update s.actor t.actor _ j = _
            rw [Function.update_of_ne hji]
            exact hu
        · intro j u hu
          have hji : j ≠ t.actor := by
            rintro rfl
            have hu : Function.update s.actor t.actor Actor.test t.actor = .push u := hu
            rw [Function.update_self] at hu
            cases hu
          rw [hw, hm]
          dsimp only
          rw [Function.update_of_ne hji]
          refine h.busy j u ?_
          have hu : Function.update s.actor t.actor Actor.test j = .push u := hu
          rw [Function.update_of_ne hji] at hu
          exact hu
      · cases he
    · cases he
  | workerTest =>
    simp only [Impala.step] at he
    split at he
    · cases he; exact inv_same h rfl rfl fun _ _ => Iff.rfl
    · cases he
  | workerGet =>
    simp only [Impala.step] at he
    split at he
    · split at he
      · next t q hq =>
        cases he
        refine inv_same h rfl ?_ fun _ _ => Iff.rfl
        unfold waiting
        rw [hq]
        simp
      · cases he
    · cases he
  | workerTimeout =>
    simp only [Impala.step] at he
    split at he
    · cases he; exact inv_same h rfl rfl fun _ _ => Iff.rfl
    · cases he
  | workerFull =>
    simp only [Impala.step] at he
    split at he
    · cases he; exact inv_same h rfl rfl fun _ _ => Iff.rfl
    · cases he
  | workerPut =>
    simp only [Impala.step] at he
    split at he
    · cases he
      refine inv_same h rfl ?_ fun _ _ => Iff.rfl
      unfold waiting
      simp
    · cases he
  | learnerGet =>
    simp only [Impala.step] at he
    split at he
    · next hc =>
      split at he
      · next b q hq =>
        cases he
        refine inv_same h rfl ?_ fun _ _ => Iff.rfl
        unfold waiting
        rw [hq, hc.1]
        simp [working]
      · cases he
    · cases he
  | learnerUpdate =>
    simp only [Impala.step] at he
    split at he
    · next b hl =>
      cases he
      set q := replay W c.framesPerIter as p s.seen with hq
      have hqu : q.updates = s.seen.length := replay_updates ..
      have hr : replay W c.framesPerIter as p (s.seen ++ [b]) = batchStep W c.framesPerIter q b := replay_snoc ..
      set w : List Traj := s.deviceQ.flatten ++ s.batch ++ s.hostQ with hw
      have hws : waiting s = b ++ w := by
        unfold waiting
        rw [hl, hw]
        simp [working]
      have hm := makeAll_append W c.framesPerIter q.params b w q.actors
      have hn := h.next
      have hi := h.idle
      have hbz := h.busy
      rw [← hq] at hn hi hbz
      rw [hws, hm, List.map_append] at hn
      rw [hws, hm] at hi hbz
      have hlen : (makeAll W c.framesPerIter q.params q.actors b).1.length = (b.map d.contents).length := by
        have : ∀ (ts : List Traj) (as : Nat → A), (makeAll W c.framesPerIter q.params as ts).1.length = ts.length := by
          intro ts
          induction ts with
          | nil => exact fun _ => rfl
          | cons t ts ih => intro as; simp only [makeAll, List.length_cons, ih]
        rw [this, List.length_map]
      obtain ⟨hn1, hn2⟩ := List.append_inj hn hlen
      have hver : ∀ t ∈ w, (batchStep W c.framesPerIter q b).params t.version = q.params t.version := by
        intro t ht
        have hm : t ∈ line s := by
          rw [line_eq, hws]
          exact List.mem_append_right _ (List.mem_append_right _ ht)
        have := (hf.actors t hm).2
        show Function.update q.params (q.updates + 1) _ t.version = _
        rw [Function.update_of_ne (by rw [hqu]; omega)]
      have hw' : waiting ({ s with learner := .getting, seen := s.seen ++ [b], frames := s.frames + c.framesPerIter } : State) = w := by
        unfold waiting
        simp [working, hw]
      have hmw : makeAll W c.framesPerIter (batchStep W c.framesPerIter q b).params (batchStep W c.framesPerIter q b).actors w =
          makeAll W c.framesPerIter q.params (makeAll W c.framesPerIter q.params q.actors b).2 w := makeAll_congr W _ w _ hver
      have hp : d.params = q.params q.updates := by rw [hqu]; exact h.params
      have ho : d.optState = q.optState := h.optState
      have heff : effect W c s d .learnerUpdate = { d with
          params := (batchStep W c.framesPerIter q b).params (q.updates + 1), optState := (batchStep W c.framesPerIter q b).optState,
          served := ((q.updates + 1) * c.framesPerIter, (batchStep W c.framesPerIter q b).params (q.updates + 1)), written := (batchStep W c.framesPerIter q b).written } := by
        have hfr : s.frames + c.framesPerIter = (q.updates + 1) * c.framesPerIter := by rw [hf.frames, hqu, Nat.succ_mul]
        simp only [effect, hl, update, batchStep, Function.update_self, hfr, hn1, hp, ho, h.written, ← hq]
      rw [heff]
      refine ⟨?_, ?_, ?_, ?_, ?_, ?_, ?_⟩
      · show _ = (replay W c.framesPerIter as p (s.seen ++ [b])).params (s.seen ++ [b]).length
        rw [hr, hqu, List.length_append]
        rfl
      · show _ = (replay W c.framesPerIter as p (s.seen ++ [b])).optState
        rw [hr]
      · show _ = (replay W c.framesPerIter as p (s.seen ++ [b])).written
        rw [hr]
      · show _ = ((s.seen ++ [b]).length * c.framesPerIter, _)
        rw [hqu, List.length_append]
        rfl
      · rw [hw']
        show (makeAll W c.framesPerIter (replay W c.framesPerIter as p (s.seen ++ [b])).params (replay W c.framesPerIter as p (s.seen ++ [b])).actors w).1 = _
        rw [hr, hmw]
        exact hn2
      · intro i hni
        rw [hw']
        show d.actors i = (makeAll W c.framesPerIter (replay W c.framesPerIter as p (s.seen ++ [b])).params (replay W c.framesPerIter as p (s.seen ++ [b])).actors w).2 i
        rw [hr, hmw]
        exact hi i hni
      · intro i t ht
        rw [hw']
        show (d.contents t, d.actors i) = W.unroll ((makeAll W c.framesPerIter (replay W c.framesPerIter as p (s.seen ++ [b])).params (replay W c.framesPerIter as p (s.seen ++ [b])).actors w).2 i)
          (t.version * c.framesPerIter) ((replay W c.framesPerIter as p (s.seen ++ [b])).params t.version)
        have hle := (hf.push i t ht).2.2.2
        have hpt : (batchStep W c.framesPerIter q b).params t.version = q.params t.version := by
          show Function.update q.params (q.updates + 1) _ t.version = _
          rw [Function.update_of_ne (by rw [hqu]; omega)]
        rw [hr, hmw, hpt]
        exact hbz i t ht
    · cases he
  | learnerDone =>
    simp only [Impala.step] at he
    split at he
    · next hc =>
      cases he
      refine inv_same h rfl ?_ fun _ _ => Iff.rfl
      unfold waiting
      rw [hc.1]
      rfl
    · cases he
  | learnerJoin =>
    simp only [Impala.step] at he
    split at he
    · next hc =>
      cases he
      refine inv_same h rfl ?_ fun _ _ => Iff.rfl
      unfold waiting
      rw [hc.1]
      rfl
    · cases he
  | mainJoin =>
    simp only [Impala.step] at he
    split at he
    · cases he; exact inv_same h rfl rfl fun _ _ => Iff.rfl
    · cases he

theorem inv_run {W : Work A P O G U D B L} {c : Config} {as : Nat → A} {p : P} : ∀ (es : List Event) {s s' : State} {d d' : Data A P O D L}, Flow c s → Inv W c as p s d →
    ImpalaSystem.run W c (s, d) es = some (s', d') → Impala.run c s es = some s' ∧ Inv W c as p s' d'
  | [], s, s', d, d', hf, h, hr => by cases hr; exact ⟨rfl, h⟩
  | e :: es, s, s', d, d', hf, h, hr => by
    simp only [ImpalaSystem.run, Option.bind_eq_some_iff, ImpalaSystem.step, Option.map_eq_some_iff] at hr
    obtain ⟨x, ⟨s1, h1, rfl⟩, h2⟩ := hr
    obtain ⟨k1, k2⟩ := inv_run es (step_flow hf h1) (inv_step hf h h1) h2
    exact ⟨by rw [Impala.run, h1]; exact k1, k2⟩

/-- C190: whatever the interleaving of the threads was, the parameters, the state of the optimiser and the log are those of the sequential program that, batch after batch, makes the trajectories of the batch, one after the other, each with the parameters of its version, and then makes one update.  What the places of the trajectories held before (`junk`) makes no difference. -/
theorem sequential (W : Work A P O G U D B L) (c : Config) (junk : Traj → D) (as : Nat → A) (p : P) (es : List Event) {s : State} {d : Data A P O D L}
    (h : ImpalaSystem.run W c (start, begin W junk as p) es = some (s, d)) :
    let q := replay W c.framesPerIter as p s.seen
    d.params = q.params s.seen.length ∧ d.optState = q.optState ∧ d.written = q.written := by
  obtain ⟨-, hi⟩ := inv_run es (start_flow c) (inv_start W c junk as p) h
  exact ⟨hi.params, hi.optState, hi.written⟩

/-- C190: the parameters that actors can pull and the number of frames that comes with them always belong together: they are those after the same number of updates. -/
theorem served_together (W : Work A P O G U D B L) (c : Config) (junk : Traj → D) (as : Nat → A) (p : P) (es : List Event) {s : State} {d : Data A P O D L}
    (h : ImpalaSystem.run W c (start, begin W junk as p) es = some (s, d)) :
    d.served = (s.seen.length * c.framesPerIter, (replay W c.framesPerIter as p s.seen).params s.seen.length) := by
  obtain ⟨-, hi⟩ := inv_run es (start_flow c) (inv_start W c junk as p) h
  rw [hi.served, hi.params]

/-- C190: what the learner is about to update with are the trajectories that the sequential program makes next. -/
theorem batch_next (W : Work A P O G U D B L) (c : Config) (junk : Traj → D) (as : Nat → A) (p : P) (es : List Event) {s : State} {d : Data A P O D L}
    (h : ImpalaSystem.run W c (start, begin W junk as p) es = some (s, d)) {b : List Traj} (hb : s.learner = .updating b) :
    let q := replay W c.framesPerIter as p s.seen
    b.map d.contents = (makeAll W c.framesPerIter q.params q.actors b).1 := by
  obtain ⟨-, hi⟩ := inv_run es (start_flow c) (inv_start W c junk as p) h
  have hn := hi.next
  have hws : waiting s = b ++ (s.deviceQ.flatten ++ s.batch ++ s.hostQ) := by
    unfold waiting
    rw [hb]
    simp [working]
  rw [hws, makeAll_append, List.map_append] at hn
  have hlen : ∀ (ps : Nat → P) (ts : List Traj) (as : Nat → A), (makeAll W c.framesPerIter ps as ts).1.length = ts.length := by
    intro ps ts
    induction ts with
    | nil => exact fun _ => rfl
    | cons t ts ih => intro as; simp only [makeAll, List.length_cons, ih]
  exact (List.append_inj hn (by rw [hlen, List.length_map])).1.symm

/-- C190: the computation does not block or fail on account of the data: every interleaving of the accesses is one with data. -/
theorem data_follows (W : Work A P O G U D B L) (c : Config) : ∀ (es : List Event) (s : State) (d : Data A P O D L) (s' : State), Impala.run c s es = some s' →
    ∃ d', ImpalaSystem.run W c (s, d) es = some (s', d')
  | [], s, d, s', h => by cases h; exact ⟨d, rfl⟩
  | e :: es, s, d, s', h => by
    simp only [Impala.run, Option.bind_eq_some_iff] at h
    obtain ⟨s1, h1, h2⟩ := h
    obtain ⟨d', hd⟩ := data_follows W c es s1 (effect W c s d e) s' h2
    exact ⟨d', by rw [ImpalaSystem.run, ImpalaSystem.step, h1]; exact hd⟩

/-! ### A case: two actors pull the same parameters, the second trajectory is used after an update -/

/-- An actor that counts, a loss that remembers the batch. -/
def work : Work Nat Nat Nat Nat Nat Nat (List Nat) (List Nat) :=
  ⟨fun a n p => (100 * a + 10 * p + n, a + 1), id, fun p b => (p :: b, p + b.sum), fun g o => (g + o, o + 1), fun p u => p + u, fun l g p => l ++ [g, p], fun _ => 7⟩

/-- Both pull before the first update. -/
def offPolicy : List Event :=
  [.actorTest 0, .actorPull 0, .actorTest 1, .actorPull 1, .actorPush 0, .workerTest, .workerGet, .workerFull, .workerPut, .learnerGet, .learnerUpdate,
    .actorPush 1, .workerTest, .workerGet, .workerFull, .workerPut, .learnerGet, .learnerUpdate]

example : ∃ s d, ImpalaSystem.run work ⟨2, 1, 20, none⟩ (start, begin work (fun _ => 0) (fun i => 5 * i) 3) offPolicy = some (s, d) ∧ s.seen = [[⟨0, 0, 0⟩], [⟨1, 0, 0⟩]] ∧
    d.params = 624 ∧ d.written = [([3, 30, 33, 43], 20), ([43, 530, 573, 624], 40)] := by
  refine ⟨_, _, rfl, rfl, ?_, ?_⟩ <;> decide

end Verif.Props.ImpalaSystem
