import Verif.Model.ImpalaLiteSystem
import Verif.Props.ImpalaLite

/-!
# The threads of `impala_lite` compute what a sequential program computes (C193)
-/

set_option linter.unusedVariables false

namespace Verif.Props.ImpalaLiteSystem
open Verif.ImpalaLite Verif.ImpalaLiteSystem
open Verif.Props.ImpalaLite (line numbers Final)
open Verif.ImpalaActor (TimeStep)
open Verif.Shapes (Err)

variable {A P O G U D B : Type}

/-! ### Specification: the sequential program -/

/-- Where the sequential program is: how many updates it has made, the parameters after each, the state of the optimiser, and the variables of the actors. -/
structure Seq (A P O : Type) where
  updates : Nat
  params : Nat → P
  optState : O
  actors : Nat → A

/-- The trajectories, made one after the other, each with the parameters of its version. -/
def makeAll (W : Work A P O G U D B) (params : Nat → P) : (Nat → A) → List Traj → List D × (Nat → A)
  | actors, [] => ([], actors)
  | actors, t :: ts =>
    let r := W.unroll (actors t.actor) t.number (params t.version)
    let rest := makeAll W params (Function.update actors t.actor r.2) ts
    (r.1 :: rest.1, rest.2)

/-- Make the trajectories of a batch, then update. -/
def batchStep (W : Work A P O G U D B) (q : Seq A P O) (b : List Traj) : Seq A P O :=
  let m := makeAll W q.params q.actors b
  let p := q.params q.updates
  let u := W.optUpdate (W.grad p (W.stack m.1)) q.optState
  ⟨q.updates + 1, Function.update q.params (q.updates + 1) (W.applyUpdates p u.1), u.2, m.2⟩

/-- The sequential program on a list of batches. -/
def replay (W : Work A P O G U D B) (actors : Nat → A) (p : P) (bs : List (List Traj)) : Seq A P O :=
  bs.foldl (batchStep W) ⟨0, fun _ => p, W.optInit p, actors⟩

/-- One actor on its own: it makes the trajectories of a list of numbers and versions. -/
def alone (W : Work A P O G U D B) (params : Nat → P) : A → List Traj → List D × A
  | a, [] => ([], a)
  | a, t :: ts =>
    let r := W.unroll a t.number (params t.version)
    let rest := alone W params r.2 ts
    (r.1 :: rest.1, rest.2)

/-! ### Making trajectories -/

theorem makeAll_append (W : Work A P O G U D B) (ps : Nat → P) : ∀ (ts us : List Traj) (as : Nat → A),
    makeAll W ps as (ts ++ us) = ((makeAll W ps as ts).1 ++ (makeAll W ps (makeAll W ps as ts).2 us).1, (makeAll W ps (makeAll W ps as ts).2 us).2)
  | [], us, as => rfl
  | t :: ts, us, as => by
    rw [List.cons_append, makeAll, makeAll_append W ps ts us]
    rfl

theorem makeAll_congr (W : Work A P O G U D B) {ps ps' : Nat → P} : ∀ (ts : List Traj) (as : Nat → A), (∀ t ∈ ts, ps t.version = ps' t.version) →
    makeAll W ps as ts = makeAll W ps' as ts
  | [], as, h => rfl
  | t :: ts, as, h => by
    rw [makeAll, makeAll, h t List.mem_cons_self, makeAll_congr W ts _ fun u hu => h u (List.mem_cons_of_mem _ hu)]

theorem makeAll_length (W : Work A P O G U D B) (ps : Nat → P) : ∀ (ts : List Traj) (as : Nat → A), (makeAll W ps as ts).1.length = ts.length
  | [], as => rfl
  | t :: ts, as => by simp only [makeAll, List.length_cons, makeAll_length W ps ts]

/-- What an actor makes does not depend on the others. -/
theorem alone_of_all (W : Work A P O G U D B) (ps : Nat → P) (i : Nat) (f : Traj → D) : ∀ (ts : List Traj) (as : Nat → A), (makeAll W ps as ts).1 = ts.map f →
    alone W ps (as i) (ts.filter fun t => t.actor = i) = ((ts.filter fun t => t.actor = i).map f, (makeAll W ps as ts).2 i)
  | [], as, h => rfl
  | t :: ts, as, h => by
    rw [makeAll] at h
    dsimp only at h
    rw [List.map_cons] at h
    injection h with h1 h2
    have ih := alone_of_all W ps i f ts _ h2
    rw [makeAll]
    dsimp only
    by_cases hi : t.actor = i
    · subst hi
      rw [Function.update_self] at ih
      rw [List.filter_cons_of_pos (by simp), alone]
      rw [ih, List.map_cons, h1]
    · rw [Function.update_of_ne (Ne.symm hi)] at ih
      rw [List.filter_cons_of_neg (by simpa using hi), ih]

theorem replay_snoc (W : Work A P O G U D B) (as : Nat → A) (p : P) (bs : List (List Traj)) (b : List Traj) :
    replay W as p (bs ++ [b]) = batchStep W (replay W as p bs) b := by
  unfold replay
  rw [List.foldl_append]
  rfl

theorem replay_updates (W : Work A P O G U D B) (as : Nat → A) (p : P) (bs : List (List Traj)) : (replay W as p bs).updates = bs.length := by
  induction bs using List.reverseRecOn with
  | nil => rfl
  | append_singleton bs b ih =>
    rw [replay_snoc, List.length_append]
    show (replay W as p bs).updates + 1 = _
    rw [ih]
    rfl

/-! ### The invariant -/

/-- The data is that of the sequential program after the batches seen, and the trajectories put are those it would make. -/
structure Inv (W : Work A P O G U D B) (c : Config) (as : Nat → A) (p : P) (s : State) (d : Data A P O D) : Prop where
  params : d.params = (replay W as p s.seen).params s.seen.length
  optState : d.optState = (replay W as p s.seen).optState
  made : (replay W as p s.seen).actors = (makeAll W (replay W as p s.seen).params as s.seen.flatten).2
  all : (makeAll W (replay W as p s.seen).params as (line s)).1 = (line s).map d.contents
  idle : ∀ i, s.held i = none → d.actors i = (makeAll W (replay W as p s.seen).params as (line s)).2 i
  busy : ∀ i t, s.held i = some t → (d.contents t, d.actors i) =
    W.unroll ((makeAll W (replay W as p s.seen).params as (line s)).2 i) t.number ((replay W as p s.seen).params t.version)
  version : ∀ t ∈ line s, t.version ≤ s.seen.length
  heldVersion : ∀ i t, s.held i = some t → t.version ≤ s.seen.length

theorem inv_start (W : Work A P O G U D B) (c : Config) (junk : Traj → D) (as : Nat → A) (p : P) : Inv W c as p start (begin W junk as p) :=
  ⟨rfl, rfl, rfl, rfl, fun i _ => rfl, fun i t h => (by cases h), fun t h => (by cases h), fun i t h => (by cases h)⟩

theorem inv_step {W : Work A P O G U D B} {c : Config} {as : Nat → A} {p : P} {s s' : State} {d : Data A P O D} {e : Event} (hf : Verif.Props.ImpalaLite.Inv c s) (h : Inv W c as p s d)
    (he : ImpalaLite.step c s e = some s') : Inv W c as p s' (effect W s d e) := by
  cases e with
  | pull i =>
    simp only [ImpalaLite.step] at he
    split at he
    · next hc =>
      cases he
      set t0 : Traj := ⟨i, s.made i, s.seen.length⟩ with ht0
      have hnew : ∀ t, t ∈ line s → t ≠ t0 := by
        rintro t ht rfl
        have : t0.number ∈ numbers i (line s) := by
          unfold numbers
          exact List.mem_map.2 ⟨t0, List.mem_filter.2 ⟨ht, by simp [ht0]⟩, rfl⟩
        rw [hf.order i, List.mem_range] at this
        exact lt_irrefl _ this
      have hidle := h.idle i hc.2.1
      refine ⟨h.params, h.optState, h.made, ?_, ?_, ?_, h.version, ?_⟩
      · refine h.all.trans (List.map_congr_left fun t ht => ?_)
        show d.contents t = Function.update d.contents t0 _ t
        rw [Function.update_of_ne (hnew t ht)]
      · intro j hj
        have hj : Function.update s.held i (some t0) j = none := hj
        have hji : j ≠ i := by
          rintro rfl
          rw [Function.update_self] at hj
          cases hj
        rw [Function.update_of_ne hji] at hj
        show Function.update d.actors i _ j = _
        rw [Function.update_of_ne hji]
        exact h.idle j hj
      · intro j t ht
        have ht : Function.update s.held i (some t0) j = some t := ht
        by_cases hji : j = i
        · subst hji
          rw [Function.update_self] at ht
          injection ht with ht
          subst ht
          show (Function.update d.contents t0 _ t0, Function.update d.actors j _ j) = _
          rw [Function.update_self, Function.update_self]
          show (_, _) = W.unroll ((makeAll W (replay W as p s.seen).params as (line s)).2 j) (s.made j) ((replay W as p s.seen).params s.seen.length)
          rw [← hidle, ← h.params]
        · rw [Function.update_of_ne hji] at ht
          have hne : t ≠ t0 := by
            rintro rfl
            exact hji (hf.held j _ ht).1.symm
          show (Function.update d.contents t0 _ t, Function.update d.actors i _ j) = _
          rw [Function.update_of_ne hne, Function.update_of_ne hji]
          exact h.busy j t ht
      · intro j t ht
        have ht : Function.update s.held i (some t0) j = some t := ht
        by_cases hji : j = i
        · subst hji
          rw [Function.update_self] at ht
          injection ht with ht
          subst ht
          exact le_refl _
        · rw [Function.update_of_ne hji] at ht
          exact h.heldVersion j t ht
    · cases he
  | put i =>
    simp only [ImpalaLite.step] at he
    split at he
    · next t ha =>
      split at he
      · next hc =>
        cases he
        obtain ⟨rfl, -, -, -⟩ := hf.held i t ha
        have hb := h.busy _ t ha
        have hw : line ({ s with held := Function.update s.held t.actor none, made := Function.update s.made t.actor (s.made t.actor + 1), queue := s.queue ++ [t] } : State) = line s ++ [t] := by
          unfold line
          simp only [List.append_assoc]
        have hm := makeAll_append W (replay W as p s.seen).params (line s) [t] as
        simp only [makeAll] at hm
        rw [← hb] at hm
        refine ⟨h.params, h.optState, h.made, ?_, ?_, ?_, ?_, ?_⟩
        · rw [hw, hm, List.map_append]
          dsimp only
          rw [h.all]
          rfl
        · intro j hj
          rw [hw, hm]
          dsimp only
          by_cases hji : j = t.actor
          · subst hji
            rw [Function.update_self]
            rfl
          · rw [Function.update_of_ne hji]
            have hj : Function.update s.held t.actor none j = none := hj
            rw [Function.update_of_ne hji] at hj
            exact h.idle j hj
        · intro j u hu
          have hu : Function.update s.held t.actor none j = some u := hu
          have hji : j ≠ t.actor := by
            rintro rfl
            rw [Function.update_self] at hu
            cases hu
          rw [hw, hm]
          dsimp only
          rw [Function.update_of_ne hji] at hu ⊢
          exact h.busy j u hu
        · intro u hu
          rw [hw] at hu
          rcases List.mem_append.1 hu with hu | hu
          · exact h.version u hu
          · rw [List.mem_singleton.1 hu]
            exact h.heldVersion _ t ha
        · intro j u hu
          have hu : Function.update s.held t.actor none j = some u := hu
          have hji : j ≠ t.actor := by
            rintro rfl
            rw [Function.update_self] at hu
            cases hu
          rw [Function.update_of_ne hji] at hu
          exact h.heldVersion j u hu
      · cases he
    · cases he
  | get =>
    simp only [ImpalaLite.step] at he
    split at he
    · split at he
      · next t q hq =>
        cases he
        have hw : line ({ s with queue := q, batch := s.batch ++ [t] } : State) = line s := by simp [line, hq]
        exact ⟨h.params, h.optState, h.made, by rw [hw]; exact h.all, by rw [hw]; exact h.idle, by rw [hw]; exact h.busy, by rw [hw]; exact h.version, h.heldVersion⟩
      · cases he
    · cases he
  | update =>
    simp only [ImpalaLite.step] at he
    split at he
    · next hc =>
      cases he
      set q := replay W as p s.seen with hq
      have hqu : q.updates = s.seen.length := replay_updates ..
      have hr : replay W as p (s.seen ++ [s.batch]) = batchStep W q s.batch := replay_snoc ..
      have hlen : (s.seen ++ [s.batch]).length = s.seen.length + 1 := by simp
      have hw : line ({ s with batch := [], seen := s.seen ++ [s.batch] } : State) = line s := by simp [line]
      -- the batch holds what the sequential program makes next
      have ha := h.all
      have hl : line s = s.seen.flatten ++ (s.batch ++ s.queue) := by simp [line]
      rw [← hq, hl, makeAll_append, List.map_append] at ha
      have ha2 := (List.append_inj ha (by rw [makeAll_length, List.length_map])).2
      rw [makeAll_append, List.map_append] at ha2
      have hb := (List.append_inj ha2 (by rw [makeAll_length, List.length_map])).1
      rw [← h.made, ← hq] at hb
      -- an update does not change the parameters of earlier versions
      have hps : ∀ v ≤ s.seen.length, (batchStep W q s.batch).params v = q.params v := by
        intro v hv
        show Function.update q.params (q.updates + 1) _ v = _
        rw [Function.update_of_ne (by rw [hqu]; omega)]
      have hcon : ∀ ts : List Traj, (∀ t ∈ ts, t ∈ line s) → makeAll W (batchStep W q s.batch).params as ts = makeAll W q.params as ts :=
        fun ts hts => makeAll_congr W ts as fun t ht => hps _ (h.version t (hts t ht))
      have hp : d.params = q.params q.updates := by rw [hqu]; exact h.params
      have heff : effect W s d .update = { d with params := (batchStep W q s.batch).params (q.updates + 1), optState := (batchStep W q s.batch).optState } := by
        simp only [effect, update, batchStep, Function.update_self, hb, hp, h.optState, ← hq]
      rw [heff]
      refine ⟨?_, ?_, ?_, ?_, ?_, ?_, ?_, ?_⟩
      · show _ = (replay W as p (s.seen ++ [s.batch])).params (s.seen ++ [s.batch]).length
        rw [hr, hlen, hqu]
      · show _ = (replay W as p (s.seen ++ [s.batch])).optState
        rw [hr]
      · show (replay W as p (s.seen ++ [s.batch])).actors = (makeAll W (replay W as p (s.seen ++ [s.batch])).params as (s.seen ++ [s.batch]).flatten).2
        have hfl : (s.seen ++ [s.batch]).flatten = s.seen.flatten ++ s.batch := by simp
        rw [hr, hfl, hcon _ (fun t ht => by rw [line]; exact List.mem_append_left _ ht), makeAll_append]
        show (makeAll W q.params q.actors s.batch).2 = _
        rw [h.made]
      · rw [hw]
        show (makeAll W (replay W as p (s.seen ++ [s.batch])).params as (line s)).1 = _
        rw [hr, hcon _ fun _ ht => ht]
        exact h.all
      · intro i hi
        rw [hw]
        show _ = (makeAll W (replay W as p (s.seen ++ [s.batch])).params as (line s)).2 i
        rw [hr, hcon _ fun _ ht => ht]
        exact h.idle i hi
      · intro i t ht
        rw [hw]
        show _ = W.unroll ((makeAll W (replay W as p (s.seen ++ [s.batch])).params as (line s)).2 i) t.number ((replay W as p (s.seen ++ [s.batch])).params t.version)
        rw [hr, hcon _ fun _ ht => ht, hps _ (h.heldVersion i t ht)]
        exact h.busy i t ht
      · intro t ht
        rw [hw] at ht
        show _ ≤ (s.seen ++ [s.batch]).length
        have := h.version t ht
        omega
      · intro i t ht
        show _ ≤ (s.seen ++ [s.batch]).length
        have := h.heldVersion i t ht
        omega
    · cases he

theorem inv_run {W : Work A P O G U D B} {c : Config} (hc : 0 < c.batchSize) {as : Nat → A} {p : P} : ∀ (es : List Event) {s s' : State} {d d' : Data A P O D}, Verif.Props.ImpalaLite.Inv c s → Inv W c as p s d →
    ImpalaLiteSystem.run W c (s, d) es = some (s', d') → ImpalaLite.run c s es = some s' ∧ Verif.Props.ImpalaLite.Inv c s' ∧ Inv W c as p s' d'
  | [], s, s', d, d', hf, h, hr => by cases hr; exact ⟨rfl, hf, h⟩
  | e :: es, s, s', d, d', hf, h, hr => by
    simp only [ImpalaLiteSystem.run, Option.bind_eq_some_iff, ImpalaLiteSystem.step, Option.map_eq_some_iff] at hr
    obtain ⟨x, ⟨s1, h1, rfl⟩, h2⟩ := hr
    obtain ⟨k1, k2, k3⟩ := inv_run hc es (Verif.Props.ImpalaLite.step_inv hc hf h1).1 (inv_step hf h h1) h2
    exact ⟨by rw [ImpalaLite.run, h1]; exact k1, k2, k3⟩

/-! ### Theorems -/

/-- C193: whatever the interleaving of the threads was, the parameters and the state of the optimiser are those of the sequential program that, batch after batch, makes the trajectories of the batch, one after the other, each with the parameters of its version, and then makes one update.  What the places of the trajectories held before (`junk`) makes no difference. -/
theorem sequential (W : Work A P O G U D B) (c : Config) (hc : 0 < c.batchSize) (junk : Traj → D) (as : Nat → A) (p : P) (es : List Event) {s : State} {d : Data A P O D}
    (h : ImpalaLiteSystem.run W c (start, begin W junk as p) es = some (s, d)) :
    d.params = (replay W as p s.seen).params s.seen.length ∧ d.optState = (replay W as p s.seen).optState := by
  obtain ⟨-, -, hi⟩ := inv_run hc es (Verif.Props.ImpalaLite.start_inv c) (inv_start W c junk as p) h
  exact ⟨hi.params, hi.optState⟩

/-- C193: the data decides nothing about the control: every interleaving of the accesses is one with data, and two runs with the same batches end with the same parameters, however they were interleaved. -/
theorem only_batches_matter (W : Work A P O G U D B) (c : Config) (hc : 0 < c.batchSize) (junk junk' : Traj → D) (as : Nat → A) (p : P) (es es' : List Event) {s s' : State}
    (h : ImpalaLite.run c start es = some s) (h' : ImpalaLite.run c start es' = some s') (hs : s.seen = s'.seen) :
    ∃ d d', ImpalaLiteSystem.run W c (start, begin W junk as p) es = some (s, d) ∧ ImpalaLiteSystem.run W c (start, begin W junk' as p) es' = some (s', d') ∧
      d.params = d'.params ∧ d.optState = d'.optState := by
  have key : ∀ (es : List Event) (s : State) (d : Data A P O D) (s' : State), ImpalaLite.run c s es = some s' → ∃ d', ImpalaLiteSystem.run W c (s, d) es = some (s', d') := by
    intro es
    induction es with
    | nil => intro s d s' h; cases h; exact ⟨d, rfl⟩
    | cons e es ih =>
      intro s d s' h
      simp only [ImpalaLite.run, Option.bind_eq_some_iff] at h
      obtain ⟨s1, h1, h2⟩ := h
      obtain ⟨d', hd⟩ := ih s1 (effect W s d e) s' h2
      exact ⟨d', by rw [ImpalaLiteSystem.run, ImpalaLiteSystem.step, h1]; exact hd⟩
  obtain ⟨d, hd⟩ := key es start (begin W junk as p) s h
  obtain ⟨d', hd'⟩ := key es' start (begin W junk' as p) s' h'
  obtain ⟨a1, a2⟩ := sequential W c hc junk as p es hd
  obtain ⟨b1, b2⟩ := sequential W c hc junk' as p es' hd'
  exact ⟨d, d', hd, hd', by rw [a1, b1, hs], by rw [a2, b2, hs]⟩

/-- C193: the trajectories of an actor are those that it would make alone, round after round, with the parameters of their versions: the other actors have no part in them. -/
theorem actor_alone (W : Work A P O G U D B) (c : Config) (hc : 0 < c.batchSize) (junk : Traj → D) (as : Nat → A) (p : P) (es : List Event) {s : State} {d : Data A P O D}
    (h : ImpalaLiteSystem.run W c (start, begin W junk as p) es = some (s, d)) (i : Nat) :
    let own := (s.seen.flatten ++ s.batch ++ s.queue).filter fun t => t.actor = i
    (alone W (replay W as p s.seen).params (as i) own).1 = own.map d.contents ∧ own.map Traj.number = List.range (s.made i) ∧ ∀ t ∈ own, t.version ≤ s.seen.length := by
  obtain ⟨-, hf, hi⟩ := inv_run hc es (Verif.Props.ImpalaLite.start_inv c) (inv_start W c junk as p) h
  refine ⟨?_, hf.order i, fun t ht => hi.version t (List.mem_filter.1 ht).1⟩
  have := alone_of_all W (replay W as p s.seen).params i d.contents (line s) as hi.all
  exact congrArg Prod.fst this

/-! ### The loop of `run_actor` -/

theorem rollout_ok {K Ob L Ac E : Type} [Zero K] [One K] (agentStep : P → Key → TimeStep K Ob → Ac × L) (envStep : E → Ac → E × TimeStep K Ob) (params : P) : ∀ (n : Nat) (s : ImpalaLiteAgent.Actor K Ob L Ac E),
    ∃ s', ImpalaLiteAgent.rollout (fun p k t => (.ok (agentStep p k t) : Except Err (Ac × L))) envStep params n s = .ok s'
  | 0, s => ⟨s, rfl⟩
  | n + 1, s => by
    obtain ⟨s', h⟩ := rollout_ok agentStep envStep params n ⟨Key.child s.rngKey 2 0, (envStep s.env (agentStep params (Key.child s.rngKey 2 1) (ImpalaLiteAgent.preprocess s.state)).1).1,
      (envStep s.env (agentStep params (Key.child s.rngKey 2 1) (ImpalaLiteAgent.preprocess s.state)).1).2,
      s.traj ++ [⟨ImpalaLiteAgent.preprocess s.state, (agentStep params (Key.child s.rngKey 2 1) (ImpalaLiteAgent.preprocess s.state)).1, (agentStep params (Key.child s.rngKey 2 1) (ImpalaLiteAgent.preprocess s.state)).2⟩]⟩
    exact ⟨s', h⟩

theorem alone_runFrom {K Ob L Ac E : Type} [Zero K] [One K] (agentStep : P → Key → TimeStep K Ob → Ac × L) (envStep : E → Ac → E × TimeStep K Ob) (unrollLen : Nat)
    (W : Work (ImpalaLiteAgent.Actor K Ob L Ac E) P O G U (List (ImpalaLiteAgent.Transition K Ob L Ac)) B) (hW : W.unroll = actorRound agentStep envStep unrollLen) (ps : Nat → P) :
    ∀ (ts : List Traj) (k : Nat) (a : ImpalaLiteAgent.Actor K Ob L Ac E), ts.map Traj.number = List.range' k ts.length →
      ImpalaLiteAgent.runFrom (fun p k t => (.ok (agentStep p k t) : Except Err (Ac × L))) envStep unrollLen k (ts.map fun t => ps t.version) a = .ok (alone W ps a ts).1
  | [], k, a, h => rfl
  | t :: ts, k, a, h => by
    rw [List.map_cons, List.length_cons, List.range'_succ] at h
    injection h with h1 h2
    obtain ⟨s', hs⟩ := rollout_ok agentStep envStep (ps t.version) (unrollLen + if k = 0 then 1 else 0) a
    have ih := alone_runFrom agentStep envStep unrollLen W hW ps ts (k + 1) { s' with traj := s'.traj.drop (s'.traj.length - 1) } h2
    have hu : W.unroll a t.number (ps t.version) = (s'.traj, { s' with traj := s'.traj.drop (s'.traj.length - 1) }) := by
      rw [hW, actorRound, h1, hs]
    rw [List.map_cons, ImpalaLiteAgent.runFrom, hs, alone]
    dsimp only
    rw [hu]
    show (ImpalaLiteAgent.runFrom _ envStep unrollLen (k + 1) _ _ >>= fun later => _) = _
    rw [ih]
    rfl

/-- C193: with the loop of `run_actor` for the actors, the trajectories that actor `i` put are, in every interleaving, those of `run_actor` alone with its key and its environment, for the parameters that `get_params` returned, which are those after some updates. -/
theorem actor_runs {K Ob L Ac E : Type} [Zero K] [One K] (agentStep : P → Key → TimeStep K Ob → Ac × L) (envStep : E → Ac → E × TimeStep K Ob) (unrollLen : Nat)
    (W : Work (ImpalaLiteAgent.Actor K Ob L Ac E) P O G U (List (ImpalaLiteAgent.Transition K Ob L Ac)) B) (hW : W.unroll = actorRound agentStep envStep unrollLen)
    (c : Config) (hc : 0 < c.batchSize) (junk : Traj → List (ImpalaLiteAgent.Transition K Ob L Ac)) (env : E) (reset : TimeStep K Ob) (p : P) (es : List Event) {s : State}
    {d : Data (ImpalaLiteAgent.Actor K Ob L Ac E) P O (List (ImpalaLiteAgent.Transition K Ob L Ac))}
    (h : ImpalaLiteSystem.run W c (start, begin W junk (fun i => ⟨.root i, env, reset, []⟩) p) es = some (s, d)) (i : Nat) :
    let own := (s.seen.flatten ++ s.batch ++ s.queue).filter fun t => t.actor = i
    ImpalaLiteAgent.runActor (fun p k t => (.ok (agentStep p k t) : Except Err (Ac × L))) envStep unrollLen i
      (own.map fun t => (replay W (fun i => ⟨.root i, env, reset, []⟩) p s.seen).params t.version) env reset = .ok (own.map d.contents) := by
  intro own
  obtain ⟨h1, h2, -⟩ := actor_alone W c hc junk _ p es h i
  rw [← h1]
  refine alone_runFrom agentStep envStep unrollLen W hW _ own 0 _ ?_
  have hl : own.length = s.made i := by
    have := congrArg List.length h2
    rwa [List.length_map, List.length_range] at this
  rw [hl, ← List.range_eq_range']
  exact h2

/-! ### Cases -/

/-- Actors that count, a loss that remembers the batch. -/
def work : Work Nat Nat Nat Nat Nat Nat (List Nat) :=
  ⟨fun a n p => (100 * a + 10 * p + n, a + 1), id, fun p b => p + b.sum, fun g o => (g + o, o + 1), fun p u => p + u, fun _ => 7⟩

/-- Actor 1 reads the parameters before the first update, its trajectory is used in the second. -/
def offPolicy : List Event := [.pull 0, .pull 1, .put 0, .get, .pull 0, .put 0, .get, .update, .pull 0, .put 1, .put 0, .get, .get, .update]

-- The second batch has a trajectory made with the initial parameters and one made after the first update.
example : ∃ s d, ImpalaLiteSystem.run work ⟨2, 3, 2⟩ (start, begin work (fun _ => 0) (fun i => 5 * i) 3) offPolicy = some (s, d) ∧ s.seen = [[⟨0, 0, 0⟩, ⟨0, 1, 0⟩], [⟨1, 0, 0⟩, ⟨0, 2, 1⟩]] ∧
    d.params = (replay work (fun i => 5 * i) 3 s.seen).params 2 ∧ d.params = 2828 ∧ d.optState = 9 := by
  refine ⟨_, _, rfl, rfl, ?_, ?_, ?_⟩ <;> decide

-- The same batches by another interleaving.
example : ∃ s, ImpalaLite.run ⟨2, 3, 2⟩ start [.pull 0, .put 0, .pull 0, .pull 1, .put 0, .get, .get, .put 1, .update, .get, .pull 0, .put 0, .get, .update] = some s ∧
    s.seen = [[⟨0, 0, 0⟩, ⟨0, 1, 0⟩], [⟨1, 0, 0⟩, ⟨0, 2, 1⟩]] := ⟨_, rfl, rfl⟩

/-- `run_actor` with an agent whose action is the parameter and an environment that adds it up. -/
def lite : Work (ImpalaLiteAgent.Actor Int Int Int Int Int) Int Nat Int Int (List (ImpalaLiteAgent.Transition Int Int Int Int)) (List (List (ImpalaLiteAgent.Transition Int Int Int Int))) :=
  ⟨actorRound (fun p _ t => (p, t.observation)) (fun e a => (e + a, ⟨.mid, some a, some 1, e + a⟩)) 2, id, fun _ b => (b.flatten.map ImpalaLiteAgent.Transition.agentOut).sum, fun g o => (g, o + 1), fun p u => p + u, fun _ => 0⟩

example : ∃ s d, ImpalaLiteSystem.run lite ⟨1, 2, 1⟩ (start, begin lite (fun _ => []) (fun i => ⟨.root i, 0, ⟨.first, none, none, 0⟩, []⟩) 1) [.pull 0, .put 0, .get, .update, .pull 0, .put 0, .get, .update] = some (s, d) ∧
    s.seen = [[⟨0, 0, 0⟩], [⟨0, 1, 1⟩]] ∧ (d.contents ⟨0, 1, 1⟩).map ImpalaLiteAgent.Transition.agentOut = [2, 3, 7] ∧ d.params = 16 := by
  refine ⟨_, _, rfl, rfl, ?_, ?_⟩ <;> decide

end Verif.Props.ImpalaLiteSystem
