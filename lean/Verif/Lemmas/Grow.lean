import Verif.Lemmas.Dict2
import Verif.Lemmas.Refine

/-!
# Dictionaries only grow

What every program does to the frame data, whatever it does: no key disappears or moves, frozen parameters stay the same,
and an rng sequence is neither gained nor lost.
-/

set_option linter.unusedVariables false

namespace Verif
open Names Frame

/-- No repeated keys in the parameters and in the state. -/
def Loc.WF (s : Loc) : Prop := WF2 s.params ∧ WF2 s.state

/-- What always holds between the data before and after. -/
structure Grow (E : Env) (s s' : Loc) : Prop where
  wf : s.WF → s'.WF
  params : Ext2 s.params s'.params
  state : Ext2 s.state s'.state
  frozen : E.frozen = true → s'.params = s.params
  rng : s'.rng.isSome = s.rng.isSome
  depth : s'.scopes.length = s.scopes.length

theorem Grow.preord (E : Env) : Preord (Grow E) where
  refl s := ⟨id, Ext2.refl _, Ext2.refl _, fun _ => rfl, rfl, rfl⟩
  trans h k := ⟨fun w => k.wf (h.wf w), h.params.trans k.params, h.state.trans k.state,
    fun f => (k.frozen f).trans (h.frozen f), k.rng.trans h.rng, k.depth.trans h.depth⟩

theorem Grow.of_same {E : Env} {s s' : Loc} (hp : s'.params = s.params) (hs : s'.state = s.state)
    (hr : s'.rng.isSome = s.rng.isSome) (hd : s'.scopes.length = s.scopes.length) : Grow E s s' := by
  refine ⟨fun w => ?_, ?_, ?_, fun _ => hp, hr, hd⟩
  · unfold Loc.WF; rw [hp, hs]; exact w
  · rw [hp]; exact Ext2.refl _
  · rw [hs]; exact Ext2.refl _

theorem Grow.of_params {E : Env} {s : Loc} {p : PDict} {s' : Loc} (hf : E.frozen = false) (hw : WF2 s.params → WF2 p) (he : Ext2 s.params p)
    (hp : s'.params = p) (hs : s'.state = s.state)
    (hr : s'.rng.isSome = s.rng.isSome) (hd : s'.scopes.length = s.scopes.length) : Grow E s s' := by
  refine ⟨fun w => ?_, ?_, ?_, fun h => (by rw [hf] at h; cases h), hr, hd⟩
  · unfold Loc.WF; rw [hp, hs]; exact ⟨hw w.1, w.2⟩
  · rw [hp]; exact he
  · rw [hs]; exact Ext2.refl _

theorem Grow.of_state {E : Env} {s : Loc} {p : SDict} {s' : Loc} (hw : WF2 s.state → WF2 p) (he : Ext2 s.state p)
    (hp : s'.state = p) (hs : s'.params = s.params)
    (hr : s'.rng.isSome = s.rng.isSome) (hd : s'.scopes.length = s.scopes.length) : Grow E s s' := by
  refine ⟨fun w => ?_, ?_, ?_, fun _ => hs, hr, hd⟩
  · unfold Loc.WF; rw [hp, hs]; exact ⟨w.1, hw w.2⟩
  · rw [hs]; exact Ext2.refl _
  · rw [hp]; exact he

theorem Grow.tol (E : Env) : Tol E (Grow E) where
  draw s q h := by
    have hk := keep_noRng_draw q s
    simp only [Keep, Loc.noRng, Prod.mk.injEq] at hk
    refine Grow.of_same hk.1 hk.2.1 ?_ (by rw [hk.2.2.1])
    unfold drawKey
    rcases q.next with ⟨_ | k, q'⟩ <;> simp [h]
  take s q n h := Grow.of_same rfl rfl (by rw [h]; rfl) rfl
  reserve s q n h := Grow.of_same rfl rfl (by rw [h]; rfl) rfl
  full s q h := Grow.of_same rfl rfl (by rw [h]; rfl) rfl
  pbundle hf s b := Grow.of_params hf (fun w => w.setDefault b) (Ext2.setDefault _ b) rfl rfl rfl rfl
  pnew hf s b n a _ _ := Grow.of_params hf (fun w => w.store2 b n a) (Ext2.store2 _ b n a) rfl rfl rfl rfl
  pread s b n a _ := Grow.of_same rfl rfl rfl rfl
  sbundle s b := Grow.of_state (fun w => w.setDefault b) (Ext2.setDefault _ b) rfl rfl rfl rfl
  snew s b n a _ _ := Grow.of_state (fun w => w.store2 b n _) (Ext2.store2 _ b n _) rfl rfl rfl rfl
  sread s b n p _ := Grow.of_same rfl rfl rfl rfl
  sset s b n v _ := Grow.of_state (fun w => w.store2 b n _) (Ext2.store2 _ b n _) rfl rfl rfl rfl
  alloc s := Grow.of_same rfl rfl rfl rfl
  heapSubs s m f := Grow.of_same rfl rfl rfl rfl
  scope s own sc rest caller nm sc' h _ := Grow.of_same rfl rfl rfl (by simp [h])
  named s m n := Grow.of_same rfl rfl rfl rfl
  lift hf s n p :=
    have h := packIntoDict_props n (dict2 p) s.params fun q hq => (WF2.dict2 p).mem hq
    Grow.of_params hf h.1 h.2 rfl rfl rfl rfl

theorem Grow.update (E : Env) (d : Diff) : Pres (Grow E) (updateInternalState d E) := by
  intro s
  rw [updateInternalState_eq]
  have hst := updateRecursive_props d.state s.state
  have hp : ∀ p, _ := fun p => updateRecursive_props (β := Arr) p s.params
  refine ⟨fun w => ⟨?_, hst.1 w.2⟩, ?_, hst.2, fun h => by simp [h], ?_, rfl⟩
  · dsimp only
    split
    · exact w.1
    · cases d.params with
      | none => exact w.1
      | some p => exact (hp p).1 w.1
  · dsimp only
    split
    · exact Ext2.refl _
    · cases d.params with
      | none => exact Ext2.refl _
      | some p => exact (hp p).2
  · dsimp only
    cases d.rng <;> cases s.rng <;> rfl

/-- `Grow` on the local machine, with the surroundings unchanged. -/
def GrowL : LW → LW → Prop := LRel Grow

theorem GrowL.preord : Preord GrowL := LRel.preord Grow.preord

theorem GrowL.topPres : TopPres localMach GrowL := LRel.topPres Grow.preord Grow.tol Grow.update

theorem GrowL.blockPres : BlockPres localMach GrowL where
  temp st m h s := ⟨rfl, Grow.of_same rfl rfl rfl rfl⟩
  inModule ms m h s := by
    have := (h ⟨{ s.env with modules := ms :: s.env.modules }, { s.loc with scopes := Scope.empty :: s.loc.scopes }⟩).2
    refine ⟨rfl, this.wf, this.params, this.state, this.frozen, this.rng, ?_⟩
    have hd := this.depth
    simp only [List.length_cons] at hd
    show (List.tail _).length = _
    rw [List.length_tail, hd]
    rfl
  inRng q m h s := by
    have := h { s with loc := { s.loc with rng := some q } }
    exact ⟨this.1, this.2.wf, this.2.params, this.2.state, this.2.frozen, rfl, this.2.depth⟩
  inHook hk m h s := by
    have := (h { s with env := { s.env with hooks := World.pushHook s.env.hooks hk } }).2
    exact ⟨rfl, this.wf, this.params, this.state, this.frozen, this.rng, this.depth⟩
  inCtx c m h s := ⟨rfl, Grow.of_same rfl rfl rfl rfl⟩

/-- Every program, from every state, on every path. -/
theorem grow_run (p : Prog) : Pres GrowL (p.run localMach) := pres_run GrowL.preord GrowL.topPres GrowL.blockPres p

/-- The data at the start of a context has no repeated keys. -/
theorem WF2.ctxNew (params state : Option PDict) (rng : Option PRNGSeq) (h : List ModObj) :
    (LW.ctxLoc (Ctx.new params state rng) h).WF := by
  refine ⟨WF2.dict2 _, ?_⟩
  cases state with
  | none => exact WF2.nil
  | some d => exact (WF2.dict2 d).mapVals fun _ _ v => StatePair.mk v v

end Verif
