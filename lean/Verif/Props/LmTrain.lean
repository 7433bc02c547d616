import Verif.Model.LmTrain
import Verif.Props.Transformer

/-!
# Training of the transformer example (C170, C171, C172, C173)
-/

set_option linter.unusedVariables false
set_option linter.unusedSectionVars false
set_option linter.unusedTactic false

namespace Verif.Props.LmTrain
open Verif.Pool (Arr)
open Verif.ImageNet (isIn)
open Verif.LmTrain

variable {P G O D L : Type}

/-! ### Specification vocabulary -/

/-- Training without interruption on the data `ds`, after initialisation with `first`. -/
def train (U : Updater P G O D L) (key : Key) (first : D) (ds : List D) : TrainState P O := ds.foldl (fun s d => (U.update s d).1) (U.init key first)

/-- The metrics that are reported on the way. -/
def reports (U : Updater P G O D L) : TrainState P O → List D → List (Nat × L)
  | _, [] => []
  | s, d :: ds => (U.update s d).2 :: reports U (U.update s d).1 ds

/-- The state that the process holds. -/
def held : Proc P O → Option (TrainState P O)
  | .down => none
  | .ready s => some s
  | .writing s => some s
  | .saved s => some s

/-- What can be reached from `c0` by steps that satisfy `A`. -/
inductive Reach (U : Updater P G O D L) (n : Nat) (key : Key) (A : Config P O → Event D → Prop) (c0 : Config P O) : Config P O → Prop
  | start : Reach U n key A c0 c0
  | next {c c' e} : Reach U n key A c0 c → A c e → step U n key c e = some c' → Reach U n key A c0 c'

/-- No directory and no process. -/
def fresh : Config P O := ⟨none, .down⟩

/-- Any step. -/
def any : Config P O → Event D → Prop := fun _ _ => True

/-- The names in the directory. -/
def names (c : Config P O) : List (List Char) := (c.disk.getD []).keys

/-! ### C170: keys and steps -/

theorem train_snoc (U : Updater P G O D L) (key : Key) (first : D) (ds : List D) (d : D) : train U key first (ds ++ [d]) = (U.update (train U key first ds) d).1 := by
  unfold train
  rw [List.foldl_append]
  rfl

theorem update_step (U : Updater P G O D L) (s : TrainState P O) (d : D) : (U.update s d).1.step = s.step + 1 := rfl

/-- C170 the state counts the updates. -/
theorem train_step (U : Updater P G O D L) (key : Key) (first : D) (ds : List D) : (train U key first ds).step = ds.length := by
  induction ds using List.reverseRecOn with
  | nil => rfl
  | append_singleton ds d ih => rw [train_snoc, update_step, ih, List.length_append]; rfl

theorem reports_snoc (U : Updater P G O D L) : ∀ (ds : List D) (s : TrainState P O) (d : D), reports U s (ds ++ [d]) = reports U s ds ++ [(U.update (ds.foldl (fun s d => (U.update s d).1) s) d).2] := by
  intro ds
  induction ds with
  | nil => intro s d; rfl
  | cons x ds ih => intro s d; exact congrArg ((U.update s x).2 :: ·) (ih _ d)

/-- C170 the steps reported are 0, 1, 2, and so on. -/
theorem reports_steps (U : Updater P G O D L) (key : Key) (first : D) (ds : List D) : (reports U (U.init key first) ds).map Prod.fst = List.range ds.length := by
  induction ds using List.reverseRecOn with
  | nil => rfl
  | append_singleton ds d ih =>
    rw [reports_snoc, List.map_append, ih, List.length_append, List.length_singleton, List.range_succ]
    exact congrArg (List.range ds.length ++ [·]) (train_step U key first ds)

/-- C170 each loss reported is that of the parameters before the update, on the data of the update. -/
theorem reports_loss (U : Updater P G O D L) (key : Key) (first : D) (ds : List D) (d : D) :
    ∃ k, (reports U (U.init key first) (ds ++ [d])).getLast? = some (ds.length, (U.valueAndGrad (train U key first ds).params k d).1) := by
  refine ⟨Key.child (train U key first ds).rng 2 0, ?_⟩
  rw [reports_snoc, List.getLast?_append, List.getLast?_singleton]
  show some ((train U key first ds).step, _) = _
  rw [train_step]
  rfl

/-- How often a key was split off. -/
def depth : Key → Nat
  | .root _ => 0
  | .child p _ _ => depth p + 1

theorem train_depth (U : Updater P G O D L) (key : Key) (first : D) (ds : List D) : depth (train U key first ds).rng = depth key + 1 + ds.length := by
  induction ds using List.reverseRecOn with
  | nil => rfl
  | append_singleton ds d ih =>
    rw [train_snoc]
    show depth (train U key first ds).rng + 1 = _
    rw [ih, List.length_append]
    rfl

/-- C170 no key is used twice: the keys given to the initialisation of the network and to the losses of any number of updates are all different, and none of them is the master key.  The keys are made
visible by an updater whose loss is its key and whose parameters tell the key they were made with. -/
theorem keys_fresh (U : Updater P G O D Key) (hv : ∀ p k d, (U.valueAndGrad p k d).1 = k) (made : P → Key) (hm : ∀ k d, made (U.netInit k d) = k) (key : Key) (first : D) (ds : List D) :
    (key :: made (U.init key first).params :: (reports U (U.init key first) ds).map Prod.snd).Nodup := by
  have h0 : made (U.init key first).params = Key.child key 2 1 := hm _ _
  rw [h0]
  have key_depth : ∀ ds : List D, ∀ k ∈ (reports U (U.init key first) ds).map Prod.snd, depth key + 2 ≤ depth k ∧ depth k ≤ depth key + 1 + ds.length := by
    intro ds
    induction ds using List.reverseRecOn with
    | nil => intro k hk; cases hk
    | append_singleton ds d ih =>
      intro k hk
      rw [reports_snoc, List.map_append, List.mem_append] at hk
      rw [List.length_append, List.length_singleton]
      rcases hk with hk | hk
      · have := ih k hk
        omega
      · rw [List.map_singleton, List.mem_singleton] at hk
        have e : k = Key.child (train U key first ds).rng 2 0 := hk.trans (hv _ _ _)
        have := train_depth U key first ds
        rw [e]
        show depth key + 2 ≤ depth (train U key first ds).rng + 1 ∧ depth (train U key first ds).rng + 1 ≤ _
        omega
  have nodup : ((reports U (U.init key first) ds).map Prod.snd).Nodup := by
    induction ds using List.reverseRecOn with
    | nil => exact List.nodup_nil
    | append_singleton ds d ih =>
      rw [reports_snoc, List.map_append, List.nodup_append]
      refine ⟨ih, List.nodup_singleton _, fun a ha b hb => ?_⟩
      rw [List.map_singleton, List.mem_singleton] at hb
      have e : b = Key.child (train U key first ds).rng 2 0 := hb.trans (hv _ _ _)
      intro hab
      have h1 := (key_depth ds a ha).2
      have h2 := train_depth U key first ds
      rw [hab, e] at h1
      have h3 : depth (train U key first ds).rng + 1 ≤ depth key + 1 + ds.length := h1
      omega
  rw [List.nodup_cons, List.nodup_cons]
  refine ⟨fun h => ?_, fun h => ?_, nodup⟩
  · rcases List.mem_cons.mp h with h | h
    · have := congrArg depth h
      have h2 : depth key = depth key + 1 := this
      omega
    · have := (key_depth ds _ h).1
      omega
  · have h2 : depth key + 2 ≤ depth key + 1 := (key_depth ds _ h).1
    omega

/-- The second key is the first or was split off from it. -/
inductive From (a : Key) : Key → Prop
  | here : From a a
  | split {b n i} : From a b → From a (.child b n i)

/-- Parameters and state of the optimiser after an update with each of the keys and data. -/
def descend (U : Updater P G O D L) (s : P × O) (kds : List (Key × D)) : P × O :=
  kds.foldl (fun s kd => (U.applyUpdates s.1 (U.optUpdate (U.valueAndGrad s.1 kd.1 kd.2).2 s.2).1, (U.optUpdate (U.valueAndGrad s.1 kd.1 kd.2).2 s.2).2)) s

/-- The key a key was split off from, `n` times. -/
def up : Nat → Key → Key
  | 0, k => k
  | _ + 1, .root s => .root s
  | n + 1, .child p _ _ => up n p

theorem From.up {a b : Key} (h : From a b) : ∃ n, depth b = depth a + n ∧ up n b = a := by
  induction h with
  | here => exact ⟨0, rfl, rfl⟩
  | @split b m i h ih =>
    obtain ⟨n, h1, h2⟩ := ih
    exact ⟨n + 1, by show depth b + 1 = _; omega, h2⟩

/-- The key in the state after `n` updates. -/
def carried (key : Key) : Nat → Key
  | 0 => .child key 2 0
  | n + 1 => .child (carried key n) 2 1

theorem carried_depth (key : Key) : ∀ n, depth (carried key n) = depth key + 1 + n
  | 0 => rfl
  | n + 1 => by show depth (carried key n) + 1 = _; rw [carried_depth key n]; omega

theorem up_carried (key : Key) : ∀ n m, up n (carried key (m + n)) = carried key m
  | 0, m => rfl
  | n + 1, m => up_carried key n m

theorem train_rng (U : Updater P G O D L) (key : Key) (first : D) (ds : List D) : (train U key first ds).rng = carried key ds.length := by
  induction ds using List.reverseRecOn with
  | nil => rfl
  | append_singleton ds d ih =>
    rw [train_snoc, List.length_append]
    show Key.child (train U key first ds).rng 2 1 = _
    rw [ih]
    rfl

/-- C170 the parameters and the state of the optimiser are those of the optimiser run on the gradients of the losses, one after the other, from the initial ones; the losses reported are those on the way.
The keys given to the initialisation and to the losses do not depend on the data, and none of them is another one or was split off from another one, so none that was used is ever split. -/
theorem train_descends (U : Updater P G O D L) (key : Key) : ∃ (k0 : Key) (ks : Nat → Key), (∀ i, ¬ From k0 (ks i) ∧ ¬ From (ks i) k0) ∧ (∀ i j, i ≠ j → ¬ From (ks i) (ks j)) ∧
    ∀ (first : D) (ds : List D), (((train U key first ds).params, (train U key first ds).optState) : P × O) =
        descend U (U.netInit k0 first, U.optInit (U.netInit k0 first)) (((List.range ds.length).map ks).zip ds) ∧
      ∀ d, (reports U (U.init key first) (ds ++ [d])).getLast? = some (ds.length, (U.valueAndGrad (train U key first ds).params (ks ds.length) d).1) := by
  refine ⟨.child key 2 1, fun i => .child (carried key i) 2 0, fun i => ⟨fun h => ?_, fun h => ?_⟩, fun i j hij h => ?_, fun first ds => ⟨?_, fun d => ?_⟩⟩
  · obtain ⟨n, h1, h2⟩ := h.up
    have h3 : depth (carried key i) + 1 = depth key + 1 + n := h1
    rw [carried_depth] at h3
    obtain rfl : n = i + 1 := by omega
    have h4 : up i (carried key i) = _ := h2
    have h5 := up_carried key i 0
    rw [Nat.zero_add, h4] at h5
    cases h5
  · obtain ⟨n, h1, h2⟩ := h.up
    have h3 : depth key + 1 = depth (carried key i) + 1 + n := h1
    rw [carried_depth] at h3
    omega
  · obtain ⟨n, h1, h2⟩ := h.up
    have h3 : depth (carried key j) + 1 = depth (carried key i) + 1 + n := h1
    rw [carried_depth, carried_depth] at h3
    cases n with
    | zero => exact hij (by omega)
    | succ n =>
      have h4 : up n (carried key j) = _ := h2
      have h5 := up_carried key n (i + 1)
      rw [show i + 1 + n = j by omega, h4] at h5
      cases h5
  · induction ds using List.reverseRecOn with
    | nil => rfl
    | append_singleton ds d ih =>
      have hz : ((List.range (ds ++ [d]).length).map fun i => Key.child (carried key i) 2 0).zip (ds ++ [d]) =
          ((List.range ds.length).map fun i => Key.child (carried key i) 2 0).zip ds ++ [(Key.child (carried key ds.length) 2 0, d)] := by
        rw [List.length_append, List.length_singleton, List.range_succ, List.map_append, List.zip_append (by simp)]
        rfl
      rw [hz, descend, List.foldl_append]
      show _ = (fun s kd => _) (descend U _ _) _
      rw [← ih, train_snoc, ← train_rng U key first ds]
      rfl
  · rw [reports_snoc, List.getLast?_append_of_ne_nil _ (by simp)]
    show some ((train U key first ds).step, _) = _
    rw [train_step]
    dsimp only
    rw [← train_rng U key first ds]
    rfl

/-! ### C171: what the checkpoints hold -/

/-- What holds along every execution, if `R` holds of initial states and is kept by updates: of every state held or stored; files are named after the step of their state and written when due. -/
structure Inv (n : Nat) (R : TrainState P O → Prop) (c : Config P O) : Prop where
  proc : ∀ s, held c.proc = some s → R s
  due : ∀ s, c.proc = .writing s → due n s.step = true
  saved : ∀ s d, c.proc = .saved s → c.disk = some d → d.has (fileName s.step) = true
  nodir : c.disk = none → c.proc = .down
  file : ∀ d name f, c.disk = some d → d.get? name = some f → ∃ k, name = fileName k ∧ Verif.LmTrain.due n k = true ∧ ∀ s, f = .pickle s → R s ∧ s.step = k
  below : ∀ d, c.disk = some d → ∀ s, ((∃ name, d.get? name = some (.pickle s)) ∨ held c.proc = some s) → ∀ k < s.step, Verif.LmTrain.due n k = true → d.has (fileName k) = true

theorem has_set {κ ν : Type} [DecidableEq κ] (d : Dict κ ν) (k j : κ) (v : ν) (h : d.has j = true) : (d.set k v).has j = true := by
  unfold Dict.has at h ⊢
  rw [Dict.get?_set]
  split
  · rfl
  · exact h

theorem inv_step {U : Updater P G O D L} {n : Nat} {key : Key} {R : TrainState P O → Prop} {c c' : Config P O} {e : Event D} (hb : ∀ l d, e = .boot l d → R (U.init key d))
    (hu : ∀ d s, e = .update d → held c.proc = some s → R s → R (U.update s d).1) (h : step U n key c e = some c') (I : Inv n R c) : Inv n R c' := by
  cases e with
  | boot listing data =>
    unfold step at h
    rcases hp : c.proc with _ | s | s | s
    · rw [hp] at h
      dsimp only at h
      split at h
      · rename_i hl
        unfold ckptInit at h
        have hinit : R (U.init key data) := hb _ _ rfl
        rcases hd : c.disk with _ | d
        · rw [hd] at h
          cases h
          exact ⟨fun s hs => by cases hs; exact hinit, fun s hs => (by cases hs), fun s d hs => (by cases hs), fun hs => (by cases hs), fun d name f h1 h2 => (by cases h1; cases h2),
            fun d h1 s hs k hk hk' => by
              cases h1
              rcases hs with ⟨_, hs⟩ | hs
              · cases hs
              · cases hs; exact absurd hk (Nat.not_lt_zero _)⟩
        · rw [hd] at h
          dsimp only at h
          rcases hg : (checkpointPaths listing).getLast? with _ | path
          · rw [hg] at h
            cases h
            exact ⟨fun s hs => by cases hs; exact hinit, fun s hs => (by cases hs), fun s d hs => (by cases hs), fun hs => (by cases hs), fun d' name f h1 h2 => by cases h1; exact I.file d name f hd h2,
              fun d' h1 s hs k hk hk' => by
                cases h1
                rcases hs with hs | hs
                · exact I.below d hd s (.inl hs) k hk hk'
                · cases hs; exact absurd hk (Nat.not_lt_zero _)⟩
          · rw [hg] at h
            dsimp only at h
            rcases hf : Dict.get? d path with _ | _ | _
            · rw [hf] at h
              cases h
              exact ⟨fun s hs => (by cases hs), fun s hs => (by cases hs), fun s d hs => (by cases hs), fun hs => (by cases hs), fun d' name f h1 h2 => by cases h1; exact I.file d name f hd h2,
                fun d' h1 s hs k hk hk' => by
                  cases h1
                  rcases hs with hs | hs
                  · exact I.below d hd s (.inl hs) k hk hk'
                  · cases hs⟩
            · rename_i s
              rw [hf] at h
              cases h
              obtain ⟨k0, -, -, hR⟩ := I.file d path _ hd hf
              exact ⟨fun s' hs => by cases hs; exact (hR s rfl).1, fun s hs => (by cases hs), fun s d hs => (by cases hs), fun hs => (by cases hs), fun d' name f h1 h2 => by cases h1; exact I.file d name f hd h2,
                fun d' h1 s' hs k hk hk' => by
                  cases h1
                  rcases hs with hs | hs
                  · exact I.below d hd s' (.inl hs) k hk hk'
                  · cases hs; exact I.below d hd s (.inl ⟨path, hf⟩) k hk hk'⟩
            · rw [hf] at h
              cases h
              exact ⟨fun s hs => (by cases hs), fun s hs => (by cases hs), fun s d hs => (by cases hs), fun hs => (by cases hs), fun d' name f h1 h2 => by cases h1; exact I.file d name f hd h2,
                fun d' h1 s hs k hk hk' => by
                  cases h1
                  rcases hs with hs | hs
                  · exact I.below d hd s (.inl hs) k hk hk'
                  · cases hs⟩
      · cases h
    all_goals (rw [hp] at h; cases h)
  | openFile =>
    unfold step at h
    rcases hp : c.proc with _ | s | s | s
    · rw [hp] at h; cases h
    · rw [hp] at h
      dsimp only at h
      split at h
      · rename_i hdue
        cases h
        have hs0 : R s := I.proc s (by rw [hp]; rfl)
        refine ⟨fun s' hs => by cases hs; exact hs0, fun s' hs => by cases hs; exact hdue, fun s d hs => (by cases hs), fun hs => ?_, fun d name f h1 h2 => ?_, fun d h1 s' hs k hk hk' => ?_⟩
        · have hs : c.disk = none := by
            rcases hd : c.disk with _ | d
            · rfl
            · rw [hd] at hs; cases hs
          have := I.nodir hs
          rw [hp] at this
          cases this
        · obtain ⟨d0, hd, rfl⟩ := Option.map_eq_some_iff.1 h1
          rw [Dict.get?_set] at h2
          split at h2
          · rename_i e
            cases h2
            exact ⟨s.step, e.symm, hdue, fun s hs => by cases hs⟩
          · exact I.file d0 name f hd h2
        · obtain ⟨d0, hd, rfl⟩ := Option.map_eq_some_iff.1 h1
          refine has_set _ _ _ _ (I.below d0 hd s' ?_ k hk hk')
          rcases hs with ⟨name, hs⟩ | hs
          · rw [Dict.get?_set] at hs
            split at hs
            · cases hs
            · exact .inl ⟨name, hs⟩
          · cases hs
            exact .inr (by rw [hp]; rfl)
      · cases h
    · rw [hp] at h; cases h
    · rw [hp] at h; cases h
  | dump =>
    unfold step at h
    rcases hp : c.proc with _ | s | s | s
    · rw [hp] at h; cases h
    · rw [hp] at h; cases h
    · rw [hp] at h
      cases h
      have hs0 : R s := I.proc s (by rw [hp]; rfl)
      have hdue := I.due s hp
      refine ⟨fun s' hs => by cases hs; exact hs0, fun s' hs => (by cases hs), fun s' d hs h1 => ?_, fun hs => ?_, fun d name f h1 h2 => ?_, fun d h1 s' hs k hk hk' => ?_⟩
      · cases hs
        obtain ⟨d0, hd, rfl⟩ := Option.map_eq_some_iff.1 h1
        unfold Dict.has
        rw [Dict.get?_set, if_pos rfl]
        rfl
      · have hs : c.disk = none := by
          rcases hd : c.disk with _ | d
          · rfl
          · rw [hd] at hs; cases hs
        have := I.nodir hs
        rw [hp] at this
        cases this
      · obtain ⟨d0, hd, rfl⟩ := Option.map_eq_some_iff.1 h1
        rw [Dict.get?_set] at h2
        split at h2
        · rename_i e
          cases h2
          exact ⟨s.step, e.symm, hdue, fun s' hs => by cases hs; exact ⟨hs0, rfl⟩⟩
        · exact I.file d0 name f hd h2
      · obtain ⟨d0, hd, rfl⟩ := Option.map_eq_some_iff.1 h1
        have cur : ∀ k < s.step, Verif.LmTrain.due n k = true → d0.has (fileName k) = true := I.below d0 hd s (.inr (by rw [hp]; rfl))
        refine has_set _ _ _ _ ?_
        rcases hs with ⟨name, hs⟩ | hs
        · rw [Dict.get?_set] at hs
          split at hs
          · cases hs
            exact cur k hk hk'
          · exact I.below d0 hd s' (.inl ⟨name, hs⟩) k hk hk'
        · cases hs
          exact cur k hk hk'
    · rw [hp] at h; cases h
  | update data =>
    unfold step at h
    have go : ∀ s, held c.proc = some s → ((∃ d, c.disk = some d ∧ d.has (fileName s.step) = true) ∨ Verif.LmTrain.due n s.step = false) → c' = ⟨c.disk, .ready (U.update s data).1⟩ → Inv n R c' := by
      intro s hs hl e
      subst e
      refine ⟨fun s' hs' => by cases hs'; exact hu data s rfl hs (I.proc s hs), fun s' hs' => (by cases hs'), fun s' d hs' => (by cases hs'), fun hn => ?_, I.file, fun d hd s' hs' k hk hk' => ?_⟩
      · have := I.nodir hn
        rw [this] at hs
        cases hs
      · rcases hs' with hs' | hs'
        · exact I.below d hd s' (.inl hs') k hk hk'
        · cases hs'
          rw [update_step] at hk
          rcases Nat.lt_or_ge k s.step with h1 | h1
          · exact I.below d hd s (.inr hs) k h1 hk'
          · have e : k = s.step := by omega
            subst e
            rcases hl with ⟨d', hd', hl⟩ | hl
            · rw [hd] at hd'
              cases hd'
              exact hl
            · rw [hl] at hk'
              cases hk'
    rcases hp : c.proc with _ | s | s | s
    · rw [hp] at h; cases h
    · rw [hp] at h
      dsimp only at h
      split at h
      · cases h
      · rename_i hdue
        cases h
        exact go s (by rw [hp]; rfl) (.inr (by simpa using hdue)) rfl
    · rw [hp] at h; cases h
    · rw [hp] at h
      cases h
      refine go s (by rw [hp]; rfl) (.inl ?_) rfl
      rcases hd : c.disk with _ | d
      · have := I.nodir hd
        rw [hp] at this
        cases this
      · exact ⟨d, rfl, I.saved s d hp hd⟩
  | crash =>
    unfold step at h
    have go : c' = ⟨c.disk, .down⟩ := by
      rcases hp : c.proc with _ | s | s | s <;> rw [hp] at h <;> cases h <;> rfl
    subst go
    exact ⟨fun s hs => (by cases hs), fun s hs => (by cases hs), fun s d hs => (by cases hs), fun _ => rfl, I.file, fun d hd s hs k hk hk' => by
      rcases hs with hs | hs
      · exact I.below d hd s (.inl hs) k hk hk'
      · cases hs⟩

theorem inv_reach {U : Updater P G O D L} {n : Nat} {key : Key} {A : Config P O → Event D → Prop} {R : TrainState P O → Prop} (hb : ∀ c l d, A c (.boot l d) → R (U.init key d))
    (hu : ∀ c d s, A c (.update d) → held c.proc = some s → R s → R (U.update s d).1) {c : Config P O} (h : Reach U n key A fresh c) : Inv n R c := by
  induction h with
  | start =>
    exact ⟨fun s hs => (by cases hs), fun s hs => (by cases hs), fun s d hs => (by cases hs), fun _ => rfl, fun d name f h1 => (by cases h1), fun d h1 => (by cases h1)⟩
  | next h1 h2 h3 ih => exact inv_step (fun l d e => hb _ l d (e ▸ h2)) (fun d s e hs hr => hu _ d s (e ▸ h2) hs hr) h3 ih

theorem reach_any {U : Updater P G O D L} {n : Nat} {key : Key} {A : Config P O → Event D → Prop} {c0 c : Config P O} (h : Reach U n key A c0 c) : Reach U n key any c0 c := by
  induction h with
  | start => exact .start
  | next h1 h2 h3 ih => exact .next ih trivial h3

theorem inv_any {U : Updater P G O D L} {n : Nat} {key : Key} {A : Config P O → Event D → Prop} {c : Config P O} (h : Reach U n key A fresh c) : Inv n (fun _ => True) c :=
  inv_reach (fun _ _ _ _ => trivial) (fun _ _ _ _ _ _ => trivial) (reach_any h)

/-- A state is in memory or in a file. -/
def Present (c : Config P O) (s : TrainState P O) : Prop := held c.proc = some s ∨ ∃ d name, c.disk = some d ∧ d.get? name = some (.pickle s)

/-- C171 whatever the crashes, with whatever listings the process is started again, every state in memory and every state in a file is one of training without interruption on some data. -/
theorem states_trained {U : Updater P G O D L} {n : Nat} {key : Key} {c : Config P O} (h : Reach U n key any fresh c) {s : TrainState P O} (hs : Present c s) : ∃ first ds, s = train U key first ds := by
  have I : Inv n (fun s => ∃ first ds, s = train U key first ds) c := inv_reach (fun _ _ d _ => ⟨d, [], rfl⟩) (fun _ d s _ _ h => by
    obtain ⟨first, ds, rfl⟩ := h
    exact ⟨first, ds ++ [d], (train_snoc U key first ds d).symm⟩) h
  rcases hs with hs | ⟨d, name, hd, hs⟩
  · exact I.proc s hs
  · obtain ⟨_, _, _, h⟩ := I.file d name _ hd hs
    exact (h s rfl).1

/-- C171 a complete file is named after the step of its state, which is a multiple of the interval; every file has such a name. -/
theorem files_named {U : Updater P G O D L} {n : Nat} {key : Key} {c : Config P O} (h : Reach U n key any fresh c) {name : List Char} (hn : name ∈ names c) :
    ∃ k, name = fileName k ∧ (n = 0 ∨ n ∣ k) := by
  have I := inv_any h
  unfold names at hn
  rcases hd : c.disk with _ | d
  · rw [hd] at hn; cases hn
  · rw [hd] at hn
    obtain ⟨f, hf⟩ := Option.isSome_iff_exists.1 ((Dict.mem_keys_iff _ _).1 hn)
    obtain ⟨k, e, hk, -⟩ := I.file d name f hd hf
    refine ⟨k, e, ?_⟩
    unfold due at hk
    rw [Bool.or_eq_true, beq_iff_eq, beq_iff_eq] at hk
    rcases hk with hk | hk
    · exact .inl hk
    · exact .inr (Nat.dvd_of_mod_eq_zero hk)

/-- C171 a state in a file is that of the step in its name. -/
theorem file_step {U : Updater P G O D L} {n : Nat} {key : Key} {c : Config P O} (h : Reach U n key any fresh c) {d : Dict (List Char) (File P O)} {name : List Char} {s : TrainState P O} (hd : c.disk = some d)
    (hs : d.get? name = some (.pickle s)) : name = fileName s.step := by
  obtain ⟨k, e, _, hk⟩ := (inv_any h).file d name _ hd hs
  rw [e, (hk s rfl).2]

/-- C171 a file once there stays there. -/
theorem files_stay {U : Updater P G O D L} {n : Nat} {key : Key} {c c' : Config P O} {e : Event D} (h : step U n key c e = some c') {name : List Char} (hn : name ∈ names c) : name ∈ names c' := by
  unfold names at hn ⊢
  rcases hd : c.disk with _ | d
  · rw [hd] at hn; cases hn
  rw [hd] at hn
  have hn' : name ∈ d.keys := hn
  have hset : ∀ (m : List Char) (f : File P O), name ∈ (d.set m f).keys := fun m f => by
    exact (Dict.has_iff _ _).1 (has_set d m name f ((Dict.has_iff _ _).2 hn'))
  cases e <;> unfold step at h <;> rcases hp : c.proc with _ | s | s | s <;> rw [hp, hd] at h <;> dsimp only at h <;> try (cases h; done)
  · split at h
    · unfold ckptInit at h
      dsimp only at h
      rcases hg : (checkpointPaths _).getLast? with _ | path
      · rw [hg] at h; cases h; exact hn
      · rw [hg] at h
        dsimp only at h
        rcases hf : Dict.get? d path with _ | _ | _ <;> rw [hf] at h <;> cases h <;> exact hn
    · cases h
  · split at h
    · cases h; exact hset _ _
    · cases h
  · cases h; exact hset _ _
  · split at h
    · cases h
    · cases h; exact hn
  · cases h; exact hn
  · cases h; exact hn
  · cases h; exact hn
  · cases h; exact hn

/-- The data of an update is determined by the step, that of an initialisation is fixed. -/
def byStep (first : D) (stream : Nat → D) : Config P O → Event D → Prop
  | c, .update d => ∀ s, held c.proc = some s → d = stream s.step
  | _, .boot _ d => d = first
  | _, _ => True

/-- C171 if the data is determined by the step, then crashes cannot be seen: every state in memory and in a file is that of training without interruption at its step. -/
theorem crashes_unseen {U : Updater P G O D L} {n : Nat} {key : Key} {first : D} {stream : Nat → D} {c : Config P O} (h : Reach U n key (byStep first stream) fresh c) {s : TrainState P O} (hs : Present c s) :
    s = train U key first ((List.range s.step).map stream) := by
  have I : Inv n (fun s => s = train U key first ((List.range s.step).map stream)) c := inv_reach (fun _ _ d hd => by rw [show d = first from hd]; rfl) (fun c d s hd hs h => by
    have e : d = stream s.step := hd s hs
    rw [update_step, List.range_succ, List.map_append, List.map_singleton, train_snoc, ← h, e]) h
  rcases hs with hs | ⟨d, name, hd, hs⟩
  · exact I.proc s hs
  · obtain ⟨_, _, _, h⟩ := I.file d name _ hd hs
    exact (h s rfl).1

/-! ### C172: recovery -/

/-- The last `w` decimal digits. -/
def fixed : Nat → Nat → List Char
  | 0, _ => []
  | w + 1, n => fixed w (n / 10) ++ [Nat.digitChar (n % 10)]

theorem fixed_length : ∀ w n, (fixed w n).length = w := by
  intro w
  induction w with
  | zero => intro n; rfl
  | succ w ih => intro n; unfold fixed; rw [List.length_append, ih]; rfl

theorem fixed_zero : ∀ w, fixed w 0 = List.replicate w '0' := by
  intro w
  induction w with
  | zero => rfl
  | succ w ih => unfold fixed; rw [Nat.zero_div, ih, List.replicate_succ']; rfl

theorem padded_eq : ∀ w n, 0 < w → n < 10 ^ w → List.replicate (w - (Nat.toDigits 10 n).length) '0' ++ Nat.toDigits 10 n = fixed w n := by
  intro w
  induction w with
  | zero => intro n h; cases h
  | succ w ih =>
    intro n _ hn
    rcases Nat.lt_or_ge n 10 with h | h
    · rw [Nat.toDigits_of_lt_base h]
      unfold fixed
      rw [Nat.div_eq_of_lt h, Nat.mod_eq_of_lt h, fixed_zero]
      rfl
    · have hw : 0 < w := by
        rcases Nat.eq_zero_or_pos w with rfl | hw
        · simp at hn; omega
        · exact hw
      rw [Nat.toDigits_of_base_le (by decide) h]
      unfold fixed
      rw [← ih (n / 10) hw (by rw [Nat.pow_succ] at hn; omega), List.length_append, List.append_assoc]
      congr 2
      rw [List.length_singleton]
      omega

theorem lt_append_of_lt {α : Type} [LT α] : ∀ {a b : List α} (x y : List α), a.length = b.length → a < b → a ++ x < b ++ y := by
  intro a
  induction a with
  | nil => intro b x y hl h; cases b with
    | nil => cases h
    | cons _ _ => cases hl
  | cons u a ih =>
    intro b x y hl h
    cases b with
    | nil => cases hl
    | cons v b =>
      cases h with
      | rel h => exact .rel h
      | cons h => exact .cons (ih x y (Nat.succ.inj hl) h)

theorem digit_lt : ∀ {a b : Nat}, a < b → b < 10 → Nat.digitChar a < Nat.digitChar b := by
  intro a b h1 h2
  have : ∀ b : Fin 10, ∀ a : Fin 10, a.val < b.val → Nat.digitChar a.val < Nat.digitChar b.val := by decide
  exact this ⟨b, h2⟩ ⟨a, by omega⟩ h1

theorem fixed_lt : ∀ w {a b : Nat}, a < b → b < 10 ^ w → fixed w a < fixed w b := by
  intro w
  induction w with
  | zero => intro a b h1 h2; simp at h2; omega
  | succ w ih =>
    intro a b h1 h2
    rw [Nat.pow_succ] at h2
    unfold fixed
    rcases Nat.lt_or_ge (a / 10) (b / 10) with h | h
    · exact lt_append_of_lt _ _ (by rw [fixed_length, fixed_length]) (ih h (by omega))
    · have e : a / 10 = b / 10 := by omega
      rw [e]
      exact List.append_left_lt (.rel (digit_lt (by omega) (by omega)))

theorem fileName_eq {k : Nat} (h : k < 10 ^ 7) : fileName k = "checkpoint_".toList ++ fixed 7 k ++ ".pkl".toList := by
  unfold fileName
  dsimp only
  rw [padded_eq 7 k (by decide) h]

/-- C172 below ten million steps the names of the files are in the order of the steps. -/
theorem names_ordered {a b : Nat} (h : a < b) (hb : b < 10 ^ 7) : fileName a < fileName b := by
  rw [fileName_eq hb, fileName_eq (by omega), List.append_assoc, List.append_assoc]
  exact List.append_left_lt (lt_append_of_lt _ _ (by rw [fixed_length, fixed_length]) (fixed_lt 7 h hb))

/-- C172 from ten million steps on they are not. -/
theorem names_unordered : fileName 10000000 < fileName 9999999 := by decide

theorem prefix_chars : "checkpoint_".toList = ['c', 'h', 'e', 'c', 'k', 'p', 'o', 'i', 'n', 't', '_'] := by decide

theorem fileName_isIn (k : Nat) : isIn "checkpoint_".toList (fileName k) = true := by
  unfold fileName
  dsimp only
  rw [List.append_assoc, prefix_chars]
  simp [isIn]

/-- C171 files of different steps have different names. -/
theorem names_distinct {a b : Nat} (h : fileName a = fileName b) : a = b := by
  unfold fileName at h
  dsimp only at h
  have h2 := List.append_cancel_left (List.append_cancel_right h)
  have h3 := congrArg (fun l => Nat.ofDigitChars 10 l 0) h2
  simpa [Nat.ofDigitChars_append] using h3

/-- The listing is sorted. -/
def Sorted (l : List (List Char)) : Prop := l.Pairwise (· < ·)

/-- All files are of fewer than ten million steps. -/
def Short (c : Config P O) : Prop := ∀ name ∈ names c, ∃ k, k < 10 ^ 7 ∧ name = fileName k

/-- The newest file is of step `k`. -/
def Newest (c : Config P O) (k : Nat) : Prop := fileName k ∈ names c ∧ k < 10 ^ 7 ∧ ∀ j, j < 10 ^ 7 → fileName j ∈ names c → j ≤ k

theorem paths_all {U : Updater P G O D L} {n : Nat} {key : Key} {c : Config P O} (h : Reach U n key any fresh c) {l : List (List Char)} (hl : Lists c.disk l = true) : checkpointPaths l = l := by
  unfold checkpointPaths
  refine List.filter_eq_self.2 fun p hp => ?_
  have : p ∈ names c := (List.isPerm_iff.1 hl).mem_iff.1 hp
  obtain ⟨k, rfl, -⟩ := files_named h this
  exact fileName_isIn k

/-- What starting does to a directory whose listing ends with `name`. -/
theorem boot_last {U : Updater P G O D L} {n : Nat} {key : Key} {c c' : Config P O} (h : Reach U n key any fresh c) {l : List (List Char)} {data : D} (hb : step U n key c (.boot l data) = some c') {name : List Char}
    (hg : l.getLast? = some name) : c.proc = .down ∧ c'.disk = c.disk ∧ ∃ d f, c.disk = some d ∧ d.get? name = some f ∧ c'.proc = (match f with | .pickle s => .ready s | .torn => .down) := by
  unfold step at hb
  rcases hp : c.proc with _ | s | s | s <;> rw [hp] at hb <;> try (cases hb; done)
  dsimp only at hb
  split at hb
  · rename_i hl
    have hmem : name ∈ names c := (List.isPerm_iff.1 hl).mem_iff.1 (List.mem_of_getLast? hg)
    have hpaths := paths_all h hl
    unfold names at hmem
    unfold ckptInit at hb
    rcases hd : c.disk with _ | d
    · rw [hd] at hmem; cases hmem
    · rw [hd] at hb hmem
      dsimp only at hb
      rw [hpaths, hg] at hb
      dsimp only at hb
      obtain ⟨f, hf⟩ := Option.isSome_iff_exists.1 ((Dict.mem_keys_iff _ _).1 hmem)
      have hf' : Dict.get? d name = some f := hf
      rw [hf'] at hb
      refine ⟨rfl, ?_, d, f, rfl, hf', ?_⟩ <;> cases f <;> cases hb <;> rfl
  · cases hb

theorem sorted_last {U : Updater P G O D L} {n : Nat} {key : Key} {c : Config P O} (h : Reach U n key any fresh c) (hshort : Short c) {l : List (List Char)} (hl : Lists c.disk l = true) (hs : Sorted l) (hne : names c ≠ []) :
    ∃ k, l.getLast? = some (fileName k) ∧ Newest c k := by
  have perm : l.Perm (names c) := List.isPerm_iff.1 hl
  rcases hg : l.getLast? with _ | name
  · rw [List.getLast?_eq_none_iff] at hg
    subst hg
    exact absurd perm.nil_eq.symm hne
  · obtain ⟨k, hk, rfl⟩ := hshort name (perm.mem_iff.1 (List.mem_of_getLast? hg))
    refine ⟨k, rfl, perm.mem_iff.1 (List.mem_of_getLast? hg), hk, fun j hj hm => ?_⟩
    rcases Nat.lt_or_ge k j with h | h
    · exfalso
      have hlt := names_ordered h hj
      have hm' := perm.mem_iff.2 hm
      obtain ⟨l', rfl⟩ := List.getLast?_eq_some_iff.1 hg
      unfold Sorted at hs
      rw [List.pairwise_append] at hs
      rw [List.mem_append, List.mem_singleton] at hm'
      rcases hm' with hm' | hm'
      · exact List.lt_asymm hlt (hs.2.2 _ hm' _ (List.mem_singleton.2 rfl))
      · rw [hm'] at hlt
        exact List.lt_irrefl _ hlt
    · exact h

theorem boot_lists {U : Updater P G O D L} {n : Nat} {key : Key} {c c' : Config P O} {l : List (List Char)} {data : D} (hb : step U n key c (.boot l data) = some c') : Lists c.disk l = true := by
  unfold step at hb
  rcases hp : c.proc with _ | s | s | s <;> rw [hp] at hb <;> try (cases hb; done)
  dsimp only at hb
  split at hb
  · assumption
  · cases hb

/-- C172, in part: a start with a sorted listing that does not fail resumes from the newest checkpoint. -/
theorem resume_newest_partial {U : Updater P G O D L} {n : Nat} {key : Key} {c c' : Config P O} (h : Reach U n key any fresh c) (hshort : Short c) {l : List (List Char)} {data : D} (hs : Sorted l) (hne : names c ≠ [])
    (hb : step U n key c (.boot l data) = some c') {s : TrainState P O} (hr : held c'.proc = some s) : Newest c s.step := by
  obtain ⟨k, hg, hk⟩ := sorted_last h hshort (boot_lists hb) hs hne
  obtain ⟨-, -, d, f, hd, hf, hc⟩ := boot_last h hb hg
  rw [hc] at hr
  cases f with
  | torn => cases hr
  | pickle s' =>
    cases hr
    have e := file_step h hd hf
    exact names_distinct e ▸ hk

/-- C172, in part: a crash costs at most as many updates as there are between two checkpoints: what a start with a sorted listing resumes from, if it does not fail, is at most `n` steps behind the state that was lost. -/
theorem loses_at_most_partial {U : Updater P G O D L} {n : Nat} {key : Key} {c c1 c2 : Config P O} (h : Reach U n key any fresh c) (hn : 0 < n) (hshort : Short c) {r s : TrainState P O} (hr : held c.proc = some r) (hr7 : r.step < 10 ^ 7)
    (hc : step U n key c .crash = some c1) {l : List (List Char)} {data : D} (hl : Sorted l) (hb : step U n key c1 (.boot l data) = some c2) (hs : held c2.proc = some s) : r.step ≤ s.step + n := by
  rcases Nat.eq_zero_or_pos r.step with h0 | h0
  · omega
  have e : c1 = ⟨c.disk, .down⟩ := by
    unfold step at hc
    rcases hp : c.proc with _ | s | s | s <;> rw [hp] at hc <;> cases hc <;> rfl
  have h1 : Reach U n key any fresh c1 := .next h trivial hc
  subst e
  have I := inv_any h
  rcases hd : c.disk with _ | d
  · have := I.nodir hd
    rw [this] at hr
    cases hr
  have hk : (r.step - 1) / n * n ≤ r.step - 1 := Nat.div_mul_le_self _ _
  have hk2 : r.step - 1 < (r.step - 1) / n * n + n := by
    have := Nat.lt_div_mul_add (a := r.step - 1) hn
    omega
  have hdue : due n ((r.step - 1) / n * n) = true := by
    unfold due
    rw [Nat.mul_mod_left]
    exact Bool.or_true _
  have hmem : fileName ((r.step - 1) / n * n) ∈ names (⟨c.disk, .down⟩ : Config P O) := by
    unfold names
    rw [hd]
    exact (Dict.has_iff _ _).1 (I.below d hd r (.inr hr) _ (by omega) hdue)
  have hnew := resume_newest_partial h1 hshort hl (fun hnil => by rw [hnil] at hmem; cases hmem) hb hs
  have := hnew.2.2 _ (by omega) hmem
  omega

/-- No crash while a file is written. -/
def careful : Config P O → Event D → Prop := fun c e => e = .crash → ∀ s, c.proc ≠ .writing s

/-- C172 if no crash happens while a file is written, then a file is torn only while it is written. -/
theorem torn_writing {U : Updater P G O D L} {n : Nat} {key : Key} {c : Config P O} (h : Reach U n key careful fresh c) {d : Dict (List Char) (File P O)} {name : List Char} (hd : c.disk = some d) (ht : d.get? name = some .torn) :
    ∃ s, c.proc = .writing s ∧ name = fileName s.step := by
  induction h generalizing d name with
  | start => cases hd
  | @next c c' e h1 h2 h3 ih =>
    have keep : c'.disk = c.disk → (∀ s, c.proc ≠ .writing s) → False := fun he hw => by
      rw [he] at hd
      obtain ⟨s, hs, -⟩ := ih hd ht
      exact hw s hs
    cases e with
    | boot l data =>
      rcases hd0 : c.disk with _ | d0
      · exfalso
        unfold step at h3
        rcases hp : c.proc with _ | s | s | s <;> rw [hp] at h3 <;> try (cases h3; done)
        dsimp only at h3
        split at h3
        · unfold ckptInit at h3
          rw [hd0] at h3
          cases h3
          cases hd
          cases ht
        · cases h3
      · exfalso
        unfold step at h3
        rcases hp : c.proc with _ | s | s | s <;> rw [hp] at h3 <;> try (cases h3; done)
        dsimp only at h3
        split at h3
        · unfold ckptInit at h3
          rw [hd0] at h3
          dsimp only at h3
          refine keep ?_ (fun s hs => by rw [hp] at hs; cases hs)
          rw [hd0]
          rcases hg : (checkpointPaths l).getLast? with _ | path
          · rw [hg] at h3; cases h3; rfl
          · rw [hg] at h3
            dsimp only at h3
            rcases hf : Dict.get? d0 path with _ | _ | _ <;> rw [hf] at h3 <;> cases h3 <;> rfl
        · cases h3
    | openFile =>
      unfold step at h3
      rcases hp : c.proc with _ | s | s | s <;> rw [hp] at h3 <;> try (cases h3; done)
      dsimp only at h3
      split at h3
      · cases h3
        obtain ⟨d0, hd0, rfl⟩ := Option.map_eq_some_iff.1 hd
        rw [Dict.get?_set] at ht
        split at ht
        · rename_i e
          exact ⟨s, rfl, e.symm⟩
        · obtain ⟨s', hs', -⟩ := ih hd0 ht
          rw [hp] at hs'
          cases hs'
      · cases h3
    | dump =>
      unfold step at h3
      rcases hp : c.proc with _ | s | s | s <;> rw [hp] at h3 <;> try (cases h3; done)
      cases h3
      obtain ⟨d0, hd0, rfl⟩ := Option.map_eq_some_iff.1 hd
      rw [Dict.get?_set] at ht
      split at ht
      · cases ht
      · rename_i hne
        obtain ⟨s', hs', e⟩ := ih hd0 ht
        rw [hp] at hs'
        cases hs'
        exact absurd e.symm hne
    | update data =>
      exfalso
      unfold step at h3
      rcases hp : c.proc with _ | s | s | s <;> rw [hp] at h3 <;> try (cases h3; done)
      · dsimp only at h3
        split at h3
        · cases h3
        · cases h3
          exact keep rfl (fun s hs => by rw [hp] at hs; cases hs)
      · cases h3
        exact keep rfl (fun s hs => by rw [hp] at hs; cases hs)
    | crash =>
      exfalso
      unfold step at h3
      rcases hp : c.proc with _ | s | s | s <;> rw [hp] at h3 <;> cases h3 <;> exact keep rfl (h2 rfl)

/-- C172, in part: if no crash happens while a file is written, then every start succeeds, with any listing. -/
theorem restart_succeeds_partial {U : Updater P G O D L} {n : Nat} {key : Key} {c c' : Config P O} (h : Reach U n key careful fresh c) {l : List (List Char)} {data : D} (hb : step U n key c (.boot l data) = some c') : ∃ s, c'.proc = .ready s := by
  have hl := boot_lists hb
  rcases hg : l.getLast? with _ | name
  · rw [List.getLast?_eq_none_iff] at hg
    subst hg
    unfold step at hb
    rcases hp : c.proc with _ | s | s | s <;> rw [hp] at hb <;> try (cases hb; done)
    dsimp only at hb
    rw [if_pos hl] at hb
    unfold ckptInit at hb
    rcases hd : c.disk with _ | d <;> rw [hd] at hb <;> cases hb <;> exact ⟨_, rfl⟩
  · obtain ⟨hp, -, d, f, hd, hf, hc⟩ := boot_last (reach_any h) hb hg
    cases f with
    | pickle s => exact ⟨s, hc⟩
    | torn =>
      obtain ⟨s, hs, -⟩ := torn_writing h hd hf
      rw [hp] at hs
      cases hs

/-- Every start is with a sorted listing. -/
def sorted : Config P O → Event D → Prop
  | _, .boot l _ => Sorted l
  | _, _ => True

/-- C172 the code does not recover if the newest file is torn: every start fails and nothing changes any more. -/
theorem torn_stuck {U : Updater P G O D L} {n : Nat} {key : Key} {c c' : Config P O} (h : Reach U n key any fresh c) (hshort : Short c) (hp : c.proc = .down) {d : Dict (List Char) (File P O)} {k : Nat} (hd : c.disk = some d)
    (hk : Newest c k) (ht : d.get? (fileName k) = some .torn) (hr : Reach U n key sorted c c') : c' = c := by
  induction hr with
  | start => rfl
  | @next c1 c2 e h1 h2 h3 ih =>
    subst ih
    cases e with
    | boot l data =>
      obtain ⟨j, hg, hj⟩ := sorted_last h hshort (boot_lists h3) h2 (fun hnil => by rw [Newest, hnil] at hk; cases hk.1)
      have e : j = k := Nat.le_antisymm (hk.2.2 _ hj.2.1 hj.1) (hj.2.2 _ hk.2.1 hk.1)
      subst e
      obtain ⟨-, hdisk, d', f, hd', hf, hc⟩ := boot_last h h3 hg
      rw [hd] at hd'
      cases hd'
      rw [ht] at hf
      cases hf
      rcases c1 with ⟨a, b⟩
      rcases c2 with ⟨a', b'⟩
      cases hdisk
      cases hp
      cases hc
      rfl
    | openFile => unfold step at h3; rw [hp] at h3; cases h3
    | dump => unfold step at h3; rw [hp] at h3; cases h3
    | update => unfold step at h3; rw [hp] at h3; cases h3
    | crash => unfold step at h3; rw [hp] at h3; cases h3

/-- C172 a process that resumes first writes again the file that it has loaded: the next step is to open it, which empties it.  A crash at this point loses everything: no start with a sorted listing succeeds any more. -/
theorem resume_risks {U : Updater P G O D L} {n : Nat} {key : Key} {c c' : Config P O} (h : Reach U n key any fresh c) (hshort : Short c) (hne : names c ≠ []) {l : List (List Char)} {data : D} (hs : Sorted l)
    (hb : step U n key c (.boot l data) = some c') {s : TrainState P O} (hr : c'.proc = .ready s) :
    (∀ data, step U n key c' (.update data) = none) ∧ ∃ c1 c2, step U n key c' .openFile = some c1 ∧ step U n key c1 .crash = some c2 ∧ ∀ c3, Reach U n key sorted c2 c3 → held c3.proc = none := by
  obtain ⟨k, hg, hk⟩ := sorted_last h hshort (boot_lists hb) hs hne
  obtain ⟨-, hdisk, d, f, hd, hf, hc⟩ := boot_last h hb hg
  rw [hr] at hc
  cases f with
  | torn => cases hc
  | pickle s' =>
    cases hc
    have e := names_distinct (file_step h hd hf)
    subst e
    have hdue : due n s.step = true := by
      obtain ⟨j, e, hj, -⟩ := (inv_any h).file d _ _ hd hf
      rw [names_distinct e]
      exact hj
    have h1 : step U n key c' .openFile = some ⟨some (d.set (fileName s.step) .torn), .writing s⟩ := by
      unfold step
      rw [hr]
      dsimp only
      rw [if_pos hdue, hdisk, hd]
      rfl
    refine ⟨fun data => ?_, _, _, h1, rfl, fun c3 h3 => ?_⟩
    · unfold step
      rw [hr]
      dsimp only
      rw [if_pos hdue]
    · have hreach : Reach U n key any fresh (⟨some (d.set (fileName s.step) .torn), .down⟩ : Config P O) := .next (e := .crash) (.next (.next h trivial hb) trivial h1) trivial rfl
      have hkeys : names (⟨some (d.set (fileName s.step) .torn), .down⟩ : Config P O) = names c := by
        unfold names
        rw [hd]
        show (d.set _ _).keys = d.keys
        rw [Dict.keys_set, if_pos]
        exact (Dict.mem_keys_iff _ _).2 (by rw [hf]; rfl)
      rw [torn_stuck hreach (by unfold Short; rw [hkeys]; exact hshort) rfl rfl (k := s.step) (by unfold Newest; rw [hkeys]; exact hk) (by rw [Dict.get?_set, if_pos rfl]) h3]
      rfl

/-- C172 the code does not sort what `listdir` returns, whose order is arbitrary: there is a listing with which it resumes from any complete checkpoint, however old. -/
theorem any_checkpoint {U : Updater P G O D L} {n : Nat} {key : Key} {c : Config P O} (h : Reach U n key any fresh c) (hp : c.proc = .down) {d : Dict (List Char) (File P O)} {s : TrainState P O} (hd : c.disk = some d)
    (hf : d.get? (fileName s.step) = some (.pickle s)) (data : D) : ∃ l, step U n key c (.boot l data) = some ⟨c.disk, .ready s⟩ := by
  have hm : fileName s.step ∈ d.keys := (Dict.mem_keys_iff _ _).2 (by rw [hf]; rfl)
  have hl : Lists c.disk (d.keys.erase (fileName s.step) ++ [fileName s.step]) = true := by
    unfold Lists
    rw [hd]
    exact List.isPerm_iff.2 ((List.perm_append_singleton _ _).trans (List.perm_cons_erase hm).symm)
  refine ⟨d.keys.erase (fileName s.step) ++ [fileName s.step], ?_⟩
  unfold step
  rw [hp]
  dsimp only
  rw [if_pos hl]
  unfold ckptInit
  rw [paths_all h hl, hd]
  dsimp only
  rw [List.getLast?_append, List.getLast?_singleton]
  dsimp only [Option.or]
  rw [hf]

/-! ### C173: the records -/

theorem crop_length (v : List Int) (size : Nat) (pad : Int) : (cropOrPad v size pad).length = size := by
  unfold cropOrPad
  split
  · rw [List.length_append, List.length_replicate]; omega
  · rw [List.length_take]; omega

theorem crop_getD (v : List Int) (size : Nat) {i : Nat} (h : i < size) : (cropOrPad v size 0).getD i 0 = v.getD i 0 := by
  unfold cropOrPad
  split
  · rw [List.getD_eq_getElem?_getD, List.getD_eq_getElem?_getD, List.getElem?_append]
    split
    · rfl
    · rename_i h1 h2
      rw [List.getElem?_replicate, if_pos (by omega), List.getElem?_eq_none (by omega)]
      rfl
  · rw [List.getD_eq_getElem?_getD, List.getD_eq_getElem?_getD, List.getElem?_take_of_lt h]

/-- C173 observations and targets have the length asked for, whatever the text. -/
theorem record_length (seq : Nat) (text : List Int) : (record seq text).1.length = seq ∧ (record seq text).2.length = seq := by
  unfold record
  dsimp only
  rw [List.length_dropLast, List.length_tail, crop_length]
  exact ⟨rfl, rfl⟩

/-- C173 the observations are the text, continued with zeros. -/
theorem record_obs {seq : Nat} {text : List Int} {i : Nat} (h : i < seq) : (record seq text).1.getD i 0 = text.getD i 0 := by
  rw [← crop_getD text (seq + 1) (Nat.lt_succ_of_lt h)]
  unfold record
  dsimp only
  rw [List.getD_eq_getElem?_getD, List.getD_eq_getElem?_getD, List.getElem?_dropLast, crop_length, if_pos (by omega)]

/-- C173 the targets are the text one token later, continued with zeros. -/
theorem record_target {seq : Nat} {text : List Int} {i : Nat} (h : i < seq) : (record seq text).2.getD i 0 = text.getD (i + 1) 0 := by
  rw [← crop_getD text (seq + 1) (Nat.succ_lt_succ h)]
  unfold record
  dsimp only
  rw [List.getD_eq_getElem?_getD, List.getD_eq_getElem?_getD, List.getElem?_tail]

/-- C173 the target at a position is the next observation. -/
theorem record_next {seq : Nat} {text : List Int} {i : Nat} (h : i + 1 < seq) : (record seq text).2.getD i 0 = (record seq text).1.getD (i + 1) 0 := by
  rw [record_target (by omega), record_obs h]

/-- C173 of a text of positive tokens the positions that count are those of its tokens, as far as they fit. -/
theorem record_counts {seq : Nat} {text : List Int} (hpos : ∀ t ∈ text, 0 < t) {i : Nat} (h : i < seq) : 0 < (record seq text).1.getD i 0 ↔ i < text.length := by
  rw [record_obs h, List.getD_eq_getElem?_getD]
  rcases Nat.lt_or_ge i text.length with hi | hi
  · rw [List.getElem?_eq_getElem hi]
    exact ⟨fun _ => hi, fun _ => hpos _ (List.getElem_mem hi)⟩
  · rw [List.getElem?_eq_none hi]
    exact ⟨fun h => absurd h (by decide), fun h => absurd h (by omega)⟩

open Verif.Props.Transformer (reals loss_cross_entropy IsLog) in
open Verif.Props.Attention (IsExp weight) in
open Verif.Transformer (lossOf) in
/-- C173 the loss of a batch of texts is the mean, over the tokens of all the texts as far as they fit, of the negative logarithm of the probability of the next token, where the end of a text that
fits counts as one more token 0. -/
theorem batch_loss {K : Type} [Field K] [LinearOrder K] [IsStrictOrderedRing K] {exp log : K → K} (he : IsExp exp) (hlog : IsLog exp log) {V seq : Nat} (hseq : 0 < seq) {texts : List (List Int)}
    (htok : ∀ t ∈ texts, ∀ x ∈ t, 0 < x ∧ x < V) (hsome : ∃ t ∈ texts, t ≠ []) {logits : Arr K} (hl : logits.shape = [texts.length, seq, V]) :
    lossOf exp log V logits (stack seq (texts.map fun t => (record seq t).1)) (stack seq (texts.map fun t => (record seq t).2)) =
      .ok ((∑ b ∈ Finset.range texts.length, ∑ i ∈ Finset.range (min (texts.getD b []).length seq), -log (weight exp V (fun k => logits.val [b, i, k]) ((texts.getD b []).getD (i + 1) 0).toNat)) /
        (∑ b ∈ Finset.range texts.length, min (texts.getD b []).length seq : Nat)) := by
  set obs := stack seq (texts.map fun t => (record seq t).1) with hobs
  set target := stack seq (texts.map fun t => (record seq t).2) with htarget
  have hrow : ∀ {b}, b < texts.length → ∀ t, texts.getD b [] = t → t ∈ texts := fun {b} hb t ht => by
    rw [List.getD_eq_getElem?_getD, List.getElem?_eq_getElem hb] at ht
    rw [← ht]
    exact List.getElem_mem hb
  have hmap : ∀ (f : List Int → List Int) {b}, b < texts.length → (texts.map f).getD b [] = f (texts.getD b []) := fun f {b} hb => by
    rw [List.getD_eq_getElem?_getD, List.getD_eq_getElem?_getD, List.getElem?_map, List.getElem?_eq_getElem hb]
    rfl
  have hov : ∀ {b i}, b < texts.length → i < seq → (0 < obs.val [b, i] ↔ i < (texts.getD b []).length) := fun {b i} hb hi => by
    have e : obs.val [b, i] = (record seq (texts.getD b [])).1.getD i 0 := congrArg (fun l : List Int => l.getD i 0) (hmap (fun t => (record seq t).1) hb)
    rw [e]
    exact record_counts (fun x hx => (htok _ (hrow hb _ rfl) x hx).1) hi
  have htv : ∀ {b i}, b < texts.length → i < seq → target.val [b, i] = (texts.getD b []).getD (i + 1) 0 := fun {b i} hb hi => by
    have e : target.val [b, i] = (record seq (texts.getD b [])).2.getD i 0 := congrArg (fun l : List Int => l.getD i 0) (hmap (fun t => (record seq t).2) hb)
    rw [e]
    exact record_target hi
  have hsum : ∀ {M : Type} [AddCommMonoid M] (f : Nat × Nat → M), ∑ p ∈ reals obs texts.length seq, f p = ∑ b ∈ Finset.range texts.length, ∑ i ∈ Finset.range (min (texts.getD b []).length seq), f (b, i) := by
    intro M _ f
    unfold reals
    rw [Finset.sum_filter, Finset.sum_product]
    refine Finset.sum_congr rfl fun b hb => ?_
    rw [← Finset.sum_filter]
    refine Finset.sum_congr ?_ fun _ _ => rfl
    ext i
    rw [Finset.mem_filter, Finset.mem_range, Finset.mem_range, lt_min_iff]
    constructor
    · rintro ⟨h1, h2⟩
      exact ⟨(hov (Finset.mem_range.1 hb) h1).1 h2, h1⟩
    · rintro ⟨h1, h2⟩
      exact ⟨h2, (hov (Finset.mem_range.1 hb) h2).2 h1⟩
  have hshape : ∀ f : List Int → List Int, (stack seq (texts.map f)).shape = [texts.length, seq] := fun f => by
    show [(texts.map f).length, seq] = _
    rw [List.length_map]
  rw [loss_cross_entropy he hlog hl (hshape _) (hshape _)]
  · rw [hsum, Finset.card_eq_sum_ones, hsum]
    congr 2
    · refine Finset.sum_congr rfl fun b hb => Finset.sum_congr rfl fun i hi => ?_
      rw [htv (Finset.mem_range.1 hb) (by rw [Finset.mem_range] at hi; omega)]
    · refine congrArg _ (Finset.sum_congr rfl fun b _ => ?_)
      rw [← Finset.card_eq_sum_ones, Finset.card_range]
  · obtain ⟨t, ht, hne⟩ := hsome
    obtain ⟨b, hb, rfl⟩ := List.getElem_of_mem ht
    refine ⟨(b, 0), Finset.mem_filter.2 ⟨Finset.mem_product.2 ⟨Finset.mem_range.2 hb, Finset.mem_range.2 hseq⟩, (hov hb hseq).2 ?_⟩⟩
    rw [List.getD_eq_getElem?_getD, List.getElem?_eq_getElem hb]
    exact List.length_pos_iff.2 hne
  · rintro ⟨b, i⟩ hp
    obtain ⟨hp, hp2⟩ := Finset.mem_filter.1 hp
    obtain ⟨hb, hi⟩ := Finset.mem_product.1 hp
    have hb := Finset.mem_range.1 hb
    have hi := Finset.mem_range.1 hi
    dsimp only at hb hi hp2 ⊢
    rw [htv hb hi]
    have hin := (hov hb hi).1 hp2
    have h0 := htok _ (hrow hb _ rfl)
    have hVpos : (0 : Int) < V := by
      have := h0 _ (List.getElem_mem hin)
      omega
    rw [List.getD_eq_getElem?_getD]
    rcases Nat.lt_or_ge (i + 1) (texts.getD b []).length with h | h
    · rw [List.getElem?_eq_getElem h]
      have := h0 _ (List.getElem_mem h)
      exact ⟨le_of_lt this.1, this.2⟩
    · rw [List.getElem?_eq_none h]
      exact ⟨le_refl _, hVpos⟩

/-! ### Examples -/

/-- Parameters that tell the key they were made with and the data they were updated with; the loss is its key. -/
def demo : Updater (Key × List Nat) Nat Unit Nat Key := ⟨fun k _ => (k, []), fun _ k d => (k, d), fun _ => (), fun g _ => (g, ()), fun p g => (p.1, p.2 ++ [g])⟩

/-- Steps one after the other. -/
def run (U : Updater P G O D L) (n : Nat) (key : Key) : Config P O → List (Event D) → Option (Config P O)
  | c, [] => some c
  | c, e :: es => (step U n key c e).bind fun c' => run U n key c' es

theorem run_reach {U : Updater P G O D L} {n : Nat} {key : Key} {A : Config P O → Event D → Prop} : ∀ {es : List (Event D)} {c0 c c' : Config P O}, (∀ c, ∀ e ∈ es, A c e) → Reach U n key A c0 c → run U n key c es = some c' → Reach U n key A c0 c' := by
  intro es
  induction es with
  | nil => intro c0 c c' _ h hr; cases hr; exact h
  | cons e es ih =>
    intro c0 c c' hA h hr
    obtain ⟨c1, h1, h2⟩ := Option.bind_eq_some_iff.1 hr
    exact ih (fun c e he => hA c e (List.mem_cons_of_mem _ he)) (.next h (hA c e List.mem_cons_self) h1) h2

/-- What the parameters were updated with. -/
def seen (c : Option (Config (Key × List Nat) Unit)) : Option (List Nat) := c.bind fun c => (held c.proc).map fun s => s.params.2

/-- Two updates with the data 1 and 2, a checkpoint after each second one, and a crash. -/
def trace : List (Event Nat) := [.boot [] 0, .openFile, .dump, .update 1, .update 2, .openFile, .dump, .crash]

/-- C171 the data of the code is not determined by the step: a process that resumes reads its data from the beginning.  After two updates, a crash, and another update the parameters have seen the data 1 twice, and not what
training without interruption sees. -/
theorem data_repeats : seen (run demo 2 (.root 0) fresh (trace ++ [.boot [fileName 0, fileName 2] 0, .openFile, .dump, .update 1])) = some [1, 2, 1] ∧ (train demo (.root 0) 0 [1, 2, 3]).params.2 = [1, 2, 3] := by decide

/-- Another order of the listing starts again from step 0. -/
example : seen (run demo 2 (.root 0) fresh (trace ++ [.boot [fileName 0, fileName 2] 0])) = some [1, 2] ∧ seen (run demo 2 (.root 0) fresh (trace ++ [.boot [fileName 2, fileName 0] 0])) = some [] := by decide

example : (train demo (.root 0) 0 [5, 6, 7]).step = 3 ∧ (reports demo (demo.init (.root 0) 0) [5, 6, 7]).map Prod.fst = [0, 1, 2] := ⟨train_step _ _ _ _, reports_steps _ _ _ _⟩

example : (Key.root 0 :: (demo.init (.root 0) 0).params.1 :: (reports demo (demo.init (.root 0) 0) [5, 6, 7]).map Prod.snd).Nodup := keys_fresh demo (fun _ _ _ => rfl) Prod.fst (fun _ _ => rfl) _ _ _

example : ∃ k0 k1 k2 : Key, ¬ From k1 k2 ∧ ¬ From k2 k1 ∧ ¬ From k0 k1 ∧ (train demo (.root 0) 0 [5, 6]).params = (descend demo (demo.netInit k0 0, ()) [(k1, 5), (k2, 6)]).1 := by
  obtain ⟨k0, ks, h0, h1, h2⟩ := train_descends demo (.root 0)
  exact ⟨k0, ks 0, ks 1, h1 0 1 (by decide), h1 1 0 (by decide), (h0 0).1, congrArg Prod.fst (h2 0 [5, 6]).1⟩

example : ∃ k, (reports demo (demo.init (.root 0) 0) ([5, 6] ++ [7])).getLast? = some (2, (demo.valueAndGrad (train demo (.root 0) 0 [5, 6]).params k 7).1) := reports_loss _ _ _ _ _

/-- The state after two updates. -/
def two : TrainState (Key × List Nat) Unit := train demo (.root 0) 0 [1, 2]

/-- The directory after two updates and a crash. -/
def after : Config (Key × List Nat) Unit := ⟨some [(fileName 0, .pickle (train demo (.root 0) 0 [])), (fileName 2, .pickle two)], .down⟩

theorem after_run : run demo 2 (.root 0) fresh trace = some after := rfl

theorem after_reach : Reach demo 2 (.root 0) any fresh after := run_reach (fun _ _ _ => trivial) .start after_run

theorem after_short : Short after := by
  intro name h
  have h : name ∈ [fileName 0, fileName 2] := h
  rw [List.mem_cons, List.mem_singleton] at h
  rcases h with rfl | rfl
  · exact ⟨0, by decide, rfl⟩
  · exact ⟨2, by decide, rfl⟩

/-- The process after it has resumed. -/
def again : Config (Key × List Nat) Unit := ⟨after.disk, .ready two⟩

theorem again_boot : step demo 2 (.root 0) after (.boot [fileName 0, fileName 2] 0) = some again := rfl

theorem listing_sorted : Sorted [fileName 0, fileName 2] := List.pairwise_pair.2 (names_ordered (by decide) (by decide))

example : ∃ first ds, two = train demo (.root 0) first ds := states_trained after_reach (.inr ⟨_, fileName 2, rfl, rfl⟩)

example : ∃ k, fileName 2 = fileName k ∧ (2 = 0 ∨ 2 ∣ k) := files_named after_reach (by decide)

example : fileName 2 = fileName two.step := file_step after_reach (d := [(fileName 0, .pickle (train demo (.root 0) 0 [])), (fileName 2, .pickle two)]) rfl rfl

example : fileName 0 ∈ names again := files_stay again_boot (by decide)

example : fileName 2 = fileName 2 → 2 = 2 := names_distinct

example : two = train demo (.root 0) 0 ((List.range 2).map fun k => k + 1) := by
  refine crashes_unseen (n := 2) (c := ⟨some [(fileName 0, .pickle (train demo (.root 0) 0 []))], .ready two⟩) (stream := fun k => k + 1) ?_ (.inl rfl)
  refine .next (.next (.next (.next (.next (e := .boot [] 0) (c' := ⟨some [], .ready (train demo (.root 0) 0 [])⟩) .start rfl rfl) trivial (e := .openFile) rfl) trivial (e := .dump) rfl) ?_ (e := .update 1) rfl) ?_ (e := .update 2) rfl
  · intro s hs; cases hs; rfl
  · intro s hs; cases hs; rfl

example : fileName 2 < fileName 10 := names_ordered (by decide) (by decide)

example : Newest after 2 := resume_newest_partial after_reach after_short listing_sorted (by decide) again_boot (s := two) rfl

/-- One step after the resumption a crash loses one update. -/
example : 3 ≤ two.step + 2 :=
  loses_at_most_partial (c := ⟨after.disk, .ready (train demo (.root 0) 0 [1, 2, 9])⟩) (r := train demo (.root 0) 0 [1, 2, 9])
    (.next (e := .update 9) (.next (e := .dump) (.next (e := .openFile) (.next after_reach trivial again_boot) trivial rfl) trivial rfl) trivial rfl) (by decide) after_short rfl (by decide) (c1 := after) rfl (l := [fileName 0, fileName 2])
    (data := 0) listing_sorted (c2 := again) rfl rfl

theorem after_careful : Reach demo 2 (.root 0) careful fresh after := by
  refine .next (e := .crash) (c := ⟨after.disk, .saved two⟩) (run_reach (es := [.boot [] 0, .openFile, .dump, .update 1, .update 2, .openFile, .dump]) ?_ .start rfl) (fun _ s hs => by cases hs) rfl
  intro c e he h
  subst h
  simp at he

example : ∃ s, again.proc = .ready s := restart_succeeds_partial after_careful again_boot

/-- While a file is written it is torn. -/
example : ∃ s : TrainState (Key × List Nat) Unit, (Proc.writing (train demo (.root 0) 0 []) : Proc (Key × List Nat) Unit) = .writing s ∧ fileName 0 = fileName s.step :=
  torn_writing (U := demo) (n := 2) (key := .root 0) (c := ⟨some [(fileName 0, .torn)], .writing (train demo (.root 0) 0 [])⟩)
    (.next (e := .openFile) (.next (e := .boot [] 0) (c' := ⟨some [], .ready (train demo (.root 0) 0 [])⟩) .start (fun h => by cases h) rfl) (fun h => by cases h) rfl) rfl rfl

example : (∀ data, step demo 2 (.root 0) again (.update data) = none) ∧
    ∃ c1 c2, step demo 2 (.root 0) again .openFile = some c1 ∧ step demo 2 (.root 0) c1 .crash = some c2 ∧ ∀ c3, Reach demo 2 (.root 0) sorted c2 c3 → held c3.proc = none :=
  resume_risks after_reach after_short (by decide) listing_sorted again_boot rfl

/-- The first file was being written. -/
example (c' : Config (Key × List Nat) Unit) (h : Reach demo 2 (.root 0) sorted ⟨some [(fileName 0, .torn)], .down⟩ c') : c' = ⟨some [(fileName 0, .torn)], .down⟩ :=
  torn_stuck (U := demo) (n := 2) (key := .root 0) (run_reach (es := [.boot [] 0, .openFile, .crash]) (fun _ _ _ => trivial) .start rfl)
    (fun name h => ⟨0, by decide, List.mem_singleton.1 h⟩) rfl rfl (k := 0) ⟨List.mem_singleton.2 rfl, by decide, fun j hj h => by rw [names_distinct (List.mem_singleton.1 h)]⟩ rfl h

example : ∃ l, step demo 2 (.root 0) after (.boot l 0) = some ⟨after.disk, .ready (train demo (.root 0) 0 [])⟩ := any_checkpoint after_reach rfl rfl rfl 0

example : record 4 [7, 8] = ([7, 8, 0, 0], [8, 0, 0, 0]) ∧ record 2 [7, 8, 9, 10] = ([7, 8], [8, 9]) := by decide

example : 0 < (record 4 [7, 8]).1.getD 1 0 ↔ 1 < 2 := record_counts (by decide) (by decide)

open Verif.Props.Transformer (real_log) in
open Verif.Props.Attention (weight real_exp) in
open Verif.Transformer (lossOf) in
/-- Two texts, of which one fits. -/
example (logits : Arr ℝ) (h : logits.shape = [2, 3, 10]) :
    lossOf Real.exp Real.log 10 logits (stack 3 ([[7, 8], [1, 2, 3, 4]].map fun t => (record 3 t).1)) (stack 3 ([[7, 8], [1, 2, 3, 4]].map fun t => (record 3 t).2)) =
      .ok ((∑ b ∈ Finset.range 2, ∑ i ∈ Finset.range (min (([[7, 8], [1, 2, 3, 4]] : List (List Int)).getD b []).length 3),
        -Real.log (weight Real.exp 10 (fun k => logits.val [b, i, k]) ((([[7, 8], [1, 2, 3, 4]] : List (List Int)).getD b []).getD (i + 1) 0).toNat)) /
        (∑ b ∈ Finset.range 2, min (([[7, 8], [1, 2, 3, 4]] : List (List Int)).getD b []).length 3 : Nat)) :=
  batch_loss real_exp real_log (by decide) (texts := [[7, 8], [1, 2, 3, 4]]) (by decide) ⟨[7, 8], by decide, by decide⟩ h

end Verif.Props.LmTrain
