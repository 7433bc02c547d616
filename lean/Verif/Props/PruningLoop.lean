import Mathlib.Algebra.Order.Ring.Pow
import Mathlib.Tactic.NormNum
import Verif.Props.Pruning

/-!
# Training with pruning (C146, C147)
-/

set_option linter.unusedVariables false
set_option linter.unusedSectionVars false

namespace Verif.Props.Pruning
open Verif.Shapes (Err size)
open Verif.Conv (indices)
open Verif.Props.Reset (Valid mem_indices)
open Verif.Filtering (Structure)
open Verif.Props.Filtering (IsDict Entry entry_iff)
open Verif.Frame (lookup2 store2)
open Verif.Pruning

variable {K : Type} [Field K] [LinearOrder K] [IsStrictOrderedRing K] [FloorRing K] {Opt : Type}

/-! ### Specification -/

/-- What computing updates promises: they have the names and shapes of the parameters, as gradients do. -/
def Updates (getUpdates : Structure (Leaf K) → Opt → Nat → Except Err (Structure (Leaf K) × Opt)) : Prop :=
  ∀ p o step, IsDict p → ∃ u o', getUpdates p o step = .ok (u, o') ∧ IsDict u ∧ Alike p u

/-- A state of the loop: parameters and averages of the same names and shapes, with masks that are made for them. -/
structure Good (ms : List (Predicate K × K)) (s : Train K Opt) : Prop where
  dict : IsDict s.params
  full : Inhabited s.params
  avg : IsDict s.avgParams
  avgFull : Inhabited s.avgParams
  alike : Alike s.params s.avgParams
  fits : Fits ms s.params s.masks

/-! ### Lemmas -/

theorem Alike.refl (a : Structure (Leaf K)) : Alike a a := ⟨fun m n v h => ⟨v, h, rfl⟩, fun m n v h => ⟨v, h, rfl⟩⟩

theorem Alike.symm {a b : Structure (Leaf K)} (h : Alike a b) : Alike b a :=
  ⟨fun m n v hv => (h.2 m n v hv).imp fun w hw => ⟨hw.1, hw.2.symm⟩, fun m n v hv => (h.1 m n v hv).imp fun w hw => ⟨hw.1, hw.2.symm⟩⟩

theorem Alike.trans {a b c : Structure (Leaf K)} (h : Alike a b) (k : Alike b c) : Alike a c := by
  refine ⟨fun m n v hv => ?_, fun m n w hw => ?_⟩
  · obtain ⟨x, hx, e⟩ := h.1 m n v hv
    obtain ⟨y, hy, e'⟩ := k.1 m n x hx
    exact ⟨y, hy, e'.trans e⟩
  · obtain ⟨x, hx, e⟩ := k.2 m n w hw
    obtain ⟨y, hy, e'⟩ := h.2 m n x hx
    exact ⟨y, hy, e.trans e'⟩

theorem set_inhabited {β : Type} (k : Str) {b : Dict Str β} (hb : b ≠ []) : ∀ {o : Structure β}, (∀ p ∈ o, p.2 ≠ []) → ∀ p ∈ o.set k b, p.2 ≠ []
  | [], _ => by
    intro p hp
    cases List.mem_singleton.mp hp
    exact hb
  | q :: o, ho => by
    intro p hp
    simp only [Dict.set] at hp
    split at hp
    · rcases List.mem_cons.1 hp with rfl | hp
      · exact hb
      · exact ho _ (List.mem_cons_of_mem _ hp)
    · rcases List.mem_cons.1 hp with rfl | hp
      · exact ho _ List.mem_cons_self
      · exact set_inhabited k hb (fun p hp => ho p (List.mem_cons_of_mem _ hp)) p hp

theorem set_ne_nil {β : Type} (d : Dict Str β) (n : Str) (v : β) : d.set n v ≠ [] := by
  cases d with
  | nil => simp [Dict.set]
  | cons q d => simp only [Dict.set]; split <;> simp

theorem merge_inhabited {β : Type} (ds : List (Structure β)) : ∀ p ∈ Filtering.merge ds, p.2 ≠ [] := by
  unfold Filtering.merge
  have k1 : ∀ (m : Str) (b : Dict Str β) (out : Structure β), (∀ p ∈ out, p.2 ≠ []) → ∀ p ∈ b.foldl (fun out q => store2 out m q.1 q.2) out, p.2 ≠ [] := by
    intro m b
    induction b with
    | nil => intro out h; exact h
    | cons q b ih => intro out h; exact ih _ (set_inhabited m (set_ne_nil _ _ _) h)
  have k2 : ∀ (d out : Structure β), (∀ p ∈ out, p.2 ≠ []) → ∀ p ∈ d.foldl (fun out p => p.2.foldl (fun out q => store2 out p.1 q.1 q.2) out) out, p.2 ≠ [] := by
    intro d
    induction d with
    | nil => intro out h; exact h
    | cons p d ih => intro out h; exact ih _ (k1 p.1 p.2 out h)
  have k3 : ∀ (ds : List (Structure β)) (out : Structure β), (∀ p ∈ out, p.2 ≠ []) →
      ∀ p ∈ ds.foldl (fun out s => s.foldl (fun out p => p.2.foldl (fun out q => store2 out p.1 q.1 q.2) out) out) out, p.2 ≠ [] := by
    intro ds
    induction ds with
    | nil => intro out h; exact h
    | cons d ds ih => intro out h; exact ih _ (k2 d out h)
  exact k3 ds [] fun p hp => (by cases hp)

theorem apply_inhabited {params out : Structure (Leaf K)} {masks : List (Structure (Leaf K))} {ms : List (Predicate K × K)} (hok : applyMask params masks ms = .ok out) : Inhabited out := by
  have h' : (maskAll (createPartitions ms params).1 masks >>= fun pruned => Except.ok (Filtering.merge (pruned ++ [(createPartitions ms params).2.2]))) = .ok out := hok
  cases hp : maskAll (createPartitions ms params).1 masks with
  | error e => rw [hp] at h'; cases h'
  | ok pruned =>
    rw [hp] at h'
    cases h'
    exact merge_inhabited _

theorem multimap_inhabited {β γ δ : Type} {f : β → γ → Except Err δ} {a : Structure β} {b : Structure γ} {c : Structure δ} (h : treeMultimap f a b = .ok c) (hd : IsDict a) (ha : ∀ p ∈ a, p.2 ≠ []) : ∀ p ∈ c, p.2 ≠ [] := by
  intro p hp
  obtain ⟨h1, h2, h3⟩ := zipBundle_ok h
  have hc := (treeMultimap_ok h).1 hd
  obtain ⟨x, y, hx, hy, hf⟩ := (h3 p.1 p.2).mp (Dict.get?_of_mem hc.1 hp)
  have := (zipBundle_ok hf).1
  intro e
  rw [e] at this
  have hx' := ha _ (Dict.mem_of_get? hx)
  cases x with
  | nil => exact hx' rfl
  | cons q x => cases this

/-- Mapping over two structures of the same names and shapes. -/
theorem multimap_alike (f : K → K → K) {a b : Structure (Leaf K)} (ha : IsDict a) (hb : IsDict b) (hai : Inhabited a) (hbi : Inhabited b) (hab : Alike a b) :
    ∃ c, treeMultimap (Nd.zip f) a b = .ok c ∧ IsDict c ∧ Inhabited c ∧ Alike a c ∧
      ∀ m n x y z, Entry a m n x → Entry b m n y → Entry c m n z → z.shape = x.shape ∧ ∀ i, Valid x.shape i → z.val i = f (x.val i) (y.val i) := by
  obtain ⟨c, hc⟩ := treeMultimap_run (f := Nd.zip f) ha hb hai hbi (fun m n => by
    simp only [← entry_iff ha, ← entry_iff hb]
    exact ⟨fun ⟨x, hx⟩ => (hab.1 m n x hx).imp fun _ h => h.1, fun ⟨y, hy⟩ => (hab.2 m n y hy).imp fun _ h => h.1⟩) fun m n x y hx hy => by
      rw [← entry_iff ha] at hx
      rw [← entry_iff hb] at hy
      obtain ⟨y', hy', e⟩ := hab.1 m n x hx
      rw [entry_unique hb hy' hy] at e
      obtain ⟨z, hz, _⟩ := zip_same f e
      exact ⟨z, hz⟩
  obtain ⟨h1, h2, h3⟩ := treeMultimap_ok hc
  have hcd := h1 ha
  have key : ∀ m n x y z, Entry a m n x → Entry b m n y → Entry c m n z → z.shape = x.shape ∧ ∀ i, Valid x.shape i → z.val i = f (x.val i) (y.val i) := by
    intro m n x y z hx hy hz
    rw [entry_iff hcd, h3] at hz
    obtain ⟨x', y', hx', hy', e⟩ := hz
    rw [← entry_iff ha] at hx'
    rw [← entry_iff hb] at hy'
    rw [entry_unique ha hx' hx, entry_unique hb hy' hy] at e
    obtain ⟨y'', hy'', es⟩ := hab.1 m n x hx
    rw [entry_unique hb hy'' hy] at es
    obtain ⟨z', hz', hs, hv⟩ := zip_same f es
    rw [hz'] at e
    cases e
    exact ⟨hs, hv⟩
  refine ⟨c, hc, hcd, multimap_inhabited hc ha hai, ⟨fun m n x hx => ?_, fun m n z hz => ?_⟩, key⟩
  · obtain ⟨y, hy, es⟩ := hab.1 m n x hx
    obtain ⟨z, hz, hs, _⟩ := zip_same f es
    refine ⟨z, ?_, hs⟩
    rw [entry_iff hcd, h3]
    exact ⟨x, y, (entry_iff ha).mp hx, (entry_iff hb).mp hy, hz⟩
  · have hz' := hz
    rw [entry_iff hcd, h3] at hz'
    obtain ⟨x, y, hx, hy, _⟩ := hz'
    exact ⟨x, (entry_iff ha).mpr hx, (key m n x y z ((entry_iff ha).mpr hx) ((entry_iff hb).mpr hy) hz).1⟩

theorem bind_ok {α β : Type} {e : Except Err α} {a : α} (h : e = .ok a) (f : α → Except Err β) : (e >>= f) = f a := by
  rw [h]
  rfl

/-! ### The loop -/

/-- C146: one round of the loop.  It does not fail; the updates are computed at the masked parameters; a parameter without a predicate is moved by its update, and the others by their update times the mask,
so that elements that are masked out keep their values. -/
theorem step_equations {argsort : List K → List Nat} {shuffle : Nat → List Nat} (ha : Sorts argsort) (hs : Shuffles shuffle) {getUpdates : Structure (Leaf K) → Opt → Nat → Except Err (Structure (Leaf K) × Opt)}
    (hu : Updates getUpdates) {ms : List (Predicate K × K)} (hms : ShapeOnly ms) (step : Nat) {s : Train K Opt} (hg : Good ms s) :
    ∃ s' pruned u, trainStep argsort shuffle getUpdates ms step s = .ok s' ∧ Good ms s' ∧ Alike s.params s'.params ∧
      applyMask s.params s.masks ms = .ok pruned ∧ getUpdates pruned s.optState step = .ok (u, s'.optState) ∧
      s'.masks = (if step % 200 = 0 then updateMask argsort shuffle s'.params (zhugupta (progress step)) ms else s.masks) ∧
      (∀ m n v d v', Entry s.params m n v → Entry u m n d → Entry s'.params m n v' → group ms m n v = none → ∀ i, Valid v.shape i → v'.val i = v.val i + d.val i) ∧
      ∀ m n v d v' y, Entry s.params m n v → Entry u m n d → Entry s'.params m n v' → MaskOf ms s.masks m n v y → ∀ i, Valid v.shape i → v'.val i = v.val i + d.val i * y.val i := by
  -- averages
  obtain ⟨avg, hav, havd, havi, hava⟩ : ∃ avg, (if step % 1000 = 0 then applyMask s.avgParams s.masks ms else .ok s.avgParams) = .ok avg ∧ IsDict avg ∧ Inhabited avg ∧ Alike s.params avg := by
    by_cases h : step % 1000 = 0
    · obtain ⟨avg, h1, h2, h3, _⟩ := apply_masks hg.avg (hg.fits.alike hms hg.dict hg.avg hg.alike)
      exact ⟨avg, by rw [if_pos h]; exact h1, h2, apply_inhabited h1, hg.alike.trans h3⟩
    · exact ⟨s.avgParams, by rw [if_neg h], hg.avg, hg.avgFull, hg.alike⟩
  obtain ⟨pruned, hp, hpd, hpa, _, _⟩ := apply_masks hg.dict hg.fits
  obtain ⟨u, o, hue, hud, hua⟩ := hu pruned s.optState step hpd
  have hpu := hpa.trans hua
  obtain ⟨up, hup, hupd, hupa, hupn, hupm⟩ := apply_masks hud (hg.fits.alike hms hg.dict hud hpu)
  obtain ⟨params, hpar, hpard, hpari, hpara, hparv⟩ := multimap_alike (· + ·) hg.dict hupd hg.full (apply_inhabited hup) (hpu.trans hupa)
  obtain ⟨avg', hav', hav'd, hav'i, hav'a, _⟩ := multimap_alike (fun p1 p2 : K => (1 - 1 / 1000) * p1 + 1 / 1000 * p2) havd hpard havi hpari (hava.symm.trans hpara)
  have hrun : trainStep argsort shuffle getUpdates ms step s =
      .ok ⟨params, avg', if step % 200 = 0 then updateMask argsort shuffle params (zhugupta (progress step)) ms else s.masks, o⟩ := by
    unfold trainStep emaUpdate
    by_cases h : step % 1000 = 0
    · rw [if_pos h] at hav
      simp only [if_pos h, bind_ok hav, bind_ok hp, bind_ok hue, bind_ok hup, bind_ok hpar, bind_ok hav']
    · rw [if_neg h] at hav
      cases hav
      simp only [if_neg h, bind_ok rfl, bind_ok hp, bind_ok hue, bind_ok hup, bind_ok hpar, bind_ok hav']
  refine ⟨_, pruned, u, hrun, ?_, hpara, hp, hue, rfl, ?_, ?_⟩
  · refine ⟨hpard, hpari, hav'd, hav'i, ?_, ?_⟩
    · exact (hpara.symm.trans hava).trans hav'a
    · dsimp only
      split
      · exact update_fits ha hs _ ms hpard
      · exact hg.fits.alike hms hg.dict hpard hpara
  · intro m n v d v' hv hd hv' hgr i hi
    have hsh : d.shape = v.shape := by
      obtain ⟨w, hw, e⟩ := hpu.1 m n v hv
      rwa [entry_unique hud hw hd] at e
    have hd' := hupn m n d hd (by rw [group_shape hms m n hsh]; exact hgr)
    exact (hparv m n v d v' hv hd' hv').2 i hi
  · intro m n v d v' y hv hd hv' hy i hi
    have hsh : d.shape = v.shape := by
      obtain ⟨w, hw, e⟩ := hpu.1 m n v hv
      rwa [entry_unique hud hw hd] at e
    obtain ⟨j, M, hgr, hM, hyM⟩ := hy
    obtain ⟨w, hw, hws⟩ := hupa.1 m n d hd
    have h1 := hupm m n d w y hd hw ⟨j, M, by rw [group_shape hms m n hsh]; exact hgr, hM, hyM⟩
    rw [(hparv m n v w v' hv hw hv').2 i hi, h1.2 i (by rw [hsh]; exact hi)]

/-- C146: the state before the loop is good. -/
theorem start_good {argsort : List K → List Nat} {shuffle : Nat → List Nat} (ha : Sorts argsort) (hs : Shuffles shuffle) (ms : List (Predicate K × K)) {params : Structure (Leaf K)} (hd : IsDict params) (hi : Inhabited params) (opt : Opt) :
    Good ms (start argsort shuffle ms params opt) :=
  ⟨hd, hi, hd, hi, Alike.refl _, update_fits ha hs 0 ms hd⟩

/-- C146: the loop does not fail, for any number of rounds; the parameters keep their names and shapes. -/
theorem loop_runs {argsort : List K → List Nat} {shuffle : Nat → List Nat} (ha : Sorts argsort) (hs : Shuffles shuffle) {getUpdates : Structure (Leaf K) → Opt → Nat → Except Err (Structure (Leaf K) × Opt)}
    (hu : Updates getUpdates) {ms : List (Predicate K × K)} (hms : ShapeOnly ms) (n : Nat) : ∀ (step : Nat) {s : Train K Opt}, Good ms s →
    ∃ s', trainLoop argsort shuffle getUpdates ms n step s = .ok s' ∧ Good ms s' ∧ Alike s.params s'.params := by
  induction n with
  | zero => intro step s hg; exact ⟨s, rfl, hg, Alike.refl _⟩
  | succ n ih =>
    intro step s hg
    obtain ⟨s1, _, _, h1, g1, a1, _⟩ := step_equations ha hs hu hms step hg
    obtain ⟨s2, h2, g2, a2⟩ := ih (step + 1) g1
    refine ⟨s2, ?_, g2, a1.trans a2⟩
    unfold trainLoop
    rw [bind_ok h1]
    exact h2

/-- C146: between two updates of the masks, the elements that are masked out do not change, over any number of rounds and for every optimiser. -/
theorem masked_frozen {argsort : List K → List Nat} {shuffle : Nat → List Nat} (ha : Sorts argsort) (hs : Shuffles shuffle) {getUpdates : Structure (Leaf K) → Opt → Nat → Except Err (Structure (Leaf K) × Opt)}
    (hu : Updates getUpdates) {ms : List (Predicate K × K)} (hms : ShapeOnly ms) (n : Nat) : ∀ (step : Nat) {s s' : Train K Opt}, Good ms s → (∀ r < n, (step + r) % 200 ≠ 0) →
    trainLoop argsort shuffle getUpdates ms n step s = .ok s' →
    s'.masks = s.masks ∧ ∀ m nm v v' y, Entry s.params m nm v → Entry s'.params m nm v' → MaskOf ms s.masks m nm v y → ∀ i, Valid v.shape i → y.val i = 0 → v'.val i = v.val i := by
  induction n with
  | zero =>
    intro step s s' hg _ h
    cases h
    exact ⟨rfl, fun m nm v v' y hv hv' _ i _ _ => by rw [entry_unique hg.dict hv' hv]⟩
  | succ n ih =>
    intro step s s' hg hr h
    obtain ⟨s1, pruned, u, h1, g1, a1, hp, hue, hm, _, hmul⟩ := step_equations ha hs hu hms step hg
    unfold trainLoop at h
    rw [bind_ok h1] at h
    rw [if_neg (show step % 200 ≠ 0 from hr 0 (Nat.succ_pos n))] at hm
    obtain ⟨k1, k2⟩ := ih (step + 1) g1 (fun r hrn => by rw [Nat.add_assoc, Nat.add_comm 1 r]; exact hr (r + 1) (by omega)) h
    refine ⟨k1.trans hm, fun m nm v v' y hv hv' hy i hi h0 => ?_⟩
    obtain ⟨w, hw, hws⟩ := a1.1 m nm v hv
    obtain ⟨_, hp', hpd, hpa, _⟩ := apply_masks hg.dict hg.fits
    rw [hp] at hp'
    cases hp'
    obtain ⟨u', o', hue', hud, hua⟩ := hu pruned s.optState step hpd
    rw [hue] at hue'
    cases hue'
    obtain ⟨d, hd, _⟩ := (hpa.trans hua).1 m nm v hv
    have e := hmul m nm v d w y hv hd hw hy i hi
    rw [h0, mul_zero, add_zero] at e
    rw [← e]
    refine k2 m nm w v' y hw hv' ?_ i (by rw [hws]; exact hi) h0
    obtain ⟨j, M, hgr, hM, hyM⟩ := hy
    exact ⟨j, M, by rw [group_shape hms m nm hws]; exact hgr, by rw [hm]; exact hM, hyM⟩

/-- C146: after any number of rounds, at least one, the masks are those that were made in the last round whose number is a multiple of 200, from the parameters of that time, for the fraction of that round. -/
theorem masks_of_last_update {argsort : List K → List Nat} {shuffle : Nat → List Nat} (ha : Sorts argsort) (hs : Shuffles shuffle) {getUpdates : Structure (Leaf K) → Opt → Nat → Except Err (Structure (Leaf K) × Opt)}
    (hu : Updates getUpdates) {ms : List (Predicate K × K)} (hms : ShapeOnly ms) {s : Train K Opt} (hg : Good ms s) (n : Nat) :
    ∃ s' p, trainLoop argsort shuffle getUpdates ms (n + 1) 0 s = .ok s' ∧ Good ms s' ∧ Alike s.params s'.params ∧ IsDict p ∧ Alike s'.params p ∧
      s'.masks = updateMask argsort shuffle p (zhugupta (progress (200 * (n / 200)))) ms := by
  have snoc : ∀ (n step : Nat) (s : Train K Opt), trainLoop argsort shuffle getUpdates ms (n + 1) step s =
      (trainLoop argsort shuffle getUpdates ms n step s >>= fun s => trainStep argsort shuffle getUpdates ms (step + n) s) := by
    intro n
    induction n with
    | zero =>
      intro step s
      show (trainStep argsort shuffle getUpdates ms step s >>= fun s => Except.ok s) = trainStep argsort shuffle getUpdates ms (step + 0) s
      rw [Nat.add_zero]
      cases trainStep argsort shuffle getUpdates ms step s <;> rfl
    | succ n ih =>
      intro step s
      rw [trainLoop]
      conv_rhs => rw [trainLoop]
      cases h : trainStep argsort shuffle getUpdates ms step s with
      | error e => rfl
      | ok s1 =>
        show trainLoop argsort shuffle getUpdates ms (n + 1) (step + 1) s1 = (trainLoop argsort shuffle getUpdates ms n (step + 1) s1 >>= fun s => trainStep argsort shuffle getUpdates ms (step + (n + 1)) s)
        rw [ih, Nat.add_assoc, Nat.add_comm 1 n]
  induction n with
  | zero =>
    obtain ⟨s1, _, _, h1, g1, a1, _, _, hm, _⟩ := step_equations ha hs hu hms 0 hg
    refine ⟨s1, s1.params, ?_, g1, a1, g1.dict, Alike.refl _, ?_⟩
    · rw [snoc]
      exact h1
    · rw [hm]
      rfl
  | succ n ih =>
    obtain ⟨s1, p, h1, g1, a1, hpd, hpa, hm⟩ := ih
    obtain ⟨s2, _, _, h2, g2, a2, _, _, hm2, _⟩ := step_equations ha hs hu hms (n + 1) g1
    have hrun : trainLoop argsort shuffle getUpdates ms (n + 1 + 1) 0 s = .ok s2 := by
      rw [snoc, bind_ok h1, Nat.zero_add]
      exact h2
    by_cases h : (n + 1) % 200 = 0
    · rw [if_pos h] at hm2
      exact ⟨s2, s2.params, hrun, g2, a1.trans a2, g2.dict, Alike.refl _, by rw [hm2]; congr 3; omega⟩
    · rw [if_neg h] at hm2
      exact ⟨s2, p, hrun, g2, a1.trans a2, hpd, a2.symm.trans hpa, by rw [hm2, hm]; congr 3; omega⟩

/-! ### The schedule -/

theorem zhugupta_mono {a b : K} (h : a ≤ b) : zhugupta a ≤ zhugupta b := by
  unfold zhugupta
  have := (Odd.strictMono_pow (n := 3) (R := K) (by decide)).monotone (show 1 - b ≤ 1 - a by linarith)
  linarith

/-- C147: the fraction of the schedule rises from 0 to 1: it never falls, it is 0 up to the step 1000, and 1 from the step 9000 on, not earlier. -/
theorem schedule_partial : (∀ a b : Nat, a ≤ b → zhugupta (progress a : K) ≤ zhugupta (progress b)) ∧ (∀ a : Nat, 0 ≤ zhugupta (progress a : K) ∧ zhugupta (progress a : K) ≤ 1) ∧
    (∀ a : Nat, zhugupta (progress a : K) = 0 ↔ a ≤ 1000) ∧ ∀ a : Nat, zhugupta (progress a : K) = 1 ↔ 9000 ≤ a := by
  have pm : ∀ a b : Nat, a ≤ b → (progress a : K) ≤ progress b := by
    intro a b h
    unfold progress
    have : (a : K) ≤ b := by exact_mod_cast h
    refine min_le_min (max_le_max (div_le_div_of_nonneg_right (by linarith) (by norm_num)) le_rfl) le_rfl
  have p0 : ∀ a : Nat, 0 ≤ (progress a : K) := fun a => le_min (le_max_right _ _) zero_le_one
  have p1 : ∀ a : Nat, (progress a : K) ≤ 1 := fun a => min_le_right _ _
  have z0 : zhugupta (0 : K) = 0 := by unfold zhugupta; norm_num
  have z1 : zhugupta (1 : K) = 1 := by unfold zhugupta; norm_num
  have inj : Function.Injective (zhugupta : K → K) := by
    intro a b h
    unfold zhugupta at h
    have := (Odd.strictMono_pow (n := 3) (R := K) (by decide)).injective (show (1 - a) ^ 3 = (1 - b) ^ 3 by linarith)
    linarith
  refine ⟨fun a b h => zhugupta_mono (pm a b h), fun a => ⟨by rw [← z0]; exact zhugupta_mono (p0 a), by rw [← z1]; exact zhugupta_mono (p1 a)⟩, fun a => ?_, fun a => ?_⟩
  · rw [← z0, inj.eq_iff]
    constructor
    · intro h
      by_contra hlt
      have h1 : (1001 : K) ≤ a := by exact_mod_cast (not_le.mp hlt)
      have h2 : 0 < ((a : K) - 1000) / 8000 := div_pos (by linarith) (by norm_num)
      have h3 : 0 < (progress a : K) := lt_min (lt_max_of_lt_left h2) one_pos
      rw [h] at h3
      exact lt_irrefl _ h3
    · intro h
      have h1 : (a : K) ≤ 1000 := by exact_mod_cast h
      unfold progress
      rw [max_eq_right (div_nonpos_of_nonpos_of_nonneg (by linarith) (by norm_num)), min_eq_left zero_le_one]
  · rw [← z1, inj.eq_iff]
    constructor
    · intro h
      by_contra hlt
      have h1 : (a : K) + 1 ≤ 9000 := by exact_mod_cast (not_le.mp hlt)
      have h2 : ((a : K) - 1000) / 8000 < 1 := by rw [div_lt_one (by norm_num)]; linarith
      have h3 : (progress a : K) < 1 := min_lt_of_left_lt (max_lt h2 one_pos)
      rw [h] at h3
      exact lt_irrefl _ h3
    · intro h
      have h1 : (9000 : K) ≤ a := by exact_mod_cast h
      have h2 : 1 ≤ ((a : K) - 1000) / 8000 := by rw [one_le_div (by norm_num)]; linarith
      unfold progress
      exact min_eq_right (h2.trans (le_max_left _ _))

/-- C147: at the step 8000, where pruning is to end by the comment, 511 of 512 parts of the sparsity are reached. -/
theorem not_done_at_8000 : zhugupta (progress 8000 : K) = 511 / 512 := by
  have : (progress 8000 : K) = 7 / 8 := by
    unfold progress
    norm_num
  rw [this]
  unfold zhugupta
  norm_num

/-- C147: the masks get sparser: at a later step as many elements are kept, or fewer. -/
theorem density_falls {a b : Nat} (h : a ≤ b) {sparsity : K} (hs : 0 ≤ sparsity) (n : Nat) {k l : Int} (hk : Nearest ((1 - sparsity * zhugupta (progress a)) * n) k)
    (hl : Nearest ((1 - sparsity * zhugupta (progress b)) * n) l) : l ≤ k := by
  refine nearest_mono (mul_le_mul_of_nonneg_right ?_ (Nat.cast_nonneg n)) hl hk
  have := mul_le_mul_of_nonneg_left ((schedule_partial (K := K)).1 a b h) hs
  linarith

/-- C147: after all 10001 rounds of `main`, every parameter with a predicate has a mask that keeps the fraction `1 - sparsity` of it, up to rounding. -/
theorem final_masks {argsort : List K → List Nat} {shuffle : Nat → List Nat} (ha : Sorts argsort) (hs : Shuffles shuffle) {getUpdates : Structure (Leaf K) → Opt → Nat → Except Err (Structure (Leaf K) × Opt)}
    (hu : Updates getUpdates) {ms : List (Predicate K × K)} (hms : ShapeOnly ms) {params : Structure (Leaf K)} (hd : IsDict params) (hi : Inhabited params) (opt : Opt) :
    ∃ s, trainLoop argsort shuffle getUpdates ms 10001 0 (start argsort shuffle ms params opt) = .ok s ∧ Good ms s ∧ Alike params s.params ∧
      ∀ m n v j predicate sparsity k, Entry s.params m n v → group ms m n v = some j → ms[j]? = some (predicate, sparsity) → Nearest ((1 - sparsity) * size v.shape) k →
        ∃ y, MaskOf ms s.masks m n v y ∧ y.shape = v.shape ∧ ones y = min k.toNat (size v.shape) := by
  obtain ⟨s, p, h1, g1, a1, hpd, hpa, hm⟩ := masks_of_last_update ha hs hu hms (start_good ha hs ms hd hi opt) 10000
  refine ⟨s, h1, g1, a1, fun m n v j predicate sparsity k hv hg hj hk => ?_⟩
  obtain ⟨w, hw, hws⟩ := hpa.1 m n v hv
  have hgw : group ms m n w = some j := by rw [group_shape hms m n hws]; exact hg
  have hf : zhugupta (progress (200 * (10000 / 200)) : K) = 1 := (schedule_partial.2.2.2 _).mpr (by norm_num)
  rw [hf] at hm
  have hy := (maskOf_update (argsort := argsort) (shuffle := shuffle) (fraction := 1) (ms := ms) (y := mapFn argsort shuffle 1 sparsity w) hpd hw).mpr ⟨j, _, hgw, hj, rfl⟩
  rw [← hm] at hy
  obtain ⟨j', M, hg', hM, hyM⟩ := hy
  refine ⟨_, ⟨j', M, by rw [← group_shape hms m n hws]; exact hg', hM, hyM⟩, hws, ?_⟩
  have := topk_count ha hs ⟨w.shape, fun i => max (w.val i) (-w.val i)⟩ (1 - sparsity * 1) k (by rw [mul_one]; show Nearest ((1 - sparsity) * (size w.shape : K)) k; rw [hws]; exact hk)
  rw [← hws]
  exact this

/-! ### Examples -/

/-- An optimiser that moves every weight towards zero by the learning rate. -/
def demoUpdates (p : Structure (Leaf ℚ)) (o : Nat) (step : Nat) : Except Err (Structure (Leaf ℚ) × Nat) := .ok (treeMap (fun v => ⟨v.shape, fun i => -(v.val i) / 10⟩) p, o + 1)

theorem demo_updates : Updates demoUpdates := by
  intro p o step hp
  refine ⟨_, _, rfl, treeMap_dict _ hp, fun m n v hv => ⟨_, (entry_treeMap _ hp m n _).mpr ⟨v, hv, rfl⟩, rfl⟩, fun m n w hw => ?_⟩
  obtain ⟨v, hv, rfl⟩ := (entry_treeMap _ hp m n w).mp hw
  exact ⟨v, hv, rfl⟩

theorem demo_inhabited : Inhabited demoParams := by
  intro p hp
  simp only [demoParams, List.mem_cons, List.not_mem_nil, or_false] at hp
  rcases hp with rfl | rfl | rfl <;> simp

-- After all rounds 3 of the 6 weights of the first layer are kept.
example : ∃ s, trainLoop stableArgsort backwards demoUpdates demoSparsity 10001 0 (start stableArgsort backwards demoSparsity demoParams 0) = .ok s ∧
    ∃ v y, Entry s.params "linear".toList "w".toList v ∧ MaskOf demoSparsity s.masks "linear".toList "w".toList v y ∧ ones y = 3 := by
  obtain ⟨s, h1, hg, hal, h2⟩ := final_masks (ms := demoSparsity) stable_sorts backwards_shuffles demo_updates (matching_shape _) demo_dict demo_inhabited 0
  obtain ⟨v, hv, hs⟩ := hal.1 _ _ _ demo_entry
  obtain ⟨y, hy, _, hc⟩ := h2 _ _ v 0 _ (1 / 2) 3 hv (by rw [group_shape (ms := demoSparsity) (matching_shape _) _ _ hs]; decide +kernel) rfl (by unfold Nearest; rw [hs]; norm_num [weights, size])
  refine ⟨s, h1, v, y, hv, hy, ?_⟩
  rw [hc, hs]
  decide

-- Of 100 weights 55 are kept at the step 8000, where pruning has nearly ended, and 66 at the step 4000.
example : Nearest ((1 - (45 / 100 : ℚ) * zhugupta (progress 8000)) * (100 : ℕ)) 55 ∧ Nearest ((1 - (45 / 100 : ℚ) * zhugupta (progress 4000)) * (100 : ℕ)) 66 := by
  constructor <;> unfold Nearest zhugupta progress <;> norm_num

-- Between the steps 201 and 399 the elements that are masked out do not change.
example (s s' : Train ℚ Nat) (hg : Good demoSparsity s) (h : trainLoop stableArgsort backwards demoUpdates demoSparsity 199 201 s = .ok s') : s'.masks = s.masks :=
  (masked_frozen stable_sorts backwards_shuffles demo_updates (matching_shape _) 199 201 hg (fun r hr => by omega) h).1

end Verif.Props.Pruning
