import Mathlib.Algebra.BigOperators.Group.Finset.Basic
import Mathlib.Algebra.BigOperators.Field
import Mathlib.Data.List.Nodup
import Mathlib.Data.Finset.Card
import Mathlib.Data.List.GetD
import Verif.Model.Nd
import Verif.Props.Reset

/-!
# Reductions and broadcasting
-/

set_option linter.unusedVariables false
set_option linter.unusedSectionVars false

namespace Verif.Nd
open Verif.Shapes (Err)
open Verif.Pool (Arr)
open Verif.Conv (indices)
open Verif.Recurrent (broadcast broadcastRev project)
open Verif.Props.Reset (Valid mem_indices)

variable {K : Type}

/-! ### Specification -/

/-- The positions of an array of that shape that differ from `i` at most on the given axes. -/
def slice (axes shape i : List Nat) : Finset (List Nat) := (indices shape).toFinset.filter fun j => ∀ k < shape.length, k ∉ axes → j.getD k 0 = i.getD k 0

/-- The average of a function over a finite set. -/
def avg [Field K] (s : Finset (List Nat)) (f : List Nat → K) : K := (∑ j ∈ s, f j) / (s.card : K)

/-- The average squared distance from the average. -/
def variance [Field K] (s : Finset (List Nat)) (f : List Nat → K) : K := avg s fun j => (f j - avg s f) ^ 2

/-- An array of shape `s` can be broadcast to shape `t`: aligned on the right, every size is 1 or the same. -/
def BroadcastsTo (s t : List Nat) : Prop := ∃ l r, t = l ++ r ∧ List.Forall₂ (fun d n => d = 1 ∨ d = n) s r

/-! ### Positions -/

theorem nodup_indices : ∀ s : List Nat, (indices s).Nodup
  | [] => List.nodup_singleton _
  | n :: s => by
    show ((List.range n).flatMap fun i => (indices s).map (i :: ·)).Nodup
    rw [List.nodup_flatMap]
    refine ⟨fun i _ => (nodup_indices s).map fun a b h => by cases h; rfl, ?_⟩
    refine List.nodup_range.imp fun {a b} hab => ?_
    intro l ha hb
    obtain ⟨_, _, rfl⟩ := List.mem_map.mp ha
    obtain ⟨_, _, h⟩ := List.mem_map.mp hb
    cases h
    exact hab rfl

theorem mem_slice {axes s i j : List Nat} : j ∈ slice axes s i ↔ Valid s j ∧ ∀ k < s.length, k ∉ axes → j.getD k 0 = i.getD k 0 := by
  unfold slice
  rw [Finset.mem_filter, List.mem_toFinset, mem_indices]

theorem self_mem_slice {axes s i : List Nat} (h : Valid s i) : i ∈ slice axes s i := mem_slice.mpr ⟨h, fun _ _ _ => rfl⟩

theorem slice_eq {axes s i j : List Nat} (h : j ∈ slice axes s i) : slice axes s j = slice axes s i := by
  obtain ⟨_, h⟩ := mem_slice.mp h
  ext k
  rw [mem_slice, mem_slice]
  exact and_congr_right fun _ => forall_congr' fun n => forall_congr' fun hn => forall_congr' fun hm => by rw [h n hn hm]

theorem agree_iff {axes i j : List Nat} : agree axes i j = true ↔ ∀ k < j.length, k ∉ axes → j.getD k 0 = i.getD k 0 := by
  unfold agree
  rw [List.all_eq_true]
  constructor
  · intro h k hk hm
    have := h k (List.mem_range.mpr hk)
    rw [Bool.or_eq_true, decide_eq_true_iff, beq_iff_eq] at this
    exact (this.resolve_left hm).symm
  · intro h k hk
    rw [Bool.or_eq_true, decide_eq_true_iff, beq_iff_eq]
    by_cases hm : k ∈ axes
    · exact .inl hm
    · exact .inr (h k (List.mem_range.mp hk) hm).symm

theorem cell_toFinset (axes s i : List Nat) : (cell axes s i).toFinset = slice axes s i := by
  ext j
  unfold cell
  rw [List.mem_toFinset, List.mem_filter, mem_slice, mem_indices, agree_iff]
  exact and_congr_right fun h => by rw [h.length]

theorem nodup_cell (axes s i : List Nat) : (cell axes s i).Nodup := (nodup_indices s).filter _

theorem cell_length (axes s i : List Nat) : (cell axes s i).length = (slice axes s i).card := by
  rw [← cell_toFinset, List.toFinset_card_of_nodup (nodup_cell axes s i)]

theorem cell_sum [Field K] (axes s i : List Nat) (f : List Nat → K) : ((cell axes s i).map f).sum = ∑ j ∈ slice axes s i, f j := by
  rw [← cell_toFinset, List.sum_toFinset _ (nodup_cell axes s i)]

theorem avg_congr [Field K] {s : Finset (List Nat)} {f g : List Nat → K} (h : ∀ j ∈ s, f j = g j) : avg s f = avg s g := by
  unfold avg
  rw [Finset.sum_congr rfl h]

theorem variance_congr [Field K] {s : Finset (List Nat)} {f g : List Nat → K} (h : ∀ j ∈ s, f j = g j) : variance s f = variance s g := by
  unfold variance
  rw [avg_congr h]
  exact avg_congr fun j hj => by rw [h j hj]

/-! ### Broadcasting -/

theorem broadcastRev_of : ∀ {s t : List Nat}, List.Forall₂ (fun d n => d = 1 ∨ d = n) s t → ∀ l, broadcastRev s (t ++ l) = some (t ++ l) ∧ broadcastRev (t ++ l) s = some (t ++ l)
  | _, _, .nil, l => ⟨by cases l <;> rfl, by cases l <;> rfl⟩
  | d :: s, n :: t, .cons h hs, l => by
    obtain ⟨h1, h2⟩ := broadcastRev_of hs l
    show broadcastRev (d :: s) (n :: (t ++ l)) = some (n :: (t ++ l)) ∧ broadcastRev (n :: (t ++ l)) (d :: s) = some (n :: (t ++ l))
    unfold broadcastRev
    rw [h1, h2]
    by_cases e : d = n
    · subst e
      rw [if_pos rfl]
      exact ⟨rfl, rfl⟩
    · have h := h.resolve_right e
      subst h
      rw [if_neg e, if_pos rfl, if_neg (fun k => e k.symm)]
      refine ⟨rfl, ?_⟩
      rw [if_neg (fun k => e k.symm), if_pos rfl]
      rfl

theorem broadcast_of {s t : List Nat} (h : BroadcastsTo s t) : broadcast s t = some t ∧ broadcast t s = some t := by
  obtain ⟨l, r, rfl, h⟩ := h
  obtain ⟨h1, h2⟩ := broadcastRev_of (List.forall₂_reverse_iff.mpr h) l.reverse
  unfold broadcast
  rw [List.reverse_append, h1, h2, ← List.reverse_append]
  exact ⟨congrArg some (List.reverse_reverse _), congrArg some (List.reverse_reverse _)⟩

theorem broadcastRev_to : ∀ {s t : List Nat}, broadcastRev s t = some t → ∃ r l, t = r ++ l ∧ List.Forall₂ (fun d n => d = 1 ∨ d = n) s r
  | [], t, _ => ⟨[], t, rfl, .nil⟩
  | d :: s, [], h => by cases h
  | d :: s, n :: t, h => by
    unfold broadcastRev at h
    by_cases e : d = n
    · rw [if_pos e] at h
      obtain ⟨r, hr, h⟩ := Option.map_eq_some_iff.mp h
      cases h
      obtain ⟨r, l, rfl, h'⟩ := broadcastRev_to hr
      exact ⟨d :: r, l, rfl, .cons (.inr rfl) h'⟩
    · rw [if_neg e] at h
      by_cases e1 : d = 1
      · rw [if_pos e1] at h
        obtain ⟨r, hr, h⟩ := Option.map_eq_some_iff.mp h
        cases h
        obtain ⟨r, l, rfl, h'⟩ := broadcastRev_to hr
        exact ⟨n :: r, l, rfl, .cons (.inl e1) h'⟩
      · rw [if_neg e1] at h
        by_cases e2 : n = 1
        · rw [if_pos e2] at h
          obtain ⟨r, hr, h⟩ := Option.map_eq_some_iff.mp h
          cases h
          exact absurd rfl e
        · rw [if_neg e2] at h
          cases h

theorem broadcast_to {s t : List Nat} (h : broadcast s t = some t) : BroadcastsTo s t := by
  unfold broadcast at h
  obtain ⟨u, hu, h⟩ := Option.map_eq_some_iff.mp h
  have hu' : u = t.reverse := by rw [← h, List.reverse_reverse]
  rw [hu'] at hu
  obtain ⟨r, l, e, h⟩ := broadcastRev_to hu
  refine ⟨l.reverse, r.reverse, ?_, ?_⟩
  · rw [← List.reverse_append, ← e, List.reverse_reverse]
  · rw [← List.forall₂_reverse_iff, List.reverse_reverse]
    exact h

theorem broadcasts_refl (s : List Nat) : BroadcastsTo s s := ⟨[], s, rfl, List.forall₂_same.mpr fun _ _ => .inr rfl⟩

theorem broadcasts_nil (s : List Nat) : BroadcastsTo [] s := ⟨s, [], (List.append_nil s).symm, .nil⟩

theorem keepShape_length (axes s : List Nat) : (keepShape axes s).length = s.length := List.length_mapIdx

theorem keepShape_forall (axes s : List Nat) : List.Forall₂ (fun d n => d = 1 ∨ d = n) (keepShape axes s) s := by
  refine List.forall₂_iff_get.mpr ⟨keepShape_length axes s, fun i h1 h2 => ?_⟩
  show (keepShape axes s)[i] = 1 ∨ (keepShape axes s)[i] = s[i]
  have : (keepShape axes s)[i] = if i ∈ axes then 1 else s[i] := List.getElem_mapIdx
  rw [this]
  by_cases h : i ∈ axes
  · exact .inl (if_pos h)
  · exact .inr (if_neg h)

theorem broadcasts_keep (axes s : List Nat) : BroadcastsTo (keepShape axes s) s := ⟨[], s, rfl, keepShape_forall axes s⟩

theorem Valid.get {s i : List Nat} (h : Valid s i) (k : Nat) (hk : k < s.length) : i.getD k 0 < s.getD k 0 := by
  obtain ⟨h1, h2⟩ := List.forall₂_iff_get.mp h
  have hi : k < i.length := by rw [h1]; exact hk
  rw [List.getD_eq_getElem _ _ hi, List.getD_eq_getElem _ _ hk]
  exact h2 k hi hk

/-- Broadcasting a reduced array does not change the slice that a position belongs to. -/
theorem slice_project {axes s i : List Nat} (h : Valid s i) : slice axes s (project (keepShape axes s) i) = slice axes s i := by
  ext j
  rw [mem_slice, mem_slice]
  refine and_congr_right fun hj => forall_congr' fun k => forall_congr' fun hk => forall_congr' fun hm => ?_
  have hil : i.length = s.length := h.length
  have e : (project (keepShape axes s) i).getD k 0 = i.getD k 0 := by
    unfold project
    rw [keepShape_length, hil, Nat.sub_self, List.drop_zero]
    have h1 : k < (List.zipWith (fun d j => if d = 1 then 0 else j) (keepShape axes s) i).length := by
      rw [List.length_zipWith, keepShape_length, hil, Nat.min_self]
      exact hk
    rw [List.getD_eq_getElem _ _ h1, List.getElem_zipWith, List.getD_eq_getElem _ _ (by rw [hil]; exact hk)]
    have h2 : (keepShape axes s)[k]'(by rw [keepShape_length]; exact hk) = if k ∈ axes then 1 else s[k] := List.getElem_mapIdx
    rw [h2, if_neg hm]
    by_cases e1 : s[k] = 1
    · rw [if_pos e1]
      have := (List.forall₂_iff_get.mp h).2 k (by rw [hil]; exact hk) hk
      have h3 : i[k]'(by rw [hil]; exact hk) < s[k] := this
      rw [e1] at h3
      omega
    · rw [if_neg e1]
  rw [e]

theorem cell_project {axes s i : List Nat} (h : Valid s i) : cell axes s (project (keepShape axes s) i) = cell axes s i := by
  have := slice_project (axes := axes) h
  unfold cell
  refine List.filter_congr fun j hj => ?_
  have hv := mem_indices.mp hj
  have k : j ∈ slice axes s (project (keepShape axes s) i) ↔ j ∈ slice axes s i := by rw [this]
  rw [mem_slice, mem_slice, and_iff_right hv, and_iff_right hv] at k
  rw [Bool.eq_iff_iff, agree_iff, agree_iff, hv.length]
  exact k

theorem project_self {s i : List Nat} (h : Valid s i) : project s i = i := Verif.Props.Reset.project_valid h

/-! ### The functions of the model -/

theorem zip_right {f : K → K → K} {x y : Arr K} (h : BroadcastsTo y.shape x.shape) :
    zip f x y = .ok ⟨x.shape, fun i => f (x.val (project x.shape i)) (y.val (project y.shape i))⟩ := by
  unfold zip
  rw [(broadcast_of h).2]

theorem zip_left {f : K → K → K} {x y : Arr K} (h : BroadcastsTo x.shape y.shape) :
    zip f x y = .ok ⟨y.shape, fun i => f (x.val (project x.shape i)) (y.val (project y.shape i))⟩ := by
  unfold zip
  rw [(broadcast_of h).1]

theorem broadcastTo_of {x : Arr K} {s : List Nat} (h : BroadcastsTo x.shape s) : broadcastTo x s = .ok ⟨s, fun i => x.val (project x.shape i)⟩ := by
  unfold broadcastTo
  rw [if_pos (broadcast_of h).1]

theorem broadcastTo_ok {x y : Arr K} {s : List Nat} (h : broadcastTo x s = .ok y) : BroadcastsTo x.shape s ∧ y = ⟨s, fun i => x.val (project x.shape i)⟩ := by
  unfold broadcastTo at h
  by_cases e : broadcast x.shape s = some s
  · rw [if_pos e] at h
    cases h
    exact ⟨broadcast_to e, rfl⟩
  · rw [if_neg e] at h
    cases h

/-- The mean of an array over axes, kept as axes of size 1. -/
def meanArr [Field K] (x : Arr K) (axes : List Nat) : Arr K := ⟨keepShape axes x.shape, fun i => avg (slice axes x.shape i) x.val⟩

theorem mean_eq [Field K] {x : Arr K} {axes : List Int} {ax : List Nat} (h : canonAxes x.shape.length axes = .ok ax) : mean x axes = .ok (meanArr x ax) := by
  unfold mean
  rw [h]
  show Except.ok _ = Except.ok _
  refine congrArg Except.ok (congrArg (Arr.mk _) (funext fun i => ?_))
  rw [cell_sum, cell_length]
  rfl

theorem mean_ok [Field K] {x m : Arr K} {axes : List Int} (h : mean x axes = .ok m) : ∃ ax, canonAxes x.shape.length axes = .ok ax ∧ m = meanArr x ax := by
  rcases hc : canonAxes x.shape.length axes with e | ax
  · unfold mean at h
    rw [hc] at h
    cases h
  · rw [mean_eq hc] at h
    cases h
    exact ⟨ax, rfl, rfl⟩

theorem meanArr_project [Field K] {x : Arr K} {ax i : List Nat} (h : Valid x.shape i) : (meanArr x ax).val (project (meanArr x ax).shape i) = avg (slice ax x.shape i) x.val := by
  show avg (slice ax x.shape (project (keepShape ax x.shape) i)) x.val = _
  rw [slice_project h]

theorem var_eq [Field K] {x : Arr K} {axes : List Int} {ax : List Nat} (h : canonAxes x.shape.length axes = .ok ax) :
    ∃ v : Arr K, var x axes = .ok v ∧ v.shape = keepShape ax x.shape ∧ ∀ i, Valid x.shape i → v.val (project v.shape i) = variance (slice ax x.shape i) x.val := by
  unfold var
  rw [mean_eq h]
  have hz : zip (· - ·) x (meanArr x ax) = .ok ⟨x.shape, fun i => x.val (project x.shape i) - (meanArr x ax).val (project (meanArr x ax).shape i)⟩ := zip_right (broadcasts_keep ax x.shape)
  refine ⟨meanArr (map (fun v => v * v) ⟨x.shape, fun i => x.val (project x.shape i) - (meanArr x ax).val (project (meanArr x ax).shape i)⟩) ax, ?_, rfl, fun i hi => ?_⟩
  · show (do let c ← zip (· - ·) x (meanArr x ax); mean (map (fun v => v * v) c) axes) = _
    rw [hz]
    exact mean_eq h
  · rw [meanArr_project (x := map (fun v => v * v) ⟨x.shape, fun i => x.val (project x.shape i) - (meanArr x ax).val (project (meanArr x ax).shape i)⟩) hi]
    refine avg_congr fun j hj => ?_
    have hv : Valid x.shape j := (mem_slice.mp hj).1
    show (x.val (project x.shape j) - (meanArr x ax).val (project (meanArr x ax).shape j)) * (x.val (project x.shape j) - (meanArr x ax).val (project (meanArr x ax).shape j)) = _
    rw [meanArr_project hv, project_self hv, pow_two]
    have : slice ax x.shape j = slice ax x.shape i := slice_eq hj
    rw [this]

/-! ### Broadcasting to a common larger shape -/

/-- `project` seen from the right. -/
theorem project_reverse {s i : List Nat} (h : s.length ≤ i.length) : project s i = (List.zipWith (fun d j => if d = 1 then 0 else j) s.reverse i.reverse).reverse := by
  unfold project
  have e : i.reverse = (i.drop (i.length - s.length)).reverse ++ (i.take (i.length - s.length)).reverse := by
    rw [← List.reverse_append, List.take_append_drop]
  have hl : (i.drop (i.length - s.length)).length = s.length := by
    rw [List.length_drop]
    omega
  rw [e]
  generalize hq : i.drop (i.length - s.length) = q at *
  generalize (i.take (i.length - s.length)).reverse = t at *
  have h2 : List.zipWith (fun d j => if d = 1 then 0 else j) s.reverse (q.reverse ++ t) = List.zipWith (fun d j => if d = 1 then 0 else j) s.reverse q.reverse := by
    rw [show s.reverse = s.reverse ++ [] from (List.append_nil _).symm, List.zipWith_append (by rw [List.length_reverse, List.length_reverse, hl])]
    rw [List.zipWith_nil_left, List.append_nil, List.append_nil]
  rw [h2, ← List.reverse_zipWith hl.symm, List.reverse_reverse]

/-- Shapes that both fit (reversed) have a common shape that fits. -/
theorem broadcastRev_common : ∀ {a b s : List Nat}, (∃ r l, s = r ++ l ∧ List.Forall₂ (fun d n => d = 1 ∨ d = n) a r) → (∃ r l, s = r ++ l ∧ List.Forall₂ (fun d n => d = 1 ∨ d = n) b r) →
    ∃ c, broadcastRev a b = some c ∧ (∃ r l, s = r ++ l ∧ List.Forall₂ (fun d n => d = 1 ∨ d = n) c r) ∧
      ∀ i : List Nat, List.zipWith (fun d j => if d = 1 then 0 else j) a (List.zipWith (fun d j => if d = 1 then 0 else j) c i) = List.zipWith (fun d j => if d = 1 then 0 else j) a i ∧
        List.zipWith (fun d j => if d = 1 then 0 else j) b (List.zipWith (fun d j => if d = 1 then 0 else j) c i) = List.zipWith (fun d j => if d = 1 then 0 else j) b i
  | [], b, s, _, hb => by
    refine ⟨b, by cases b <;> rfl, hb, fun i => ⟨by rw [List.zipWith_nil_left, List.zipWith_nil_left], ?_⟩⟩
    clear hb
    induction b generalizing i with
    | nil => rfl
    | cons d b ih =>
      cases i with
      | nil => rfl
      | cons j i =>
        show (if d = 1 then 0 else (if d = 1 then 0 else j)) :: _ = _
        rw [ih i]
        by_cases h : d = 1
        · rw [if_pos h]
          show _ = (if d = 1 then 0 else j) :: _
          rw [if_pos h]
        · rw [if_neg h, if_neg h]
          show _ = (if d = 1 then 0 else j) :: _
          rw [if_neg h]
  | d :: a, [], s, ha, _ => by
    refine ⟨d :: a, rfl, ha, fun i => ⟨?_, by rw [List.zipWith_nil_left, List.zipWith_nil_left]⟩⟩
    clear ha
    generalize d :: a = b
    induction b generalizing i with
    | nil => rfl
    | cons d b ih =>
      cases i with
      | nil => rfl
      | cons j i =>
        show (if d = 1 then 0 else (if d = 1 then 0 else j)) :: _ = _
        rw [ih i]
        by_cases h : d = 1
        · rw [if_pos h]
          show _ = (if d = 1 then 0 else j) :: _
          rw [if_pos h]
        · rw [if_neg h, if_neg h]
          show _ = (if d = 1 then 0 else j) :: _
          rw [if_neg h]
  | d :: a, e :: b, s, ha, hb => by
    obtain ⟨r, l, hr, h1⟩ := ha
    obtain ⟨r', l', hr', h2⟩ := hb
    cases h1 with
    | @cons _ n _ r hd h1 =>
      cases h2 with
      | @cons _ n' _ r' he h2 =>
        subst hr
        have hn : n = n' := (List.cons.inj hr').1
        have ht : r ++ l = r' ++ l' := (List.cons.inj hr').2
        subst hn
        obtain ⟨c, hc, ⟨rc, lc, hrc, hcs⟩, hp⟩ := broadcastRev_common ⟨r, l, rfl, h1⟩ ⟨r', l', ht, h2⟩
        have step : ∀ f : Nat, (d = 1 ∨ f = d) → (e = 1 ∨ f = e) → (f = 1 ∨ f = n) → broadcastRev (d :: a) (e :: b) = some (f :: c) →
            ∃ c, broadcastRev (d :: a) (e :: b) = some c ∧ (∃ q t, n :: r ++ l = q ++ t ∧ List.Forall₂ (fun d n => d = 1 ∨ d = n) c q) ∧
              ∀ i : List Nat, List.zipWith (fun d j => if d = 1 then 0 else j) (d :: a) (List.zipWith (fun d j => if d = 1 then 0 else j) c i) = List.zipWith (fun d j => if d = 1 then 0 else j) (d :: a) i ∧
                List.zipWith (fun d j => if d = 1 then 0 else j) (e :: b) (List.zipWith (fun d j => if d = 1 then 0 else j) c i) = List.zipWith (fun d j => if d = 1 then 0 else j) (e :: b) i := by
          intro f hfd hfe hfn hbr
          refine ⟨f :: c, hbr, ⟨n :: rc, lc, by rw [List.cons_append, List.cons_append, hrc], .cons hfn hcs⟩, fun i => ?_⟩
          cases i with
          | nil => exact ⟨rfl, rfl⟩
          | cons j i =>
            obtain ⟨p1, p2⟩ := hp i
            have aux : ∀ g : Nat, (g = 1 ∨ f = g) → (if g = 1 then 0 else (if f = 1 then 0 else j)) = if g = 1 then 0 else j := by
              intro g hg
              by_cases h : g = 1
              · rw [if_pos h, if_pos h]
              · rw [if_neg h, if_neg h, hg.resolve_left h, if_neg h]
            exact ⟨congrArg₂ List.cons (aux d hfd) p1, congrArg₂ List.cons (aux e hfe) p2⟩
        by_cases h1 : d = e
        · refine step d (.inr rfl) (.inr h1) hd ?_
          unfold broadcastRev
          rw [if_pos h1, hc]
          rfl
        · by_cases h2 : d = 1
          · refine step e (.inl h2) (.inr rfl) he ?_
            unfold broadcastRev
            rw [if_neg h1, if_pos h2, hc]
            rfl
          · have hd := hd.resolve_left h2
            have h3 : e = 1 := he.resolve_right fun k => h1 (hd.trans k.symm)
            refine step d (.inr rfl) (.inl h3) (.inr hd) ?_
            unfold broadcastRev
            rw [if_neg h1, if_neg h2, if_pos h3, hc]
            rfl

theorem broadcasts_reverse {s t : List Nat} : BroadcastsTo s t ↔ ∃ r l, t.reverse = r ++ l ∧ List.Forall₂ (fun d n => d = 1 ∨ d = n) s.reverse r := by
  constructor
  · rintro ⟨l, r, rfl, h⟩
    exact ⟨r.reverse, l.reverse, List.reverse_append, List.forall₂_reverse_iff.mpr h⟩
  · rintro ⟨r, l, e, h⟩
    refine ⟨l.reverse, r.reverse, ?_, ?_⟩
    · rw [← List.reverse_append, ← e, List.reverse_reverse]
    · rw [← List.forall₂_reverse_iff, List.reverse_reverse]
      exact h

theorem BroadcastsTo.length {s t : List Nat} (h : BroadcastsTo s t) : s.length ≤ t.length := by
  obtain ⟨l, r, rfl, h⟩ := h
  rw [List.length_append, h.length_eq]
  omega

theorem project_length {s i : List Nat} (h : s.length ≤ i.length) : (project s i).length = s.length := by
  unfold project
  rw [List.length_zipWith, List.length_drop]
  omega

/-- Arrays that both fit a shape: the element-wise function of both fits too. -/
theorem zip_common {f : K → K → K} {x y : Arr K} {s : List Nat} (hx : BroadcastsTo x.shape s) (hy : BroadcastsTo y.shape s) :
    ∃ z, zip f x y = .ok z ∧ BroadcastsTo z.shape s ∧ ∀ i, Valid s i → z.val (project z.shape i) = f (x.val (project x.shape i)) (y.val (project y.shape i)) := by
  obtain ⟨c, hc, hcs, hp⟩ := broadcastRev_common (broadcasts_reverse.mp hx) (broadcasts_reverse.mp hy)
  have hb : broadcast x.shape y.shape = some c.reverse := by
    unfold broadcast
    rw [hc]
    rfl
  have hcs' : BroadcastsTo c.reverse s := by
    rw [broadcasts_reverse, List.reverse_reverse]
    exact hcs
  refine ⟨⟨c.reverse, fun i => f (x.val (project x.shape i)) (y.val (project y.shape i))⟩, ?_, hcs', fun i hi => ?_⟩
  · unfold zip
    rw [hb]
  · have key : ∀ a : List Nat, BroadcastsTo a s → a.length ≤ c.reverse.length →
        (∀ i : List Nat, List.zipWith (fun d j => if d = 1 then 0 else j) a.reverse (List.zipWith (fun d j => if d = 1 then 0 else j) c i) = List.zipWith (fun d j => if d = 1 then 0 else j) a.reverse i) →
        project a (project c.reverse i) = project a i := by
      intro a ha hl hz
      have hil : i.length = s.length := hi.length
      have h1 : c.reverse.length ≤ i.length := by rw [hil]; exact hcs'.length
      rw [project_reverse (s := a) (i := project c.reverse i) (by rw [project_length h1]; exact hl), project_reverse h1, List.reverse_reverse, List.reverse_reverse, hz,
        ← project_reverse (by rw [hil]; exact ha.length)]
    have hlen : ∀ {a b c : List Nat}, broadcastRev a b = some c → a.length ≤ c.length ∧ b.length ≤ c.length := by
      intro a
      induction a with
      | nil =>
        intro b c h
        have : broadcastRev [] b = some b := by cases b <;> rfl
        rw [this] at h
        cases h
        exact ⟨Nat.zero_le _, Nat.le_refl _⟩
      | cons d a ih =>
        intro b c h
        cases b with
        | nil =>
          cases h
          exact ⟨Nat.le_refl _, Nat.zero_le _⟩
        | cons e b =>
          unfold broadcastRev at h
          have aux : ∀ f : Nat, (broadcastRev a b).map (f :: ·) = some c → (d :: a).length ≤ c.length ∧ (e :: b).length ≤ c.length := by
            intro f h
            obtain ⟨c', hc', h⟩ := Option.map_eq_some_iff.mp h
            cases h
            obtain ⟨k1, k2⟩ := ih hc'
            exact ⟨Nat.succ_le_succ k1, Nat.succ_le_succ k2⟩
          by_cases h1 : d = e
          · rw [if_pos h1] at h
            exact aux _ h
          · rw [if_neg h1] at h
            by_cases h2 : d = 1
            · rw [if_pos h2] at h
              exact aux _ h
            · rw [if_neg h2] at h
              by_cases h3 : e = 1
              · rw [if_pos h3] at h
                exact aux _ h
              · rw [if_neg h3] at h
                cases h
    obtain ⟨l1, l2⟩ := hlen hc
    show f (x.val (project x.shape (project c.reverse i))) (y.val (project y.shape (project c.reverse i))) = _
    rw [key x.shape hx (by rw [List.length_reverse]; simpa using l1) fun i => (hp i).1, key y.shape hy (by rw [List.length_reverse]; simpa using l2) fun i => (hp i).2]

/-! ### Axes -/

theorem canonAxis_nat {n k : Nat} (h : k < n) : canonAxis n (Int.ofNat k) = .ok k := by
  unfold canonAxis
  have h0 : ¬ (Int.ofNat k : Int) < 0 := by have := Int.natCast_nonneg k; exact Int.not_lt.mpr this
  have h1 : -(n : Int) ≤ Int.ofNat k ∧ Int.ofNat k < n := ⟨by rw [Int.ofNat_eq_natCast]; omega, by rw [Int.ofNat_eq_natCast]; omega⟩
  rw [if_pos h1, if_neg h0]
  rfl

theorem canonAxes_nat {n : Nat} {l : List Nat} (h : ∀ k ∈ l, k < n) (hn : l.Nodup) : canonAxes n (l.map Int.ofNat) = .ok l := by
  unfold canonAxes
  have : (l.map Int.ofNat).mapM (canonAxis n) = .ok l := by
    clear hn
    induction l with
    | nil => rfl
    | cons a l ih =>
      rw [List.map_cons, List.mapM_cons, canonAxis_nat (h a List.mem_cons_self), ih fun k hk => h k (List.mem_cons_of_mem _ hk)]
      rfl
  rw [this]
  show (if l.Nodup then _ else _) = _
  rw [if_pos hn]

end Verif.Nd
