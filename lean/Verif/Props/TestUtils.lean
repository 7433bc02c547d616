import Verif.Model.TestUtils
import Mathlib.Algebra.BigOperators.Group.Finset.Basic
import Mathlib.Algebra.Order.BigOperators.Group.Finset
import Mathlib.Data.Fintype.Basic
import Mathlib.Data.List.Forall2
import Mathlib.Logic.Relation
import Std.Data.String.ToNat
import Mathlib.Data.List.Nodup

/-!
# Utilities for tests (C176)
-/

set_option linter.unusedVariables false
set_option linter.unusedSectionVars false

namespace Verif.Props.TestUtils
open Verif.Shapes (Err)
open Verif.TestUtils

variable {M C V : Type} [DecidableEq M]

/-! ### Specification -/

/-- One step from a module to an internal one among its attributes. -/
def Edge (g : Graph M) (a b : M) : Prop := b ∈ g.attrs a ∧ ∃ t, (g.name b).toList = "haiku".toList ++ t

/-- What can be reached. -/
def Reachable (g : Graph M) (root m : M) : Prop := Relation.ReflTransGen (Edge g) root m

/-! ### The search -/

theorem internal_iff (g : Graph M) (m : M) : g.internal m = true ↔ ∃ t, (g.name m).toList = "haiku".toList ++ t := by
  unfold Graph.internal
  rw [List.isPrefixOf_iff_prefix]
  exact ⟨fun ⟨t, h⟩ => ⟨t, h.symm⟩, fun ⟨t, h⟩ => ⟨t, h.symm⟩⟩

/-- The internal attributes of a module that were not visited. -/
def fresh (g : Graph M) (visited : List M) (m : M) : List M := (g.attrs m).filter fun o => !visited.contains o && g.internal o

theorem fold_look (g : Graph M) : ∀ (l : List M) (s : Search M), (l.foldl g.look s).visited = s.visited ∧ (l.foldl g.look s).toVisit = (l.filter fun o => !s.visited.contains o && g.internal o).reverse ++ s.toVisit ∧
    (∀ x, x ∈ (l.foldl g.look s).modules ↔ x ∈ s.modules ∨ x ∈ l.filter fun o => !s.visited.contains o && g.internal o) ∧ (s.modules.Nodup → (l.foldl g.look s).modules.Nodup) := by
  intro l
  induction l with
  | nil => intro s; exact ⟨rfl, rfl, fun x => by simp, id⟩
  | cons o l ih =>
    intro s
    rw [List.foldl_cons]
    obtain ⟨h1, h2, h3, h4⟩ := ih (g.look s o)
    rw [h1, h2]
    unfold Graph.look at h3 h4 ⊢
    by_cases hc : (!s.visited.contains o && g.internal o) = true
    · rw [if_pos hc] at h3 h4 ⊢
      dsimp only at h3 h4 ⊢
      rw [List.filter_cons, if_pos hc, List.reverse_cons, List.append_assoc]
      refine ⟨rfl, rfl, fun x => ?_, fun hn => h4 ?_⟩
      · rw [h3, List.mem_cons]
        split
        · rename_i hm
          have hm : o ∈ s.modules := by simpa using hm
          constructor
          · rintro (h | h)
            · exact .inl h
            · exact .inr (.inr h)
          · rintro (h | rfl | h)
            · exact .inl h
            · exact .inl hm
            · exact .inr h
        · rw [List.mem_append, List.mem_singleton, or_assoc]
      · split
        · exact hn
        · rename_i hm
          rw [List.nodup_append]
          refine ⟨hn, List.nodup_singleton _, fun a ha b hb e => hm ?_⟩
          rw [List.mem_singleton] at hb
          subst e hb
          simpa using ha
    · rw [if_neg hc] at h3 h4 ⊢
      rw [List.filter_cons, if_neg hc]
      exact ⟨rfl, rfl, h3, h4⟩

/-- What holds in every iteration. -/
structure Inv (g : Graph M) (root : M) (s : Search M) : Prop where
  nodup : s.modules.Nodup
  rootIn : root ∈ s.modules
  sound : ∀ m ∈ s.modules, Reachable g root m
  queued : ∀ m ∈ s.toVisit, m ∈ s.modules
  seen : ∀ m ∈ s.visited, m ∈ s.modules
  closed : ∀ m ∈ s.visited, ∀ o, Edge g m o → o ∈ s.modules
  pending : ∀ m ∈ s.modules, m ∈ s.visited ∨ m ∈ s.toVisit
  done : ∀ pre m post, s.toVisit = pre ++ m :: post → m ∈ s.visited → ∀ o, Edge g m o → o ∈ s.visited ∨ o ∈ pre

theorem mem_fresh {g : Graph M} {visited : List M} {m o : M} : o ∈ fresh g visited m ↔ Edge g m o ∧ o ∉ visited := by
  unfold fresh Edge
  rw [List.mem_filter, Bool.and_eq_true, internal_iff, and_assoc]
  refine and_congr_right fun _ => ?_
  rw [and_comm]
  refine and_congr_right fun _ => ?_
  simp

theorem inv_visit {g : Graph M} {root : M} {s : Search M} {mod : M} {rest : List M} (ht : s.toVisit = mod :: rest) (I : Inv g root s) :
    Inv g root (g.visit s) ∧ (g.visit s).visited = mod :: s.visited ∧ (g.visit s).toVisit = (fresh g (mod :: s.visited) mod).reverse ++ rest := by
  unfold Graph.visit
  rw [ht]
  dsimp only
  obtain ⟨h1, h2, h3, h4⟩ := fold_look g (g.attrs mod) { s with visited := mod :: s.visited, toVisit := rest }
  dsimp only at h1 h2 h3 h4
  generalize (g.attrs mod).foldl g.look { s with visited := mod :: s.visited, toVisit := rest } = s' at *
  have h2 : s'.toVisit = (fresh g (mod :: s.visited) mod).reverse ++ rest := h2
  have h3 : ∀ x, x ∈ s'.modules ↔ x ∈ s.modules ∨ x ∈ fresh g (mod :: s.visited) mod := h3
  have hmod : mod ∈ s.modules := I.queued mod (by rw [ht]; exact List.mem_cons_self)
  refine ⟨⟨h4 I.nodup, (h3 _).2 (.inl I.rootIn), fun m hm => ?_, fun m hm => ?_, fun m hm => ?_, fun m hm o ho => ?_, fun m hm => ?_, fun pre m post e hm o ho => ?_⟩, h1, h2⟩
  · rcases (h3 m).1 hm with hm | hm
    · exact I.sound m hm
    · exact (I.sound mod hmod).tail (mem_fresh.1 hm).1
  · rw [h2, List.mem_append, List.mem_reverse] at hm
    rw [h3]
    rcases hm with hm | hm
    · exact .inr hm
    · exact .inl (I.queued m (by rw [ht]; exact List.mem_cons_of_mem _ hm))
  · rw [h1] at hm
    rw [h3]
    rcases List.mem_cons.1 hm with rfl | hm
    · exact .inl hmod
    · exact .inl (I.seen m hm)
  · rw [h1] at hm
    rw [h3]
    rcases List.mem_cons.1 hm with rfl | hm
    · by_cases hv : o ∈ m :: s.visited
      · rcases List.mem_cons.1 hv with rfl | hv
        · exact .inl hmod
        · exact .inl (I.seen o hv)
      · exact .inr (mem_fresh.2 ⟨ho, hv⟩)
    · exact .inl (I.closed m hm o ho)
  · rw [h1, h2, List.mem_append, List.mem_reverse]
    rcases (h3 m).1 hm with hm | hm
    · rcases I.pending m hm with h | h
      · exact .inl (List.mem_cons_of_mem _ h)
      · rw [ht] at h
        rcases List.mem_cons.1 h with rfl | h
        · exact .inl List.mem_cons_self
        · exact .inr (.inr h)
    · exact .inr (.inl hm)
  · rw [h1] at hm ⊢
    rw [h2] at e
    by_cases ho' : o ∈ mod :: s.visited
    · exact .inl ho'
    right
    rcases List.append_eq_append_iff.1 e with ⟨a, rfl, e2⟩ | ⟨a, e1, e2⟩
    · -- m is in the rest
      rw [List.mem_append, List.mem_reverse]
      rcases List.mem_cons.1 hm with rfl | hm
      · exact .inl (mem_fresh.2 ⟨ho, ho'⟩)
      · have := I.done (mod :: a) m post (by rw [ht, e2]; rfl) hm o ho
        rcases this with h | h
        · exact absurd (List.mem_cons_of_mem _ h) ho'
        · rcases List.mem_cons.1 h with rfl | h
          · exact absurd List.mem_cons_self ho'
          · exact .inr h
    · cases a with
      | nil =>
        rw [List.append_nil] at e1
        rw [List.nil_append] at e2
        rw [← e1, List.mem_reverse]
        rcases List.mem_cons.1 hm with rfl | hm
        · exact mem_fresh.2 ⟨ho, ho'⟩
        · have := I.done [mod] m post (by rw [ht, ← e2]; rfl) hm o ho
          rcases this with h | h
          · exact absurd (List.mem_cons_of_mem _ h) ho'
          · rw [List.mem_singleton] at h
            subst h
            exact absurd List.mem_cons_self ho'
      | cons x a =>
        exfalso
        have : m ∈ fresh g (mod :: s.visited) mod := by
          rw [← List.mem_reverse, e1]
          injection e2 with e2 e3
          subst e2
          exact List.mem_append_right _ List.mem_cons_self
        exact (mem_fresh.1 this).2 hm

variable [Fintype M]

/-- How many iterations are left at most. -/
def left (g : Graph M) (s : Search M) : Nat := s.toVisit.length + ∑ m ∈ Finset.univ.filter (fun m => m ∉ s.visited), (g.attrs m).length

theorem left_visit {g : Graph M} {root : M} {s : Search M} {mod : M} {rest : List M} (ht : s.toVisit = mod :: rest) (I : Inv g root s) : left g (g.visit s) < left g s := by
  obtain ⟨-, h1, h2⟩ := inv_visit ht I
  unfold left
  rw [h1, h2, ht, List.length_append, List.length_reverse, List.length_cons]
  by_cases hv : mod ∈ s.visited
  · have e : fresh g (mod :: s.visited) mod = [] := by
      refine List.eq_nil_iff_forall_not_mem.2 fun o ho => ?_
      obtain ⟨h, hn⟩ := mem_fresh.1 ho
      rcases I.done [] mod rest ht hv o h with h | h
      · exact hn (List.mem_cons_of_mem _ h)
      · cases h
    rw [e, List.length_nil, Nat.zero_add]
    have : (Finset.univ.filter fun m => m ∉ mod :: s.visited) = Finset.univ.filter fun m => m ∉ s.visited := by
      refine Finset.filter_congr fun m _ => ?_
      rw [List.mem_cons, not_or]
      exact ⟨fun h => h.2, fun h => ⟨fun e => h (e ▸ hv), h⟩⟩
    rw [this]
    omega
  · have e : (Finset.univ.filter fun m => m ∉ s.visited) = insert mod (Finset.univ.filter fun m => m ∉ mod :: s.visited) := by
      ext m
      rw [Finset.mem_filter, Finset.mem_insert, Finset.mem_filter, List.mem_cons, not_or]
      by_cases hm : m = mod
      · subst hm; simp [hv]
      · simp [hm]
    rw [e, Finset.sum_insert (by simp)]
    have : (fresh g (mod :: s.visited) mod).length ≤ (g.attrs mod).length := List.length_filter_le _ _
    omega

theorem search_spec {g : Graph M} {root : M} : ∀ (fuel : Nat) (s : Search M), Inv g root s → left g s ≤ fuel → ∃ s', g.search fuel s = some s' ∧ Inv g root s' ∧ s'.toVisit = [] := by
  intro fuel
  induction fuel with
  | zero =>
    intro s I h
    have : s.toVisit = [] := by
      unfold left at h
      exact List.eq_nil_of_length_eq_zero (by omega)
    refine ⟨s, ?_, I, this⟩
    unfold Graph.search
    rw [this]
  | succ fuel ih =>
    intro s I h
    unfold Graph.search
    rcases ht : s.toVisit with _ | ⟨mod, rest⟩
    · exact ⟨s, rfl, I, ht⟩
    · have := left_visit ht I
      exact ih _ (inv_visit ht I).1 (by omega)

theorem inv_start (g : Graph M) (root : M) : Inv g root ⟨[root], [], [root]⟩ :=
  ⟨List.nodup_singleton _, List.mem_singleton.2 rfl, fun m hm => by rw [List.mem_singleton] at hm; exact hm ▸ .refl, fun m hm => hm, fun m hm => (by cases hm), fun m hm => (by cases hm), fun m hm => .inr hm, fun pre m post e hm => (by cases hm)⟩

theorem hasDuplicate_iff {A : Type} [DecidableEq A] (l : List A) : hasDuplicate l = false ↔ l.Nodup := by
  induction l with
  | nil => simp [hasDuplicate]
  | cons a l ih =>
    unfold hasDuplicate
    rw [Bool.or_eq_false_iff, ih, List.nodup_cons]
    simp

/-- C176 the search for modules ends after at most as many iterations as there are attributes that are modules, and finds exactly those that can be reached through internal modules, each once; they are sorted by name, unless two
have the same name. -/
theorem find_spec (g : Graph M) (root : M) {fuel : Nat} (hf : 1 + ∑ m, (g.attrs m).length ≤ fuel) :
    ∃ r, g.find fuel root = some r ∧ ((∀ a b, Reachable g root a → Reachable g root b → g.name a = g.name b → a = b) →
      ∃ l, r = .ok l ∧ l.Nodup ∧ (∀ m, m ∈ l ↔ Reachable g root m) ∧ l.Pairwise fun a b => (g.name a).toList ≤ (g.name b).toList) ∧
      ((∃ a b, Reachable g root a ∧ Reachable g root b ∧ g.name a = g.name b ∧ a ≠ b) → r = .error .type) := by
  obtain ⟨s, h, I, he⟩ := search_spec fuel ⟨[root], [], [root]⟩ (inv_start g root) (by
    unfold left
    rw [List.length_singleton]
    simpa using hf)
  have hmem : ∀ m, m ∈ s.modules ↔ Reachable g root m := by
    intro m
    refine ⟨I.sound m, fun h => ?_⟩
    have hvis : ∀ m ∈ s.modules, m ∈ s.visited := fun m hm => (I.pending m hm).resolve_right (by rw [he]; exact List.not_mem_nil)
    induction h with
    | refl => exact I.rootIn
    | tail h1 h2 ih => exact I.closed _ (hvis _ ih) _ h2
  refine ⟨_, by unfold Graph.find; rw [h]; rfl, fun hinj => ?_, fun ⟨a, b, ha, hb, hab, hne⟩ => ?_⟩
  · have hn : (s.modules.map g.name).Nodup := (List.nodup_map_iff_inj_on I.nodup).2 fun a ha b hb e => hinj a b ((hmem a).1 ha) ((hmem b).1 hb) e
    dsimp only [Graph.sorted]
    rw [if_neg (by rw [(hasDuplicate_iff _).2 hn]; decide)]
    refine ⟨_, rfl, (List.mergeSort_perm _ _).nodup_iff.2 I.nodup, fun m => by rw [List.mem_mergeSort, hmem], ?_⟩
    have := List.pairwise_mergeSort (le := fun a b : M => decide ((g.name a).toList ≤ (g.name b).toList)) (fun a b c h1 h2 => by simp only [decide_eq_true_eq] at *; exact List.le_trans h1 h2)
      (fun a b => by simp only [Bool.or_eq_true, decide_eq_true_eq]; exact List.le_total _ _) s.modules
    exact this.imp fun h => of_decide_eq_true h
  · dsimp only [Graph.sorted]
    rw [if_pos]
    rw [← Bool.not_eq_false, hasDuplicate_iff]
    exact fun hn => hne ((List.nodup_map_iff_inj_on I.nodup).1 hn a ((hmem a).2 ha) b ((hmem b).2 hb) hab)

/-- C176 the classes found are those among the values of the modules that are subclasses, each once. -/
theorem subclasses_spec [DecidableEq C] (classes : M → List C) (isSub : C → Bool) (modules : List M) :
    (findSubclasses classes isSub modules).Nodup ∧ ∀ c, c ∈ findSubclasses classes isSub modules ↔ isSub c = true ∧ ∃ m ∈ modules, c ∈ classes m := by
  have key : ∀ (l seen : List C), seen.Nodup → (l.foldl (fun seen c => if isSub c && !seen.contains c then seen ++ [c] else seen) seen).Nodup ∧
      ∀ c, c ∈ l.foldl (fun seen c => if isSub c && !seen.contains c then seen ++ [c] else seen) seen ↔ c ∈ seen ∨ (isSub c = true ∧ c ∈ l) := by
    intro l
    induction l with
    | nil => intro seen h; exact ⟨h, fun c => by simp⟩
    | cons x l ih =>
      intro seen h
      rw [List.foldl_cons]
      by_cases hx : (isSub x && !seen.contains x) = true
      · rw [if_pos hx]
        rw [Bool.and_eq_true] at hx
        have hnot : x ∉ seen := by simpa using hx.2
        obtain ⟨h1, h2⟩ := ih (seen ++ [x]) (List.nodup_append.2 ⟨h, List.nodup_singleton _, fun a ha b hb e => by rw [List.mem_singleton] at hb; subst e hb; exact hnot ha⟩)
        refine ⟨h1, fun c => ?_⟩
        rw [h2, List.mem_append, List.mem_singleton, List.mem_cons]
        constructor
        · rintro ((h | rfl) | h)
          · exact .inl h
          · exact .inr ⟨hx.1, .inl rfl⟩
          · exact .inr ⟨h.1, .inr h.2⟩
        · rintro (h | ⟨h, rfl | h'⟩)
          · exact .inl (.inl h)
          · exact .inl (.inr rfl)
          · exact .inr ⟨h, h'⟩
      · rw [if_neg hx]
        obtain ⟨h1, h2⟩ := ih seen h
        refine ⟨h1, fun c => ?_⟩
        rw [h2, List.mem_cons]
        constructor
        · rintro (h | h)
          · exact .inl h
          · exact .inr ⟨h.1, .inr h.2⟩
        · rintro (h | ⟨h, rfl | h'⟩)
          · exact .inl h
          · left
            rw [h, Bool.true_and] at hx
            simpa using hx
          · exact .inr ⟨h, h'⟩
  obtain ⟨h1, h2⟩ := key (modules.flatMap classes) [] List.nodup_nil
  refine ⟨h1, fun c => (h2 c).trans ?_⟩
  rw [List.mem_flatMap]
  simp

/-! ### Combined parameters -/

theorem mem_product {A : Type} : ∀ {ls : List (List A)} {r : List A}, r ∈ product ls ↔ List.Forall₂ (fun a l => a ∈ l) r ls := by
  intro ls
  induction ls with
  | nil => intro r; unfold product; rw [List.mem_singleton, List.forall₂_nil_right_iff]
  | cons l ls ih =>
    intro r
    unfold product
    rw [List.mem_flatMap, List.forall₂_cons_right_iff]
    constructor
    · rintro ⟨a, ha, h⟩
      obtain ⟨t, ht, rfl⟩ := List.mem_map.1 h
      exact ⟨a, t, ha, ih.1 ht, rfl⟩
    · rintro ⟨a, t, ha, ht, rfl⟩
      exact ⟨a, ha, List.mem_map.2 ⟨t, ih.2 ht, rfl⟩⟩

theorem length_product {A : Type} (ls : List (List A)) : (product ls).length = (ls.map List.length).prod := by
  induction ls with
  | nil => rfl
  | cons l ls ih =>
    unfold product
    rw [List.map_cons, List.prod_cons, ← ih, List.length_flatMap]
    induction l with
    | nil => simp
    | cons a l ih' => rw [List.map_cons, List.sum_cons, ih', List.length_map, List.length_cons, Nat.add_mul, Nat.one_mul, Nat.add_comm]

/-- The names of a combination, joined. -/
def joined : List String → String
  | [] => ""
  | [s] => s
  | s :: l => s ++ "_" ++ joined l

theorem fold_combine : ∀ (l : List (Named V)) (a : Named V), l.foldl combine a = (joined (a.1 :: l.map Prod.fst), a.2 ++ l.flatMap Prod.snd) := by
  intro l
  induction l with
  | nil => intro a; simp [joined]
  | cons b l ih =>
    intro a
    rw [List.foldl_cons, ih]
    unfold combine
    refine Prod.ext ?_ (by simp)
    cases l with
    | nil => simp [joined]
    | cons c l => simp [joined, String.append_assoc]

/-- C176 the combined parameters are, for every choice of one parameter from each sequence, the one with the names joined and the values one after another; there are as many as the product of the lengths. -/
theorem combined_spec {parameters : List (List (Named V))} (hne : parameters ≠ []) : ∃ l, combined parameters = .ok l ∧ l.length = (parameters.map List.length).prod ∧
    ∀ x, x ∈ l ↔ ∃ r, List.Forall₂ (fun a ps => a ∈ ps) r parameters ∧ x = (joined (r.map Prod.fst), r.flatMap Prod.snd) := by
  have hr : ∀ r ∈ product parameters, reduce r = .ok (joined (r.map Prod.fst), r.flatMap Prod.snd) := by
    intro r h
    rw [mem_product] at h
    cases r with
    | nil => cases h; exact absurd rfl hne
    | cons a r =>
      show Except.ok (r.foldl combine a) = _
      rw [fold_combine]
      simp
  have hm : ∀ L : List (List (Named V)), (∀ r ∈ L, reduce r = .ok (joined (r.map Prod.fst), r.flatMap Prod.snd)) → L.mapM reduce = .ok (L.map fun r => (joined (r.map Prod.fst), r.flatMap Prod.snd)) := by
    intro L
    induction L with
    | nil => intro _; rfl
    | cons r L ih =>
      intro h
      rw [List.mapM_cons, h r List.mem_cons_self, ih fun r hr => h r (List.mem_cons_of_mem _ hr)]
      rfl
  refine ⟨_, hm _ hr, by rw [List.length_map, length_product], fun x => ?_⟩
  rw [List.mem_map]
  exact ⟨fun ⟨r, h, e⟩ => ⟨r, mem_product.1 h, e.symm⟩, fun ⟨r, h, e⟩ => ⟨r, mem_product.2 h, e.symm⟩⟩

/-- C176 without sequences the combination raises an error. -/
theorem combined_nil : combined ([] : List (List (Named V))) = .error .type := rfl

/-- C176 the order of the combinations: the choice from the last sequence changes fastest, so the combination of the `i`-th from the first with the `j`-th of the others is at `i` times their number plus `j`. -/
theorem product_order {A : Type} (l : List A) (ls : List (List A)) {i j : Nat} {a : A} {r : List A} (hi : l[i]? = some a) (hj : (product ls)[j]? = some r) : (product (l :: ls))[i * (product ls).length + j]? = some (a :: r) := by
  rw [product]
  induction l generalizing i with
  | nil => simp at hi
  | cons b l ih =>
    rw [List.flatMap_cons]
    have hlt : j < (product ls).length := (List.getElem?_eq_some_iff.1 hj).1
    cases i with
    | zero =>
      injection hi with hi
      subst hi
      rw [Nat.zero_mul, Nat.zero_add, List.getElem?_append_left (by rwa [List.length_map]), List.getElem?_map, hj]
      rfl
    | succ i =>
      have e : (i + 1) * (product ls).length + j = (product ls).length + (i * (product ls).length + j) := by rw [Nat.add_mul, Nat.one_mul]; omega
      rw [e, List.getElem?_append_right (by rw [List.length_map]; omega), List.length_map, Nat.add_sub_cancel_left]
      exact ih hi

/-- C176 the named booleans are both, under different names. -/
theorem bools_spec (name : String) : (namedBools name).map Prod.snd = [[true], [false]] ∧ ((namedBools name).map Prod.fst).Nodup := by
  refine ⟨rfl, ?_⟩
  unfold namedBools
  simp only [List.map_cons, List.map_nil, List.nodup_cons, List.mem_singleton, List.not_mem_nil, not_false_eq_true, List.nodup_nil, and_true]
  intro h
  have := congrArg String.length h
  rw [String.length_append] at this
  have h4 : "not_".length = 4 := by decide
  omega

/-- C176 the named range is the numbers below the end in order, under different names. -/
theorem range_spec (name : String) (stop : Nat) : (namedRange name stop).map Prod.snd = (List.range stop).map (fun i => [i]) ∧ ((namedRange name stop).map Prod.fst).Nodup := by
  unfold namedRange
  rw [List.map_map, List.map_map]
  refine ⟨rfl, (List.nodup_map_iff_inj_on List.nodup_range).2 fun i _ j _ h => ?_⟩
  have h : name ++ "_" ++ toString i = name ++ "_" ++ toString j := h
  have := congrArg String.toList h
  rw [String.toList_append, String.toList_append (s := name ++ "_")] at this
  have h2 := List.append_cancel_left this
  exact Nat.repr_injective (String.toList_inj.1 h2)

/-- C176 names of combinations may agree although the parameters do not. -/
theorem names_collide : combined [[("a", [1]), ("a_b", [2])], [("b_c", [3]), ("c", [4])]] = .ok [("a_b_c", [1, 3]), ("a_c", [1, 4]), ("a_b_b_c", [2, 3]), ("a_b_c", [2, 4])] := by decide

/-! ### Examples -/

/-- Three modules of the library in a cycle, and one that is not. -/
def sample : Graph (Fin 5) := ⟨fun m => ["haiku", "haiku._src", "haiku.nets", "jax", "haiku.hidden"].getD m.val "", fun m => [[1, 3, 2], [2, 0, 1], [1, 1], [4], []].getD m.val []⟩

example : (sample.search 12 ⟨[0], [], [0]⟩).map Search.modules = some [0, 1, 2] := by decide

example : 1 + ∑ m, (sample.attrs m).length ≤ 12 := by decide

/-- A module reached only through one that is not internal is not found. -/
example : ¬ Reachable sample 0 4 := by
  intro h
  have : ∀ m, Reachable sample 0 m → m = 0 ∨ m = 1 ∨ m = 2 := by
    intro m hm
    induction hm with
    | refl => exact .inl rfl
    | tail h1 h2 ih =>
      obtain ⟨h2, h3⟩ := h2
      rename_i b c
      rw [← internal_iff] at h3
      revert c
      rcases ih with rfl | rfl | rfl <;> decide
  rcases this 4 h with h | h | h <;> cases h

example : findSubclasses (fun m : Fin 2 => if m = 0 then ["Linear", "str", "MLP"] else ["MLP", "Conv"]) (· != "str") [0, 1] = ["Linear", "MLP", "Conv"] := by decide

end Verif.Props.TestUtils
