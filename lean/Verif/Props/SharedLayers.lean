import Verif.Props.ModuleTree
import Mathlib.Data.List.Nodup

/-!
# Modules that are made first and called later, in any order, by an `hk.Sequential` (C194)
-/

set_option linter.unusedVariables false

namespace Verif.Props.SharedLayers
open Verif Names Frame Verif.Props.Names Verif.Props.ModuleTree
open Verif.Props.Stack (Start Spec getAll left keyNo values needs Bare values_names values_get)

/-! ### The function that is transformed -/

/-- A layer of an `hk.Sequential`: a function such as `jax.nn.relu`, or one of the modules made before, given by its place among them; the same module can be there more than once.  -/
inductive Use where
  | fn (f : Val → Val)
  | mod (i : Nat)

/-- The loop of `Sequential.__call__` (haiku/_src/basic.py 119-127): each layer is called on what the one before returned.  Module objects are numbered in the order in which they are made, and making a
module makes `sizeT` of them, so the `i`th module of `ts` is number `base` plus the sizes of the ones before it.  Extra arguments for the first layer (`*args, **kwargs`) are not here. -/
def loop (ts : List Tree) (base : ModId) : List Use → Val → Prog
  | [], x => .ret x
  | .fn f :: us, x => loop ts base us (f x)
  | .mod i :: us, x =>
    match ts[i]? with
    | none => .raise .structureMismatch
    | some t => .bind (callT (base + sizeL (ts.take i)) t x) (loop ts base us)

/-- `hk.Sequential` as a module: it has no parameters, no state and makes no modules (haiku/_src/basic.py 111-117). -/
def shell (name : Str) : Tree := .node name [] [] ⟨fun _ _ x => x, fun _ _ _ y => y, fun _ _ _ _ => []⟩ [] [] 0

/-- A function that makes the modules `ts`, puts some of them, any number of times and in any order, with functions in between, into an `hk.Sequential` and calls it: examples/mnist.py 31-40, or the
torso in examples/impala_lite.py 60-63; haiku/_src/basic.py 111-127. -/
def sequential (ts : List Tree) (name : Str) (us : List Use) (x : Val) : Prog :=
  .bind (newL ts) fun _ => .bind (newT (shell name)) fun v =>
    match v with
    | .mod id => .callMethod id sCall x (loop ts (id - sizeL ts) us)
    | _ => .raise .structureMismatch

/-! ### Specification -/

/-- The names asked for before the `i`th module. -/
def before (ts : List Tree) (i : Nat) : List Str := (ts.take i).map Tree.name

/-- The `i`th module and the ones below it, with their full names, parameters and state. -/
def items (ts : List Tree) (i : Nat) : List Item :=
  match ts[i]? with
  | none => []
  | some t => flatT [] (before ts i) t

/-- The modules that are called and not in `seen`, each once, in the order of the first calls. -/
def firsts (seen : List Nat) : List Use → List Nat
  | [] => []
  | .fn _ :: us => firsts seen us
  | .mod i :: us => if i ∈ seen then firsts seen us else i :: firsts (seen ++ [i]) us

/-- What is called exists. -/
def Exist (ts : List Tree) (us : List Use) : Prop := ∀ i, Use.mod i ∈ us → i < ts.length

/-- What one layer computes, from input and state to output and state. -/
def step (get : Str → Str → Arr) (ts : List Tree) (x : Val × PDict) : Use → Val × PDict
  | .fn f => (f x.1, x.2)
  | .mod i =>
    match ts[i]? with
    | none => x
    | some t => composeT get [] (before ts i) t x

/-- All of them. -/
def compose (get : Str → Str → Arr) (ts : List Tree) (us : List Use) (x : Val × PDict) : Val × PDict := us.foldl (step get ts) x

/-! ### Lemmas -/

theorem firsts_mem : ∀ (us : List Use) (seen : List Nat) (i : Nat), i ∈ firsts seen us ↔ Use.mod i ∈ us ∧ i ∉ seen
  | [], seen, i => by simp [firsts]
  | .fn f :: us, seen, i => by
    rw [firsts, firsts_mem us]
    simp
  | .mod j :: us, seen, i => by
    rw [firsts]
    by_cases h : j ∈ seen
    · rw [if_pos h, firsts_mem us, List.mem_cons]
      constructor
      · exact fun k => ⟨.inr k.1, k.2⟩
      · rintro ⟨k | k, l⟩
        · injection k with k
          exact absurd (k ▸ h) l
        · exact ⟨k, l⟩
    · rw [if_neg h, List.mem_cons, firsts_mem us, List.mem_cons, List.mem_append, List.mem_singleton]
      constructor
      · rintro (rfl | k)
        · exact ⟨.inl rfl, h⟩
        · exact ⟨.inr k.1, fun l => k.2 (.inl l)⟩
      · rintro ⟨k, l⟩
        by_cases e : i = j
        · exact .inl e
        · rcases k with k | k
          · injection k with k
            exact absurd k e
          · exact .inr ⟨k, fun m => m.elim l e⟩

theorem firsts_nodup : ∀ (us : List Use) (seen : List Nat), (firsts seen us).Nodup
  | [], seen => List.nodup_nil
  | .fn f :: us, seen => by rw [firsts]; exact firsts_nodup us seen
  | .mod j :: us, seen => by
    rw [firsts]
    by_cases h : j ∈ seen
    · rw [if_pos h]; exact firsts_nodup us seen
    · rw [if_neg h, List.nodup_cons]
      refine ⟨fun k => ?_, firsts_nodup us _⟩
      exact ((firsts_mem us _ _).1 k).2 (List.mem_append_right _ (List.mem_singleton.2 rfl))

theorem builtL_get {h : List ModObj} {path : Str} : ∀ {ts : List Tree} {used : List Str} {base : ModId} {i : Nat} {t : Tree}, BuiltL h path used base ts → ts[i]? = some t →
    BuiltT h path (used ++ (ts.take i).map Tree.name) (base + sizeL (ts.take i)) t
  | [], used, base, i, t, hb, hi => by cases hi
  | r :: ts, used, base, 0, t, hb, hi => by
    rw [BuiltL] at hb
    injection hi with hi
    subst hi
    rw [List.take_zero, List.map_nil, List.append_nil, sizeL]
    exact hb.1
  | r :: ts, used, base, i + 1, t, hb, hi => by
    rw [BuiltL] at hb
    have := builtL_get hb.2 (i := i) (t := t) hi
    rw [List.take_succ_cons, List.map_cons, sizeL, ← Nat.add_assoc, List.append_cons]
    exact this

/-- The modules below the `i`th are part of all modules, and different from those below another. -/
theorem flatL_split {path : Str} : ∀ {ts : List Tree} {used : List Str} {i : Nat} {t : Tree}, ts[i]? = some t →
    ∃ a b, flatL path used ts = a ++ (flatT path (used ++ (ts.take i).map Tree.name) t ++ b) ∧
      ∀ j r, j < i → ts[j]? = some r → ∀ e ∈ flatT path (used ++ (ts.take j).map Tree.name) r, e ∈ a
  | [], used, i, t, hi => by cases hi
  | r :: ts, used, 0, t, hi => by
    injection hi with hi
    subst hi
    refine ⟨[], flatL path (used ++ [r.name]) ts, ?_, fun j r hj => by omega⟩
    rw [flatL, List.take_zero, List.map_nil, List.append_nil]
    rfl
  | r :: ts, used, i + 1, t, hi => by
    obtain ⟨a, b, h1, h2⟩ := flatL_split (path := path) (ts := ts) (used := used ++ [r.name]) (i := i) (t := t) hi
    refine ⟨flatT path used r ++ a, b, ?_, ?_⟩
    · rw [flatL, h1, List.take_succ_cons, List.map_cons, List.append_cons used r.name (List.map _ _), List.append_assoc (flatT path used r)]
    · intro j r' hj hr e he
      cases j with
      | zero =>
        injection hr with hr
        subst hr
        rw [List.take_zero, List.map_nil, List.append_nil] at he
        exact List.mem_append_left _ he
      | succ j =>
        rw [List.take_succ_cons, List.map_cons, List.append_cons used] at he
        exact List.mem_append_right _ (h2 j r' (by omega) hr e he)

theorem items_some {ts : List Tree} {i : Nat} {t : Tree} (h : ts[i]? = some t) : items ts i = flatT [] (before ts i) t := by
  unfold items
  rw [h]

theorem items_nodup {ts : List Tree} (hl : ∀ t ∈ ts, Ok t) (i : Nat) : ((items ts i).map Item.path).Nodup := by
  unfold items
  cases h : ts[i]? with
  | none => exact List.nodup_nil
  | some t => exact flatT_nodup t _ _ (hl t (List.mem_of_getElem? h))

theorem items_proper {ts : List Tree} (hl : ∀ t ∈ ts, Ok t) (i : Nat) : ∀ b ∈ items ts i, Proper b.specs ∧ (b.vars.map Spec.name).Nodup := by
  unfold items
  cases h : ts[i]? with
  | none => exact fun b hb => by cases hb
  | some t => exact flatT_proper t _ _ (hl t (List.mem_of_getElem? h))

theorem items_apart_lt {ts : List Tree} (hl : ∀ t ∈ ts, Ok t) {i j : Nat} (hij : i < j) {a b : Item} (ha : a ∈ items ts i) (hb : b ∈ items ts j) : a.path ≠ b.path := by
  unfold items at ha hb
  cases hi : ts[i]? with
  | none => rw [hi] at ha; cases ha
  | some t =>
    cases hj : ts[j]? with
    | none => rw [hj] at hb; cases hb
    | some r =>
      rw [hi] at ha
      rw [hj] at hb
      obtain ⟨p, q, h1, h2⟩ := flatL_split (path := []) (used := []) hj
      have hd := names_distinct hl
      rw [h1, List.map_append] at hd
      intro hc
      refine List.disjoint_of_nodup_append hd (List.mem_map.2 ⟨a, h2 i t hij hi a ha, rfl⟩) ?_
      rw [hc]
      exact List.mem_map.2 ⟨b, List.mem_append_left _ hb, rfl⟩

theorem items_apart {ts : List Tree} (hl : ∀ t ∈ ts, Ok t) {i j : Nat} (hij : i ≠ j) {a b : Item} (ha : a ∈ items ts i) (hb : b ∈ items ts j) : a.path ≠ b.path := by
  rcases Nat.lt_or_gt_of_ne hij with h | h
  · exact items_apart_lt hl h ha hb
  · exact fun hc => items_apart_lt hl h hb ha hc.symm

theorem used_nodup {ts : List Tree} (hl : ∀ t ∈ ts, Ok t) : ∀ {is : List Nat}, is.Nodup → ((is.flatMap (items ts)).map Item.path).Nodup
  | [], _ => List.nodup_nil
  | i :: is, h => by
    rw [List.nodup_cons] at h
    rw [List.flatMap_cons, List.map_append, List.nodup_append']
    refine ⟨items_nodup hl i, used_nodup hl h.2, fun q h1 h2 => ?_⟩
    obtain ⟨a, ha, rfl⟩ := List.mem_map.1 h1
    obtain ⟨b, hb, e⟩ := List.mem_map.1 h2
    obtain ⟨j, hj, hb⟩ := List.mem_flatMap.1 hb
    exact items_apart hl (i := i) (j := j) (fun hc => h.1 (by rw [hc]; exact hj)) ha hb e.symm

theorem used_proper {ts : List Tree} (hl : ∀ t ∈ ts, Ok t) (is : List Nat) : ∀ b ∈ is.flatMap (items ts), Proper b.specs ∧ (b.vars.map Spec.name).Nodup := fun b hb => by
  obtain ⟨i, -, hb⟩ := List.mem_flatMap.1 hb
  exact items_proper hl i b hb

theorem shell_ok {name : Str} (h : IsIdent name) (hn : ¬ EndsInNumber name) : Ok (shell name) :=
  .node h hn ⟨List.nodup_nil, fun p hp => by cases hp⟩ List.nodup_nil (fun t ht => by cases ht) (fun t ht => by cases ht)

/-! ### `apply` -/

theorem loop_read {get : Str → Str → Arr} {ts : List Tree} (hl : ∀ t ∈ ts, Ok t) {base : ModId} {c : Caller} {used : List Str} : ∀ (us : List Use) (x : Val) (s : LW), Exist ts us → Here s c used →
    BuiltL s.loc.heap [] [] base ts → (∀ i, Use.mod i ∈ us → Fits s get (items ts i)) →
    ∃ s', (loop ts base us x).run localMach s = (.ok (compose get ts us (x, now s)).1, s') ∧ Here s' c used ∧ Read s s' (compose get ts us (x, now s)).2
  | [], x, s, he, h, hb, hf => ⟨s, by rw [loop]; rfl, h, .refl s, rfl, rfl, .refl _, rfl, rfl⟩
  | .fn f :: us, x, s, he, h, hb, hf => by
    obtain ⟨s', e1, e2, e3⟩ := loop_read hl us (f x) s (fun i hi => he i (List.mem_cons_of_mem _ hi)) h hb (fun i hi => hf i (List.mem_cons_of_mem _ hi))
    exact ⟨s', by rw [loop]; exact e1, e2, e3⟩
  | .mod i :: us, x, s, he, h, hb, hf => by
    obtain ⟨t, ht⟩ : ∃ t, ts[i]? = some t := ⟨_, List.getElem?_eq_getElem (he i List.mem_cons_self)⟩
    have hfi := hf i List.mem_cons_self
    rw [items_some ht] at hfi
    obtain ⟨s1, a1, a2, a3⟩ := read_call (get := get) t x s c [] (before ts i) used (base + sizeL (ts.take i)) (hl t (List.mem_of_getElem? ht)) h (builtL_get hb ht) hfi
    obtain ⟨s', e1, e2, e3⟩ := loop_read hl us (composeT get [] (before ts i) t (x, now s)).1 s1 (fun i hi => he i (List.mem_cons_of_mem _ hi)) a2 (BuiltL.mono a3.kept.heap hb)
      (fun j hj => (hf j (List.mem_cons_of_mem _ hj)).mono a3.params a3.grows fun b hb => hb)
    have hs : compose get ts (.mod i :: us) (x, now s) = compose get ts us (composeT get [] (before ts i) t (x, now s)) := by
      show us.foldl _ (step get ts _ _) = _
      unfold step
      dsimp only
      rw [ht]
      rfl
    rw [show now s1 = (composeT get [] (before ts i) t (x, now s)).2 from a3.state] at e1 e3
    rw [hs]
    refine ⟨s', ?_, e2, a3.trans e3⟩
    rw [loop, ht]
    dsimp only
    rw [Prog.run, M.bind, a1]
    exact e1

/-! ### `init` -/

theorem Fits.made {k : Key} {n : Nat} {its : List Item} {s s' : LW} {a : List Item} (h : ∃ get, Fits s get its) (m : Made k n a s s') : ∃ get, Fits s' get its := by
  obtain ⟨get, h⟩ := h
  refine ⟨get, fun b hb => ⟨fun p hp => ?_, fun p hp => ?_⟩⟩
  · obtain ⟨h1, h2⟩ := (h b hb).1 p hp
    refine ⟨?_, h2⟩
    rw [m.params]
    unfold lookup2 at h1 ⊢
    rw [Dict.get?_append]
    cases hq : s.loc.params.get? b.path with
    | none => rw [hq] at h1; cases h1
    | some i => rw [hq] at h1; exact h1
  · apply some_iff
    have h1 := (h b hb).2 p hp
    have h2 : (lookup2 (extractState true s.loc.state) b.path p.name).isSome := by
      rw [extract_lookup, Option.isSome_map]
      exact h1
    rw [m.first]
    unfold lookup2 at h2 ⊢
    rw [Dict.get?_append]
    cases hq : (extractState true s.loc.state).get? b.path with
    | none => rw [hq] at h2; cases h2
    | some i => rw [hq] at h2; exact h2

theorem loop_init {k : Key} {ts : List Tree} (hl : ∀ t ∈ ts, Ok t) {base : ModId} {c : Caller} {used : List Str} : ∀ (us : List Use) (seen : List Nat) (x : Val) (s : LW) (n : Nat), Exist ts us → Here s c used →
    BuiltL s.loc.heap [] [] base ts → s.env.frozen = false → s.loc.rng = some ⟨left k n, []⟩ → (∀ i ∈ seen, ∃ get, Fits s get (items ts i)) → (∀ i, i ∉ seen → Fresh s (items ts i)) →
    ∃ v s', (loop ts base us x).run localMach s = (.ok v, s') ∧ Here s' c used ∧ Made k n ((firsts seen us).flatMap (items ts)) s s'
  | [], seen, x, s, n, he, h, hb, hz, hr, hf, hn => ⟨x, s, by rw [loop]; rfl, h, .refl s, by rw [firsts]; exact (List.append_nil _).symm, by rw [firsts]; exact (List.append_nil _).symm, by rw [firsts]; exact hr⟩
  | .fn f :: us, seen, x, s, n, he, h, hb, hz, hr, hf, hn => by
    rw [loop, firsts]
    exact loop_init hl us seen (f x) s n (fun i hi => he i (List.mem_cons_of_mem _ hi)) h hb hz hr hf hn
  | .mod i :: us, seen, x, s, n, he, h, hb, hz, hr, hf, hn => by
    obtain ⟨t, ht⟩ : ∃ t, ts[i]? = some t := ⟨_, List.getElem?_eq_getElem (he i List.mem_cons_self)⟩
    have he' : Exist ts us := fun i hi => he i (List.mem_cons_of_mem _ hi)
    have okt := hl t (List.mem_of_getElem? ht)
    rw [loop, ht, firsts]
    dsimp only
    by_cases hi : i ∈ seen
    · rw [if_pos hi]
      obtain ⟨get, hfi⟩ := hf i hi
      rw [items_some ht] at hfi
      obtain ⟨s1, a1, a2, a3⟩ := read_call (get := get) t x s c [] (before ts i) used (base + sizeL (ts.take i)) okt h (builtL_get hb ht) hfi
      obtain ⟨v, s', e1, e2, e3⟩ := loop_init (k := k) hl us seen (composeT get [] (before ts i) t (x, now s)).1 s1 n he' a2 (BuiltL.mono a3.kept.heap hb) (by rw [a3.kept.env]; exact hz) (by rw [a3.rng]; exact hr)
        (fun j hj => by
          obtain ⟨g, hg⟩ := hf j hj
          exact ⟨g, hg.mono a3.params a3.grows fun b hb => hb⟩)
        (fun j hj b hb => by rw [a3.params, a3.first]; exact hn j hj b hb)
      refine ⟨v, s', ?_, e2, ⟨a3.kept.trans e3.kept, by rw [e3.params, a3.params], by rw [e3.first, a3.first], e3.rng⟩⟩
      rw [Prog.run, M.bind, a1]
      exact e1
    · rw [if_neg hi, List.flatMap_cons]
      have hni := hn i hi
      have ndi := items_nodup hl i
      have pri := items_proper hl i
      have hni' := hni
      rw [items_some ht] at hni'
      obtain ⟨v1, s1, a1, a2, a3⟩ := init_call (k := k) t x s c [] (before ts i) used (base + sizeL (ts.take i)) n okt h (builtL_get hb ht) hz hr hni'
      rw [← items_some ht] at a3
      obtain ⟨v, s', e1, e2, e3⟩ := loop_init (k := k) hl us (seen ++ [i]) v1 s1 (n + total (items ts i)) he' a2 (BuiltL.mono a3.kept.heap hb) (by rw [a3.kept.env]; exact hz) a3.rng
        (fun j hj => by
          rcases List.mem_append.1 hj with hj | hj
          · exact Fits.made (hf j hj) a3
          · rw [List.mem_singleton.1 hj]
            exact ⟨_, a3.fits hni ndi pri⟩)
        (fun j hj => by
          have h1 : j ∉ seen := fun hc => hj (List.mem_append_left _ hc)
          have h2 : i ≠ j := fun hc => hj (List.mem_append_right _ (List.mem_singleton.2 hc.symm))
          refine a3.fresh (b := items ts j) (fun b hb => ?_) ?_
          · rcases List.mem_append.1 hb with hb | hb
            · exact hni b hb
            · exact hn j h1 b hb
          · have := used_nodup hl (is := [i, j]) (by simpa using h2)
            simpa using this)
      refine ⟨v, s', ?_, e2, a3.trans e3⟩
      rw [Prog.run, M.bind, a1]
      exact e1

/-! ### The theorems -/

/-- Making the modules and the `Sequential`. -/
theorem made {ts : List Tree} (hl : ∀ t ∈ ts, Ok t) {name : Str} (hi : IsIdent name) (hn : ¬ EndsInNumber name) {s : LW} (h : Here s none []) (us : List Use) (x : Val) :
    ∃ s' used q subs, (sequential ts name us x).run localMach s = (Prog.callMethod (s.loc.heap.length + sizeL ts) sCall x (loop ts s.loc.heap.length us)).run localMach s' ∧ Here s' none used ∧ New s s' ∧
      BuiltL s'.loc.heap [] [] s.loc.heap.length ts ∧ s'.loc.heap[s.loc.heap.length + sizeL ts]? = some ⟨some q, some subs⟩ := by
  obtain ⟨s1, e1, o1, k1, b1, z1⟩ := new_list ts hl h dir_top Plain.nil
  obtain ⟨s2, e2, o2, k2, b2, z2⟩ := new_tree (shell name) (shell_ok hi hn) o1 dir_top (fun m hm => by
    rw [List.nil_append] at hm
    obtain ⟨t, ht, rfl⟩ := List.mem_map.1 hm
    exact (hl t ht).named)
  unfold shell at b2
  rw [BuiltT, z1] at b2
  obtain ⟨⟨subs, hb⟩, -⟩ := b2
  refine ⟨s2, _, _, subs, ?_, o2, ⟨k1.kept.trans k2.kept, k2.params.trans k1.params, k2.rng.trans k1.rng, k2.state.trans k1.state⟩, BuiltL.mono k2.kept.heap b1, hb⟩
  unfold sequential
  rw [Prog.run, M.bind, e1]
  dsimp only
  rw [Prog.run, M.bind, e2]
  dsimp only
  rw [z1, Nat.add_sub_cancel]

/-- C194: `init` returns the parameters and the initial state of the modules that are called, each under the name that it got where it was made, not under that of the `Sequential`, in the order of the
first calls.  A module that is called more than once is there once, and takes its keys once; one that is never called is not there. -/
theorem init_sequential {w : World} (hw : Bare w) {ts : List Tree} (hl : ∀ t ∈ ts, Ok t) {name : Str} (hi : IsIdent name) (hn : ¬ EndsInNumber name) {us : List Use} (hu : Exist ts us) (k : Key) (x : Val) :
    ((Prog.initT (.key k) (sequential ts name us x)).run stackMach w).1 =
      .ok (.pair (.bundle (some' (startP k 0 ((firsts [] us).flatMap (items ts))))) (.bundle (some' (startS k 0 ((firsts [] us).flatMap (items ts)))))) := by
  obtain ⟨s1, used, q, subs, e1, o1, k1, b1, m1⟩ := made hl hi hn (here_start (Ctx.new none none (some ⟨k, []⟩)) hw rfl) us x
  obtain ⟨v, s2, e2, o2, d2⟩ := loop_init (k := k) hl us [] x (enter s1 _) 0 hu (enter_here o1 m1) b1 (by show s1.env.frozen = false; rw [k1.kept.env]; rfl) (by show s1.loc.rng = _; rw [k1.rng]; rfl)
    (fun i hi => by cases hi) (fun i _ b hb => by
      show s1.loc.params.get? _ = none ∧ (extractState true s1.loc.state).get? _ = none
      rw [k1.params, k1.state]
      exact ⟨rfl, rfl⟩)
  obtain ⟨s3, subs3, e3, o3, k3, p3, r3, t3, m3⟩ := call_node o1 m1 e2 d2.kept
  rw [initT_run]
  show (match (sequential ts name us x).run localMach (ctxStart (Ctx.new none none (some ⟨k, []⟩)) w) with
    | (.error e, s) => (Except.error e, { w with heap := s.loc.heap })
    | (.ok _, s) => (.ok (Val.pair (.bundle s.loc.params) (.bundle (extractState true s.loc.state))), { w with heap := s.loc.heap })).1 = _
  rw [e1, e3]
  dsimp only
  rw [p3, t3, d2.params, d2.first]
  show Except.ok (Val.pair (.bundle (s1.loc.params ++ _)) (.bundle (extractState true s1.loc.state ++ _))) = _
  rw [k1.params, k1.state]
  rfl

/-- C194: `apply` is the composition of the layers in their order, each module with its own arrays in each of its places, and with the state that the layers before left.  Only the modules that are
called need arrays. -/
theorem apply_sequential {w : World} (hw : Bare w) {ts : List Tree} (hl : ∀ t ∈ ts, Ok t) {name : Str} (hi : IsIdent name) (hn : ¬ EndsInNumber name) {us : List Use} (hu : Exist ts us) {rng : RngArg}
    {r : Option PRNGSeq} (hr : rng.toSeq = .ok r) {P S : PDict} {get : Str → Str → Arr}
    (hp : ∀ i, Use.mod i ∈ us → ∀ b ∈ items ts i, ∀ p ∈ b.specs, lookup2 (dict2 P) b.path p.name = some (get b.path p.name) ∧ (get b.path p.name).shape = p.shape)
    (hs : ∀ i, Use.mod i ∈ us → ∀ b ∈ items ts i, ∀ p ∈ b.vars, (lookup2 (dict2 S) b.path p.name).isSome) (x : Val) :
    ((Prog.applyT (some P) (some S) rng (sequential ts name us x)).run stackMach w).1 = .ok (.pair (compose get ts us (x, dict2 S)).1 (.bundle (compose get ts us (x, dict2 S)).2)) := by
  have hx := extract_new P S r w
  obtain ⟨s1, used, q, subs, e1, o1, k1, b1, m1⟩ := made hl hi hn (here_start (Ctx.new (some P) (some S) r) hw rfl) us x
  obtain ⟨s2, e2, o2, d2⟩ := loop_read (get := get) hl us x (enter s1 _) hu (enter_here o1 m1) b1 (fun i hi b hb => ⟨fun p hpb => by
      show lookup2 s1.loc.params _ _ = _ ∧ _
      rw [k1.params]
      exact hp i hi b hb p hpb, fun p hpb => by
      show (lookup2 s1.loc.state _ _).isSome
      rw [k1.state]
      have := hs i hi b hb p hpb
      rw [← hx, extract_lookup, Option.isSome_map] at this
      exact this⟩)
  have hnow : now (enter s1 ((ctxStart (Ctx.new (some P) (some S) r) w).loc.heap.length + sizeL ts)) = dict2 S := by
    show extractState false s1.loc.state = _
    rw [k1.state]
    exact hx
  rw [hnow] at e2 d2
  obtain ⟨s3, subs3, e3, o3, k3, p3, r3, t3, m3⟩ := call_node o1 m1 e2 d2.kept
  rw [applyT_run, hr]
  dsimp only [Option.getD_some, Option.getD_none]
  rw [e1, e3]
  dsimp only
  rw [t3, d2.state]

/-- What `init` returned has an array of the right shape for each parameter and a value for each state of modules that are called. -/
theorem start_fits {its : List Item} (hd : (its.map Item.path).Nodup) (ho : ∀ b ∈ its, Proper b.specs ∧ (b.vars.map Spec.name).Nodup) (k : Key) :
    (∀ b ∈ its, ∀ p ∈ b.specs, lookup2 (dict2 (some' (startP k 0 its))) b.path p.name = some (at2 (some' (startP k 0 its)) b.path p.name) ∧ (at2 (some' (startP k 0 its)) b.path p.name).shape = p.shape) ∧
    (∀ b ∈ its, ∀ p ∈ b.vars, (lookup2 (dict2 (some' (startS k 0 its))) b.path p.name).isSome) ∧ dict2 (some' (startS k 0 its)) = some' (startS k 0 its) := by
  have wp := some_wf (d := startP k 0 its) (by rw [startP_keys]; exact hd) (fun e he => by
    obtain ⟨b, hb, m, rfl⟩ := startP_mem_inv k _ _ e he
    show ((values k m b.specs).map Prod.fst).Nodup
    rw [values_names]
    exact (ho b hb).1.1)
  have ws := some_wf (d := startS k 0 its) (by rw [startS_keys]; exact hd) (fun e he => by
    obtain ⟨b, hb, m, rfl⟩ := startS_mem_inv k _ _ e he
    show ((values k m b.vars).map Prod.fst).Nodup
    rw [values_names]
    exact (ho b hb).2)
  refine ⟨fun b hb p hp => ?_, fun b hb p hp => ?_, ws⟩
  · obtain ⟨m, hm⟩ := startP_mem k _ 0 b hb
    obtain ⟨m', hv⟩ := values_get k b.specs m (ho b hb).1.1 p hp
    have := lookup_some (by rw [startP_keys]; exact hd) hm hv
    unfold at2
    rw [wp, this]
    exact ⟨rfl, (ho b hb).1.2 p hp k m'⟩
  · obtain ⟨m, hm⟩ := startS_mem k _ 0 b hb
    obtain ⟨m', hv⟩ := values_get k b.vars m (ho b hb).2 p hp
    rw [ws, lookup_some (by rw [startS_keys]; exact hd) hm hv]
    rfl

/-- C194: `apply` on what `init` returned never fails, and is the composition with the initial values. -/
theorem apply_init {w w' : World} (hw : Bare w) (hw' : Bare w') {ts : List Tree} (hl : ∀ t ∈ ts, Ok t) {name : Str} (hi : IsIdent name) (hn : ¬ EndsInNumber name) {us : List Use} (hu : Exist ts us) (k : Key)
    {rng : RngArg} {r : Option PRNGSeq} (hr : rng.toSeq = .ok r) (x x' : Val) :
    ∃ P S, ((Prog.initT (.key k) (sequential ts name us x)).run stackMach w).1 = .ok (.pair (.bundle P) (.bundle S)) ∧
      ((Prog.applyT (some P) (some S) rng (sequential ts name us x')).run stackMach w').1 = .ok (.pair (compose (at2 P) ts us (x', S)).1 (.bundle (compose (at2 P) ts us (x', S)).2)) := by
  obtain ⟨h1, h2, h3⟩ := start_fits (used_nodup hl (firsts_nodup us [])) (used_proper hl _) k
  have hm : ∀ i, Use.mod i ∈ us → ∀ b ∈ items ts i, b ∈ (firsts [] us).flatMap (items ts) := fun i hi b hb => List.mem_flatMap.2 ⟨i, (firsts_mem us [] i).2 ⟨hi, List.not_mem_nil⟩, hb⟩
  refine ⟨_, _, init_sequential hw hl hi hn hu k x, ?_⟩
  rw [apply_sequential hw' hl hi hn hu hr (fun i hi b hb => h1 b (hm i hi b hb)) (fun i hi b hb => h2 b (hm i hi b hb)), h3]

/-- C194: which parameters there are does not depend on how often modules are called, nor on the functions in between: if the first calls are the same, `init` returns the same. -/
theorem init_first_calls {w w' : World} (hw : Bare w) (hw' : Bare w') {ts : List Tree} (hl : ∀ t ∈ ts, Ok t) {name name' : Str} (hi : IsIdent name) (hn : ¬ EndsInNumber name) (hi' : IsIdent name')
    (hn' : ¬ EndsInNumber name') {us us' : List Use} (hu : Exist ts us) (h : firsts [] us = firsts [] us') (k : Key) (x x' : Val) :
    ((Prog.initT (.key k) (sequential ts name us x)).run stackMach w).1 = ((Prog.initT (.key k) (sequential ts name' us' x')).run stackMach w').1 := by
  rw [init_sequential hw hl hi hn hu, init_sequential hw' hl hi' hn' (fun i hi => hu i (by
    have := (firsts_mem us' [] i).2 ⟨hi, List.not_mem_nil⟩
    rw [← h] at this
    exact ((firsts_mem us [] i).1 this).1)), h]

/-- C194: the entries are those of the modules below one that is called, and there is one for each that has parameters. -/
theorem entries {w : World} (hw : Bare w) {ts : List Tree} (hl : ∀ t ∈ ts, Ok t) {name : Str} (hi : IsIdent name) (hn : ¬ EndsInNumber name) {us : List Use} (hu : Exist ts us) (k : Key) (x : Val) :
    ∃ P S, ((Prog.initT (.key k) (sequential ts name us x)).run stackMach w).1 = .ok (.pair (.bundle P) (.bundle S)) ∧ P.keys.Nodup ∧
      ∀ q, q ∈ P.keys ↔ ∃ i, Use.mod i ∈ us ∧ ∃ b ∈ items ts i, b.path = q ∧ b.specs ≠ [] := by
  refine ⟨_, _, init_sequential hw hl hi hn hu k x, (some_keys _).nodup (by rw [startP_keys]; exact used_nodup hl (firsts_nodup us [])), fun q => ?_⟩
  have hv : ∀ (m : Nat) (ps : List Spec), (values k m ps).isEmpty = ps.isEmpty := fun m ps => by
    have := congrArg List.length (values_names k m ps)
    simp only [List.length_map] at this
    cases ps with
    | nil => rw [List.isEmpty_nil, List.isEmpty_iff, ← List.length_eq_zero_iff]; exact this
    | cons p ps =>
      rw [List.isEmpty_cons]
      cases hc : values k m (p :: ps) with
      | nil => rw [hc] at this; cases this
      | cons a b => rfl
  constructor
  · intro hq
    obtain ⟨e, he, rfl⟩ := List.mem_map.1 hq
    obtain ⟨he1, he2⟩ := List.mem_filter.1 he
    obtain ⟨b, hb, m, rfl⟩ := startP_mem_inv k _ _ e he1
    obtain ⟨i, hi, hb⟩ := List.mem_flatMap.1 hb
    refine ⟨i, ((firsts_mem us [] i).1 hi).1, b, hb, rfl, fun hc => ?_⟩
    dsimp only at he2
    rw [hv, hc] at he2
    cases he2
  · rintro ⟨i, hi, b, hb, rfl, hne⟩
    obtain ⟨m, hm⟩ := startP_mem k _ 0 b (List.mem_flatMap.2 ⟨i, (firsts_mem us [] i).2 ⟨hi, List.not_mem_nil⟩, hb⟩)
    refine List.mem_map.2 ⟨_, List.mem_filter.2 ⟨hm, ?_⟩, rfl⟩
    dsimp only
    rw [hv]
    cases hb : b.specs with
    | nil => exact absurd hb hne
    | cons p ps => rfl

/-! ### The network of examples/mnist.py -/

namespace Mnist
open Verif.Props.Stack.Net (no_number world)
open Verif.Props.ModuleTree.Net (ident)

/-- `hk.Flatten` has no parameters (haiku/_src/reshape.py 121-151, 98-119); what it does to arrays is any function here. -/
def flatten (f : Val → Val) : Tree := .node "flatten".toList [] [] ⟨fun _ _ x => f x, fun _ _ _ y => y, fun _ _ _ _ => []⟩ [] [] 0

/-- `hk.Linear(m)` on arrays whose last dimension is `n`: a weight `[n, m]` drawn from a truncated normal distribution with deviation `1 / sqrt n` (here any function `draw` of shape, dtype and key) and a
bias `[m]` of zeros (haiku/_src/basic.py 152-181); `dot` stands for `jnp.dot(inputs, w) + b`.  The error for scalar inputs is not here. -/
def linear (draw : List Nat → DType → Key → List Int) (dot : Arr → Arr → Val → Val) (n m : Nat) : Tree := .node "linear".toList
  [⟨['w'], [n, m], .f32, .random fun shape dtype k => ⟨shape, dtype, draw shape dtype k⟩⟩, ⟨['b'], [m], .f32, .constant fun shape dtype => ⟨shape, dtype, List.replicate m 0⟩⟩] []
  ⟨fun as _ x => match as with | [w, b] => dot w b x | _ => x, fun _ _ _ y => y, fun _ _ _ _ => []⟩ [] [] 0

/-- The modules, in the order in which `net_fn` makes them (examples/mnist.py 34-39). -/
def modules (draw : List Nat → DType → Key → List Int) (dot : Arr → Arr → Val → Val) (flat : Val → Val) : List Tree := [flatten flat, linear draw dot 784 300, linear draw dot 300 100, linear draw dot 100 10]

/-- The layers of `net_fn` (examples/mnist.py 34-39). -/
def layers (relu : Val → Val) : List Use := [.mod 0, .mod 1, .fn relu, .mod 2, .fn relu, .mod 3]

/-- `net_fn` of examples/mnist.py 31-40; `x` is the scaled image. -/
def net (draw : List Nat → DType → Key → List Int) (dot : Arr → Arr → Val → Val) (flat relu : Val → Val) (x : Val) : Prog := sequential (modules draw dot flat) "sequential".toList (layers relu) x

theorem linear_ok (draw : List Nat → DType → Key → List Int) (dot : Arr → Arr → Val → Val) (n m : Nat) : Ok (linear draw dot n m) := .node (ident (by decide) (by decide)) (no_number (by decide)) ⟨by
  show [['w'], ['b']].Nodup
  decide, fun p hp k n => by
  simp only [List.mem_cons, List.not_mem_nil, or_false] at hp
  rcases hp with rfl | rfl <;> rfl⟩ (by decide) (fun t ht => by cases ht) (fun t ht => by cases ht)

theorem modules_ok (draw : List Nat → DType → Key → List Int) (dot : Arr → Arr → Val → Val) (flat : Val → Val) : ∀ t ∈ modules draw dot flat, Ok t := fun t ht => by
  simp only [modules, List.mem_cons, List.not_mem_nil, or_false] at ht
  rcases ht with rfl | rfl | rfl | rfl
  · exact .node (ident (by decide) (by decide)) (no_number (by decide)) ⟨List.nodup_nil, fun p hp => by cases hp⟩ (by decide) (fun t ht => by cases ht) (fun t ht => by cases ht)
  all_goals exact linear_ok ..

theorem layers_exist (draw : List Nat → DType → Key → List Int) (dot : Arr → Arr → Val → Val) (flat relu : Val → Val) : Exist (modules draw dot flat) (layers relu) := fun i hi => by
  simp only [layers, List.mem_cons, List.not_mem_nil, or_false, Use.mod.injEq, reduceCtorEq, false_or] at hi
  show i < 4
  omega

theorem second : numbered ["flatten".toList, "linear".toList] "linear".toList = "linear_1".toList := by decide
theorem third : numbered ["flatten".toList, "linear".toList, "linear".toList] "linear".toList = "linear_2".toList := by decide

/-- The parameters of one layer, with any initial values. -/
def specs (draw : List Nat → DType → Key → List Int) (n m : Nat) : List Spec :=
  [⟨['w'], [n, m], .f32, .random fun shape dtype k => ⟨shape, dtype, draw shape dtype k⟩⟩, ⟨['b'], [m], .f32, .constant fun shape dtype => ⟨shape, dtype, List.replicate m 0⟩⟩]

theorem items0 (draw : List Nat → DType → Key → List Int) (dot : Arr → Arr → Val → Val) (flat : Val → Val) : items (modules draw dot flat) 0 = [⟨"flatten".toList, [], []⟩] := rfl
theorem items1 (draw : List Nat → DType → Key → List Int) (dot : Arr → Arr → Val → Val) (flat : Val → Val) : items (modules draw dot flat) 1 = [⟨"linear".toList, specs draw 784 300, []⟩] := rfl
theorem items2 (draw : List Nat → DType → Key → List Int) (dot : Arr → Arr → Val → Val) (flat : Val → Val) : items (modules draw dot flat) 2 = [⟨"linear_1".toList, specs draw 300 100, []⟩] := by
  rw [← second]
  rfl
theorem items3 (draw : List Nat → DType → Key → List Int) (dot : Arr → Arr → Val → Val) (flat : Val → Val) : items (modules draw dot flat) 3 = [⟨"linear_2".toList, specs draw 100 10, []⟩] := by
  rw [← third]
  rfl

/-- The parameters of one layer. -/
def entry (draw : List Nat → DType → Key → List Int) (k : Key) (n m : Nat) : Dict Str Arr := [(['w'], ⟨[n, m], .f32, draw [n, m] .f32 k⟩), (['b'], ⟨[m], .f32, List.replicate m 0⟩)]

/-- C194: the network of examples/mnist.py has three layers of parameters, `linear`, `linear_1` and `linear_2`, none for `flatten`, none under `sequential`; their weights are drawn with the first three
keys, and their biases are zero. -/
theorem mnist_init {w : World} (hw : Bare w) (draw : List Nat → DType → Key → List Int) (dot : Arr → Arr → Val → Val) (flat relu : Val → Val) (k : Key) (x : Val) :
    ((Prog.initT (.key k) (net draw dot flat relu x)).run stackMach w).1 = .ok (.pair (.bundle [("linear".toList, entry draw (keyNo k 0) 784 300), ("linear_1".toList, entry draw (keyNo k 1) 300 100),
      ("linear_2".toList, entry draw (keyNo k 2) 100 10)]) (.bundle [])) := by
  refine (init_sequential hw (modules_ok draw dot flat) (ident (by decide) (by decide)) (no_number (by decide)) (layers_exist draw dot flat relu) k x).trans ?_
  rw [show firsts [] (layers relu) = [0, 1, 2, 3] from rfl]
  simp only [List.flatMap_cons, List.flatMap_nil, items0, items1, items2, items3]
  rfl

/-- C194: with parameters of these shapes it computes three layers with `relu` between them, and nothing else: no relu after the last. -/
theorem mnist_apply {w : World} (hw : Bare w) (draw : List Nat → DType → Key → List Int) (dot : Arr → Arr → Val → Val) (flat relu : Val → Val) {rng : RngArg} {r : Option PRNGSeq} (hr : rng.toSeq = .ok r)
    {w1 b1 w2 b2 w3 b3 : Arr} (h1 : w1.shape = [784, 300]) (h2 : b1.shape = [300]) (h3 : w2.shape = [300, 100]) (h4 : b2.shape = [100]) (h5 : w3.shape = [100, 10]) (h6 : b3.shape = [10]) (x : Val) :
    ((Prog.applyT (some [("linear".toList, [(['w'], w1), (['b'], b1)]), ("linear_1".toList, [(['w'], w2), (['b'], b2)]), ("linear_2".toList, [(['w'], w3), (['b'], b3)])]) (some []) rng
      (net draw dot flat relu x)).run stackMach w).1 = .ok (.pair (dot w3 b3 (relu (dot w2 b2 (relu (dot w1 b1 (flat x)))))) (.bundle [])) := by
  refine (apply_sequential (get := at2 [("linear".toList, [(['w'], w1), (['b'], b1)]), ("linear_1".toList, [(['w'], w2), (['b'], b2)]), ("linear_2".toList, [(['w'], w3), (['b'], b3)])]) hw (modules_ok draw dot flat)
    (ident (by decide) (by decide)) (no_number (by decide)) (layers_exist draw dot flat relu) hr ?_ ?_ x).trans ?_
  · intro i hi b hb p hp
    simp only [layers, List.mem_cons, List.not_mem_nil, or_false, Use.mod.injEq, reduceCtorEq, false_or] at hi
    rcases hi with rfl | rfl | rfl | rfl
    · rw [items0] at hb
      rw [List.mem_singleton.1 hb] at hp ⊢
      cases hp
    all_goals
      first | rw [items1] at hb | rw [items2] at hb | rw [items3] at hb
      rw [List.mem_singleton.1 hb] at hp ⊢
      rcases List.mem_cons.1 hp with rfl | hp
      · refine ⟨rfl, ?_⟩
        first | exact h1 | exact h3 | exact h5
      · rw [List.mem_singleton.1 hp]
        refine ⟨rfl, ?_⟩
        first | exact h2 | exact h4 | exact h6
  · intro i hi b hb p hp
    simp only [layers, List.mem_cons, List.not_mem_nil, or_false, Use.mod.injEq, reduceCtorEq, false_or] at hi
    rcases hi with rfl | rfl | rfl | rfl <;>
    · rw [List.mem_singleton.1 (show b ∈ [_] from hb)] at hp
      cases hp
  · have h2 : before (modules draw dot flat) 2 = ["flatten".toList, "linear".toList] := rfl
    have h3 : before (modules draw dot flat) 3 = ["flatten".toList, "linear".toList, "linear".toList] := rfl
    have e : ∀ (get : Str → Str → Arr) x, compose get (modules draw dot flat) (layers relu) x = composeT get [] (before (modules draw dot flat) 3) (linear draw dot 100 10)
      (step get (modules draw dot flat) (composeT get [] (before (modules draw dot flat) 2) (linear draw dot 300 100)
        (step get (modules draw dot flat) (composeT get [] ["flatten".toList] (linear draw dot 784 300) (composeT get [] [] (flatten flat) x)) (.fn relu))) (.fn relu)) := fun _ _ => rfl
    rw [e, h2, h3]
    unfold linear
    rw [composeT, composeT, second, third]
    rfl

end Mnist

/-! ### A network with a shared layer -/

namespace Shared
open Verif.Props.Stack.Net (no_number world)
open Verif.Props.ModuleTree.Net

/-- Three layers and a block that counts its calls.  The third is never called, the second before the first, and the block twice. -/
def made : List Tree := [dense, dense, dense, block]

def uses : List Use := [.mod 1, .mod 3, .fn (lift fun v => v % 100), .mod 0, .mod 3, .mod 1]

theorem made_ok : ∀ t ∈ made, Ok t := fun t ht => by
  simp only [made, List.mem_cons, List.not_mem_nil, or_false] at ht
  rcases ht with rfl | rfl | rfl | rfl
  exacts [dense_ok, dense_ok, dense_ok, block_ok]

theorem uses_exist : Exist made uses := fun i hi => by
  simp only [uses, List.mem_cons, List.not_mem_nil, or_false, Use.mod.injEq, reduceCtorEq, false_or] at hi
  show i < 4
  omega

theorem seq_ident : IsIdent "sequential".toList := ident (by decide) (by decide)

example : firsts [] uses = [1, 3, 0] := by decide

/-- What `init` returns. -/
def startParams : PDict := some' (startP (.root 7) 0 ((firsts [] uses).flatMap (items made)))

def startState : PDict := some' (startS (.root 7) 0 ((firsts [] uses).flatMap (items made)))

/-- `linear_1` first, with the first key; no `linear_2`. -/
example : startParams =
    [("linear_1".toList, [(['w'], ⟨[1], .f32, [1]⟩), (['b'], ⟨[1], .f32, [5]⟩)]), ("block".toList, [("scale".toList, ⟨[1], .f32, [10]⟩)]),
      ("block/~/linear".toList, [(['w'], ⟨[1], .f32, [2]⟩), (['b'], ⟨[1], .f32, [5]⟩)]), ("block/linear".toList, [(['w'], ⟨[1], .f32, [3]⟩), (['b'], ⟨[1], .f32, [5]⟩)]),
      ("linear".toList, [(['w'], ⟨[1], .f32, [3]⟩), (['b'], ⟨[1], .f32, [5]⟩)])] := by decide

example : ((Prog.initT (.key (.root 7)) (sequential made "sequential".toList uses (.arr ⟨[1], .f32, [1]⟩))).run stackMach world).1 = .ok (.pair (.bundle startParams) (.bundle startState)) :=
  init_sequential ⟨rfl, rfl⟩ made_ok seq_ident (no_number (by decide)) uses_exist _ _

/-- `6`; the block makes 34727 of it, as before; `27 · 3 + 5 = 86`; the block makes `86 + 10 · ((86 · 2 + 5) · 3 + 5) + 2 = 5448` and 332531 of it; plus 5.  The block has counted four calls, two in each
of its places. -/
theorem value : compose (at2 startParams) made uses (.arr ⟨[1], .f32, [1]⟩, startState) =
    (.arr ⟨[1], .f32, [332536]⟩, [("block".toList, [("count".toList, ⟨[1], .f32, [4]⟩), ("sum".toList, ⟨[1], .f32, [7106]⟩)])]) := by rfl

example : ∃ P S, ((Prog.initT (.key (.root 7)) (sequential made "sequential".toList uses (.arr ⟨[1], .f32, [1]⟩))).run stackMach world).1 = .ok (.pair (.bundle P) (.bundle S)) ∧
    ((Prog.applyT (some P) (some S) .none (sequential made "sequential".toList uses (.arr ⟨[1], .f32, [1]⟩))).run stackMach world).1 =
      .ok (.pair (compose (at2 P) made uses (.arr ⟨[1], .f32, [1]⟩, S)).1 (.bundle (compose (at2 P) made uses (.arr ⟨[1], .f32, [1]⟩, S)).2)) :=
  apply_init ⟨rfl, rfl⟩ ⟨rfl, rfl⟩ made_ok seq_ident (no_number (by decide)) uses_exist _ rfl _ _

/-- Calling the second layer once more, at the end, changes nothing of what `init` returns. -/
example : ((Prog.initT (.key (.root 7)) (sequential made "sequential".toList uses .unit)).run stackMach world).1 =
    ((Prog.initT (.key (.root 7)) (sequential made "chain".toList (uses ++ [.mod 1]) .unit)).run stackMach world).1 :=
  init_first_calls ⟨rfl, rfl⟩ ⟨rfl, rfl⟩ made_ok seq_ident (no_number (by decide)) (ident (by decide) (by decide)) (no_number (by decide)) uses_exist (by decide) _ _ _

end Shared

end Verif.Props.SharedLayers
