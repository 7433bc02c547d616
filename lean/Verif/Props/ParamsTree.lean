import Mathlib.Tactic.NormNum
import Verif.Model.ParamsTree
import Verif.Props.Ema
import Verif.Props.Names
import Verif.Props.SpectralNorm

/-!
# Averages and spectral normalisation of a tree of parameters (C82, C83)
-/

namespace Verif.Props.PTree
open Verif.Names
open Verif.Shapes (Err)
open Verif.PTree
open Verif.Props.Names

variable {S V : Type}

/-! ### Specification -/

/-- The names in a tree, without the values. -/
def names (tree : Params V) : List (Str × List Str) := tree.map fun x => (x.1, x.2.map Prod.fst)

/-- The value of parameter `p` of module `m`. -/
def value (tree : Params V) (m p : Str) : Option V := (tree.get? m).bind fun d => d.get? p

/-- No name occurs twice, as in a Python dictionary. -/
def Proper (tree : Params V) : Prop := tree.keys.Nodup ∧ ∀ x ∈ tree, (Dict.keys x.2).Nodup

/-- The values of one parameter in a history of calls. -/
def own (calls : List (Params V × Bool)) (m p : Str) : List (V × Bool) := calls.filterMap fun c => (value c.1 m p).map fun v => (v, c.2)

/-- What a module of its own for one parameter would have as state. -/
def alone (leaf : Option S → V → Bool → Except Err (V × S)) : Option S → List (V × Bool) → Except Err (Option S)
  | s, [] => .ok s
  | s, (v, u) :: rest =>
    match leaf s v u with
    | .error e => .error e
    | .ok (_, s') => alone leaf (some s') rest

/-! ### The leaves one after another -/

/-- The leaves of a tree. -/
def leaves (tree : Params V) : List ((Str × Str) × V) := tree.flatMap fun x => x.2.map fun y => ((x.1, y.1), y.2)

/-- The key of a leaf. -/
def keyOf (i : Str × Str) : Str := key i.1 i.2

/-- The calls for the leaves. -/
def runLeaves (t : ParamsTree S V) (u : Bool) : List ((Str × Str) × V) → Scope × Dict Str S → Except Fail (List ((Str × Str) × V) × (Scope × Dict Str S))
  | [], s => .ok ([], s)
  | (i, v) :: rest, s => do
    let (v', s) ← t.maybe u (keyOf i) v s
    let (rest', s) ← runLeaves t u rest s
    .ok ((i, v') :: rest', s)

theorem bind_ok_iff {α β ε : Type} {x : Except ε α} {f : α → Except ε β} {b : β} : (x >>= f) = .ok b ↔ ∃ a, x = .ok a ∧ f a = .ok b := by
  cases x with
  | error e => exact ⟨(fun h => by cases h), (fun ⟨_, h, _⟩ => by cases h)⟩
  | ok a => exact ⟨fun h => ⟨a, rfl, h⟩, fun ⟨_, h, h'⟩ => by cases h; exact h'⟩

theorem run_append (t : ParamsTree S V) (u : Bool) : ∀ (a b : List ((Str × Str) × V)) (s : Scope × Dict Str S) {ra rb} {s1 s2 : Scope × Dict Str S},
    runLeaves t u a s = .ok (ra, s1) → runLeaves t u b s1 = .ok (rb, s2) → runLeaves t u (a ++ b) s = .ok (ra ++ rb, s2)
  | [], b, s, ra, rb, s1, s2, h1, h2 => by
    cases h1
    exact h2
  | (i, v) :: a, b, s, ra, rb, s1, s2, h1, h2 => by
    obtain ⟨⟨v', s'⟩, g1, h1⟩ := bind_ok_iff.mp h1
    obtain ⟨⟨r, s''⟩, g2, h1⟩ := bind_ok_iff.mp h1
    cases h1
    refine bind_ok_iff.mpr ⟨_, g1, bind_ok_iff.mpr ⟨_, run_append t u a b s' g2 h2, rfl⟩⟩

theorem params_run (t : ParamsTree S V) (u : Bool) (m : Str) : ∀ (d : Dict Str V) (s : Scope × Dict Str S) {d' : Dict Str V} {s' : Scope × Dict Str S}, t.params u m d s = .ok (d', s') →
    runLeaves t u (d.map fun y => ((m, y.1), y.2)) s = .ok (d'.map fun y => ((m, y.1), y.2), s') ∧ d'.map Prod.fst = d.map Prod.fst
  | [], s, d', s', h => by
    cases h
    exact ⟨rfl, rfl⟩
  | (p, v) :: d, s, d', s', h => by
    obtain ⟨⟨v', s1⟩, g1, h⟩ := bind_ok_iff.mp h
    obtain ⟨⟨r, s2⟩, g2, h⟩ := bind_ok_iff.mp h
    cases h
    obtain ⟨q1, q2⟩ := params_run t u m d s1 g2
    exact ⟨bind_ok_iff.mpr ⟨_, g1, bind_ok_iff.mpr ⟨_, q1, rfl⟩⟩, congrArg (p :: ·) q2⟩

theorem modules_run (t : ParamsTree S V) (u : Bool) : ∀ (tree : Params V) (s : Scope × Dict Str S) {out : Params V} {s' : Scope × Dict Str S}, t.modules u tree s = .ok (out, s') →
    runLeaves t u (leaves tree) s = .ok (leaves out, s') ∧ names out = names tree
  | [], s, out, s', h => by
    cases h
    exact ⟨rfl, rfl⟩
  | (m, d) :: tree, s, out, s', h => by
    obtain ⟨⟨d', s1⟩, g1, h⟩ := bind_ok_iff.mp h
    obtain ⟨⟨r, s2⟩, g2, h⟩ := bind_ok_iff.mp h
    cases h
    obtain ⟨p1, p2⟩ := params_run t u m d s g1
    obtain ⟨q1, q2⟩ := modules_run t u tree s1 g2
    refine ⟨run_append t u _ _ s p1 q1, ?_⟩
    show (m, d'.map Prod.fst) :: names r = (m, d.map Prod.fst) :: names tree
    rw [p2, q2]

/-! ### Which name each leaf gets -/

/-- The names of the modules made for the leaves: none for ignored leaves. -/
def assign (t : ParamsTree S V) : Scope → List (Str × Str) → List (Option Str)
  | _, [] => []
  | sc, i :: rest =>
    if t.ignore (keyOf i) then none :: assign t sc rest
    else
      match request (some (t.name, sCall)) sc (t.mangle (keyOf i)) with
      | (.error _, sc') => none :: assign t sc' rest
      | (.ok q, sc') => some q :: assign t sc' rest

theorem assign_unused (t : ParamsTree S V) : ∀ (ids : List (Str × Str)) (sc : Scope) {q : Str}, some q ∈ assign t sc ids → q ∉ sc.used
  | [], sc, q, h => by cases h
  | i :: rest, sc, q, h => by
    unfold assign at h
    split at h
    · rcases List.mem_cons.mp h with h | h
      · cases h
      · exact assign_unused t rest sc h
    · rcases request_used (some (t.name, sCall)) sc (t.mangle (keyOf i)) with ⟨q', hq, hn, hu⟩ | ⟨e, he, hu⟩
      · rcases hr : request (some (t.name, sCall)) sc (t.mangle (keyOf i)) with ⟨r, sc'⟩
        rw [hr] at h hq hu
        dsimp only at hq hu
        subst hq
        dsimp only at h
        rcases List.mem_cons.mp h with h | h
        · cases h
          exact hn
        · intro k
          exact assign_unused t rest sc' h (by rw [hu]; exact List.mem_cons_of_mem _ k)
      · rcases hr : request (some (t.name, sCall)) sc (t.mangle (keyOf i)) with ⟨r, sc'⟩
        rw [hr] at h he hu
        dsimp only at he hu
        subst he
        dsimp only at h
        rcases List.mem_cons.mp h with h | h
        · cases h
        · rw [← hu]
          exact assign_unused t rest sc' h

/-- What the calls for the leaves do to the result and the state of each. -/
theorem run_spec (t : ParamsTree S V) (u : Bool) : ∀ (l : List ((Str × Str) × V)) (s : Scope × Dict Str S) {r : List ((Str × Str) × V)} {s' : Scope × Dict Str S}, runLeaves t u l s = .ok (r, s') →
    r.map Prod.fst = l.map Prod.fst ∧ (∀ q, some q ∉ assign t s.1 (l.map Prod.fst) → s'.2.get? q = s.2.get? q) ∧
    ∀ i v q, ((i, v), q) ∈ l.zip (assign t s.1 (l.map Prod.fst)) →
      (q = none → t.ignore (keyOf i) = true ∧ (i, v) ∈ r) ∧
      ∀ q', q = some q' → t.ignore (keyOf i) = false ∧ ∃ v' st', t.leaf (s.2.get? q') v u = .ok (v', st') ∧ (i, v') ∈ r ∧ s'.2.get? q' = some st'
  | [], s, r, s', h => by
    cases h
    exact ⟨rfl, fun _ _ => rfl, fun i v q h => by cases h⟩
  | (i, v) :: l, s, r, s', h => by
    obtain ⟨⟨v', s1⟩, g1, h⟩ := bind_ok_iff.mp h
    obtain ⟨⟨rs, s2⟩, g2, h⟩ := bind_ok_iff.mp h
    cases h
    obtain ⟨q1, q2, q3⟩ := run_spec t u l s1 g2
    refine ⟨congrArg (i :: ·) q1, ?_⟩
    rw [List.map_cons]
    unfold ParamsTree.maybe at g1
    unfold assign
    dsimp only
    cases hi : t.ignore (keyOf i) with
    | true =>
      rw [hi, if_pos rfl] at g1
      cases g1
      rw [if_pos rfl]
      refine ⟨fun q hq => q2 q fun k => hq (List.mem_cons_of_mem _ k), fun j w q hj => ?_⟩
      rw [List.zip_cons_cons] at hj
      rcases List.mem_cons.mp hj with hj | hj
      · cases hj
        exact ⟨fun _ => ⟨hi, List.mem_cons_self⟩, fun q' k => by cases k⟩
      · obtain ⟨a1, a2⟩ := q3 j w q hj
        exact ⟨fun k => ⟨(a1 k).1, List.mem_cons_of_mem _ (a1 k).2⟩, fun q' k => by
          obtain ⟨b0, v', st', b1, b2, b3⟩ := a2 q' k
          exact ⟨b0, v', st', b1, List.mem_cons_of_mem _ b2, b3⟩⟩
    | false =>
      rw [hi, if_neg (by decide)] at g1
      rw [if_neg (by decide)]
      rcases request_used (some (t.name, sCall)) s.1 (t.mangle (keyOf i)) with ⟨q', hq, hn, hu⟩ | ⟨e, he, hu⟩
      · rcases hr : request (some (t.name, sCall)) s.1 (t.mangle (keyOf i)) with ⟨r', sc'⟩
        rw [hr] at g1 hq hu
        dsimp only at hq hu
        subst hq
        dsimp only at g1 ⊢
        rcases hl : t.leaf (s.2.get? q') v u with e | ⟨w, sw⟩
        · rw [hl] at g1
          cases g1
        · rw [hl] at g1
          cases g1
          have hfresh : some q' ∉ assign t sc' (l.map Prod.fst) := fun k => assign_unused t _ _ k (by rw [hu]; exact List.mem_cons_self)
          dsimp only at q2 q3
          refine ⟨fun q hq => ?_, fun j w' q hj => ?_⟩
          · rw [q2 q fun k => hq (List.mem_cons_of_mem _ k), Dict.get?_set_ne]
            rintro rfl
            exact hq List.mem_cons_self
          · rw [List.zip_cons_cons] at hj
            rcases List.mem_cons.mp hj with hj | hj
            · cases hj
              refine ⟨(fun k => by cases k), fun q'' k => ?_⟩
              cases k
              exact ⟨hi, v', sw, hl, List.mem_cons_self, by rw [q2 q' hfresh, Dict.get?_set_self]⟩
            · obtain ⟨a1, a2⟩ := q3 j w' q hj
              refine ⟨fun k => ⟨(a1 k).1, List.mem_cons_of_mem _ (a1 k).2⟩, fun q'' k => ?_⟩
              obtain ⟨b0, v'', st', b1, b2, b3⟩ := a2 q'' k
              have hne : q' ≠ q'' := by
                rintro rfl
                rw [k] at hj
                exact hfresh (List.of_mem_zip hj).2
              rw [Dict.get?_set_ne _ _ hne] at b1
              exact ⟨b0, v'', st', b1, List.mem_cons_of_mem _ b2, b3⟩
      · rcases hr : request (some (t.name, sCall)) s.1 (t.mangle (keyOf i)) with ⟨r', sc'⟩
        rw [hr] at g1 he
        dsimp only at he
        subst he
        cases g1

theorem assign_length (t : ParamsTree S V) : ∀ (ids : List (Str × Str)) (sc : Scope), (assign t sc ids).length = ids.length
  | [], _ => rfl
  | i :: rest, sc => by
    unfold assign
    split
    · exact congrArg (· + 1) (assign_length t rest sc)
    · rcases request (some (t.name, sCall)) sc (t.mangle (keyOf i)) with ⟨e | q, sc'⟩
      · exact congrArg (· + 1) (assign_length t rest sc')
      · exact congrArg (· + 1) (assign_length t rest sc')

/-- Two leaves do not get the same name. -/
theorem assign_inj (t : ParamsTree S V) : ∀ (ids : List (Str × Str)) (sc : Scope) {i j : Str × Str} {q : Str}, (i, some q) ∈ ids.zip (assign t sc ids) → (j, some q) ∈ ids.zip (assign t sc ids) → i = j
  | [], _, i, j, q, h, _ => by cases h
  | k :: rest, sc, i, j, q, h, h' => by
    unfold assign at h h'
    split at h
    · rw [if_pos (by assumption)] at h'
      rw [List.zip_cons_cons] at h h'
      rcases List.mem_cons.mp h with h | h
      · cases h
      rcases List.mem_cons.mp h' with h' | h'
      · cases h'
      exact assign_inj t rest sc h h'
    · rw [if_neg (by assumption)] at h'
      rcases request_used (some (t.name, sCall)) sc (t.mangle (keyOf k)) with ⟨q', hq, hn, hu⟩ | ⟨e, he, hu⟩
      · rcases hr : request (some (t.name, sCall)) sc (t.mangle (keyOf k)) with ⟨r, sc'⟩
        rw [hr] at h h' hq hu
        dsimp only at hq hu
        subst hq
        dsimp only at h h'
        rw [List.zip_cons_cons] at h h'
        have hf : some q' ∉ assign t sc' rest := fun k => assign_unused t _ _ k (by rw [hu]; exact List.mem_cons_self)
        rcases List.mem_cons.mp h with g | g
        · rcases List.mem_cons.mp h' with g' | g'
          · cases g
            cases g'
            rfl
          · cases g
            exact absurd (List.of_mem_zip g').2 hf
        · rcases List.mem_cons.mp h' with g' | g'
          · cases g'
            exact absurd (List.of_mem_zip g).2 hf
          · exact assign_inj t rest sc' g g'
      · rcases hr : request (some (t.name, sCall)) sc (t.mangle (keyOf k)) with ⟨r, sc'⟩
        rw [hr] at h h' he
        dsimp only at he
        subst he
        dsimp only at h h'
        rw [List.zip_cons_cons] at h h'
        rcases List.mem_cons.mp h with h | h
        · cases h
        rcases List.mem_cons.mp h' with h' | h'
        · cases h'
        exact assign_inj t rest sc' h h'

/-! ### Leaves and values -/

theorem leaves_ids (tree : Params V) : (leaves tree).map Prod.fst = (names tree).flatMap fun x => x.2.map fun p => (x.1, p) := by
  unfold leaves names
  rw [List.map_flatMap, List.flatMap_map]
  refine List.flatMap_congr fun x _ => ?_
  simp [List.map_map, Function.comp_def]

theorem leaves_cons (m : Str) (d : Dict Str V) (tree : Params V) : leaves ((m, d) :: tree) = (d.map fun y => ((m, y.1), y.2)) ++ leaves tree := rfl

theorem mem_leaves {tree : Params V} (h : Proper tree) {m p : Str} {v : V} : ((m, p), v) ∈ leaves tree ↔ value tree m p = some v := by
  unfold leaves value
  rw [List.mem_flatMap]
  constructor
  · rintro ⟨⟨m', d⟩, hx, hy⟩
    obtain ⟨⟨p', v'⟩, hz, e⟩ := List.mem_map.mp hy
    cases e
    rw [Dict.get?_of_mem h.1 hx]
    exact Dict.get?_of_mem (h.2 _ hx) hz
  · intro hv
    rcases hd : tree.get? m with _ | d
    · rw [hd] at hv
      cases hv
    · rw [hd] at hv
      exact ⟨(m, d), Dict.mem_of_get? hd, List.mem_map.mpr ⟨(p, v), Dict.mem_of_get? hv, rfl⟩⟩

theorem proper_names {a b : Params V} (h : names a = names b) (hb : Proper b) : Proper a := by
  have hk : a.keys = b.keys := by
    have := congrArg (List.map Prod.fst) h
    unfold names at this
    simpa [List.map_map, Function.comp_def, Dict.keys] using this
  refine ⟨by rw [hk]; exact hb.1, fun x hx => ?_⟩
  have : (x.1, x.2.map Prod.fst) ∈ names a := List.mem_map.mpr ⟨x, hx, rfl⟩
  rw [h] at this
  obtain ⟨y, hy, e⟩ := List.mem_map.mp this
  have := hb.2 y hy
  have e2 := congrArg Prod.snd e
  dsimp only at e2
  show (x.2.map Prod.fst).Nodup
  rw [← e2]
  exact this

/-! ### One call -/

/-- The name of each leaf in a call. -/
def Named (t : ParamsTree S V) (tree : Params V) (m p q : Str) : Prop := ((m, p), some q) ∈ ((leaves tree).map Prod.fst).zip (assign t .empty ((leaves tree).map Prod.fst))

theorem call_spec {t : ParamsTree S V} {st st' : Dict Str S} {tree out : Params V} {u : Bool} (hp : Proper tree) (h : t.call st tree u = .ok (out, st')) :
    names out = names tree ∧ (∀ q, (∀ m p, ¬Named t tree m p q) → st'.get? q = st.get? q) ∧ ∀ m p v, value tree m p = some v →
      (t.ignore (key m p) = true → value out m p = some v) ∧
      (t.ignore (key m p) = false → ∃ q, Named t tree m p q) ∧
      ∀ q, Named t tree m p q → t.ignore (key m p) = false ∧ ∃ v' s', t.leaf (st.get? q) v u = .ok (v', s') ∧ value out m p = some v' ∧ st'.get? q = some s' := by
  obtain ⟨⟨o, s⟩, h1, h2⟩ := bind_ok_iff.mp h
  cases h2
  obtain ⟨r1, r2⟩ := modules_run t u tree _ h1
  obtain ⟨q1, q2, q3⟩ := run_spec t u _ _ r1
  have ho : Proper out := proper_names r2 hp
  dsimp only at q2 q3
  refine ⟨r2, fun q hq => q2 q fun k => ?_, fun m p v hv => ?_⟩
  · obtain ⟨⟨⟨m, p⟩, x⟩, hx, e⟩ : ∃ x ∈ ((leaves tree).map Prod.fst).zip (assign t .empty ((leaves tree).map Prod.fst)), x.2 = some q := by
      have : some q ∈ (((leaves tree).map Prod.fst).zip (assign t .empty ((leaves tree).map Prod.fst))).map Prod.snd := by
        rw [List.map_snd_zip (by rw [assign_length])]
        exact k
      obtain ⟨x, hx, e⟩ := List.mem_map.mp this
      exact ⟨x, hx, e⟩
    dsimp only at e
    subst e
    exact hq m p hx
  · have hm := (mem_leaves hp).mpr hv
    obtain ⟨q, hq⟩ : ∃ q, (((m, p), v), q) ∈ (leaves tree).zip (assign t .empty ((leaves tree).map Prod.fst)) := by
      have : ((m, p), v) ∈ ((leaves tree).zip (assign t .empty ((leaves tree).map Prod.fst))).map Prod.fst := by
        rw [List.map_fst_zip (by rw [assign_length, List.length_map])]
        exact hm
      obtain ⟨⟨x, q⟩, hx, e⟩ := List.mem_map.mp this
      dsimp only at e
      subst e
      exact ⟨q, hx⟩
    obtain ⟨a1, a2⟩ := q3 _ _ _ hq
    have hz : ∀ w q, (((m, p), w), q) ∈ (leaves tree).zip (assign t .empty ((leaves tree).map Prod.fst)) → ((m, p), q) ∈ ((leaves tree).map Prod.fst).zip (assign t .empty ((leaves tree).map Prod.fst)) := by
      intro w q hq
      rw [List.zip_map_left]
      exact List.mem_map.mpr ⟨_, hq, rfl⟩
    refine ⟨fun hi => ?_, fun hi => ?_, fun q' hq' => ?_⟩
    · cases q with
      | none => exact (mem_leaves ho).mp (a1 rfl).2
      | some q' =>
        have := (a2 q' rfl).1
        rw [show keyOf (m, p) = key m p from rfl, hi] at this
        cases this
    · cases q with
      | none =>
        have := (a1 rfl).1
        rw [show keyOf (m, p) = key m p from rfl, hi] at this
        cases this
      | some q' => exact ⟨q', hz _ _ hq⟩
    · have hq'' : ∃ w, (((m, p), w), some q') ∈ (leaves tree).zip (assign t .empty ((leaves tree).map Prod.fst)) := by
        unfold Named at hq'
        rw [List.zip_map_left] at hq'
        obtain ⟨⟨⟨i, w⟩, x⟩, hx, e⟩ := List.mem_map.mp hq'
        cases e
        exact ⟨w, hx⟩
      obtain ⟨w, hw⟩ := hq''
      have : w = v := by
        have := (mem_leaves hp).mp (List.of_mem_zip hw).1
        rw [hv] at this
        cases this
        rfl
      subst this
      obtain ⟨b0, v', s', b1, b2, b3⟩ := (q3 _ _ _ hw).2 q' rfl
      exact ⟨b0, v', s', b1, (mem_leaves ho).mp b2, b3⟩

theorem named_value {t : ParamsTree S V} {tree : Params V} (hp : Proper tree) {m p q : Str} (h : Named t tree m p q) : ∃ v, value tree m p = some v := by
  obtain ⟨x, hx, e⟩ := List.mem_map.mp (List.of_mem_zip h).1
  obtain ⟨i, v⟩ := x
  dsimp only at e
  subst e
  exact ⟨v, (mem_leaves hp).mp hx⟩

/-- If every call names the leaves by one relation, each leaf has the state of a module of its own. -/
theorem after_spec {t : ParamsTree S V} {R : Str → Str → Str → Prop} (hinj : ∀ m p m' p' q, R m p q → R m' p' q → m = m' ∧ p = p') :
    ∀ (calls : List (Params V × Bool)) (st : Dict Str S) {st' : Dict Str S}, (∀ c ∈ calls, Proper c.1 ∧ (∀ m p q, Named t c.1 m p q → R m p q) ∧ ∀ m p q, R m p q → (value c.1 m p).isSome → Named t c.1 m p q) →
    t.after st calls = .ok st' → ∀ m p q, R m p q → alone t.leaf (st.get? q) (own calls m p) = .ok (st'.get? q)
  | [], st, st', _, h, m, p, q, _ => by
    cases h
    rfl
  | (tree, u) :: calls, st, st', hc, h, m, p, q, hR => by
    obtain ⟨⟨out, st1⟩, h1, h2⟩ := bind_ok_iff.mp h
    obtain ⟨hp, n1, n2⟩ := hc _ List.mem_cons_self
    dsimp only at hp n1 n2
    have ih := after_spec hinj calls st1 (fun c hc' => hc c (List.mem_cons_of_mem _ hc')) h2 m p q hR
    obtain ⟨_, c2, c3⟩ := call_spec hp h1
    unfold own
    rw [List.filterMap_cons]
    dsimp only
    cases hv : value tree m p with
    | none =>
      have : st1.get? q = st.get? q := c2 q fun m' p' hn => by
        obtain ⟨rfl, rfl⟩ := hinj _ _ _ _ _ hR (n1 _ _ _ hn)
        obtain ⟨v, k⟩ := named_value hp hn
        rw [hv] at k
        cases k
      rw [this] at ih
      exact ih
    | some v =>
      obtain ⟨_, _, d⟩ := c3 m p v hv
      obtain ⟨_, v', s', d1, _, d3⟩ := d q (n2 _ _ _ hR (by rw [hv]; rfl))
      show alone t.leaf (st.get? q) ((v, u) :: own calls m p) = _
      unfold alone
      rw [d1]
      rw [d3] at ih
      exact ih

/-! ### Each parameter has a module of its own -/

/-- C82: when every tree has the same names in the same order, the result has these names too, an ignored parameter comes back as it is, and any other comes back as from a module that only ever saw the values of this
parameter, in the calls so far. -/
theorem tree_same_order {t : ParamsTree S V} {calls : List (Params V × Bool)} {tree out : Params V} {u : Bool} {st st' : Dict Str S} (hp : Proper tree) (hn : ∀ c ∈ calls, names c.1 = names tree)
    (h : t.after [] calls = .ok st) (h' : t.call st tree u = .ok (out, st')) :
    names out = names tree ∧ ∀ m p v, value tree m p = some v → (t.ignore (key m p) = true → value out m p = some v) ∧
      (t.ignore (key m p) = false → ∃ s v' s', alone t.leaf none (own calls m p) = .ok s ∧ t.leaf s v u = .ok (v', s') ∧ value out m p = some v') := by
  obtain ⟨c1, c2, c3⟩ := call_spec hp h'
  refine ⟨c1, fun m p v hv => ?_⟩
  obtain ⟨d1, d2, d3⟩ := c3 m p v hv
  refine ⟨d1, fun hi => ?_⟩
  obtain ⟨q, hq⟩ := d2 hi
  obtain ⟨_, v', s', e1, e2, e3⟩ := d3 q hq
  have same : ∀ c ∈ calls, ∀ m p q, Named t c.1 m p q ↔ Named t tree m p q := by
    intro c hc m p q
    unfold Named
    rw [leaves_ids, leaves_ids, hn c hc]
  have := after_spec (R := Named t tree) (fun m p m' p' q a b => by
    have := assign_inj t _ _ a b
    cases this
    exact ⟨rfl, rfl⟩) calls [] (fun c hc => ⟨proper_names (hn c hc) hp, fun m p q k => (same c hc m p q).mp k, fun m p q k _ => (same c hc m p q).mpr k⟩) h m p q hq
  exact ⟨_, v', s', this, e1, e2⟩

/-- The name of the module for a parameter, if no other parameter is in the way. -/
def plainName (t : ParamsTree S V) (m p : Str) : Str := withPrefix (some (t.name, sCall)) (t.mangle (key m p))

/-- Every parameter that is not ignored has a name of its own, which is an identifier without a number at its end. -/
def Apart (t : ParamsTree S V) (trees : List (Params V)) : Prop :=
  (∀ tree ∈ trees, ∀ m p, (value tree m p).isSome → t.ignore (key m p) = false → IsIdent (t.mangle (key m p)) ∧ ¬EndsInNumber (t.mangle (key m p))) ∧
  ∀ tree ∈ trees, ∀ tree' ∈ trees, ∀ m p m' p', (value tree m p).isSome → (value tree' m' p').isSome → t.ignore (key m p) = false → t.ignore (key m' p') = false →
    t.mangle (key m p) = t.mangle (key m' p') → m = m' ∧ p = p'

theorem requests_snoc (caller : Caller) : ∀ (hist : List Str) (sc : Scope) (n : Str), (requests caller sc (hist ++ [n])).2 = (request caller (requests caller sc hist).2 n).2
  | [], _, _ => rfl
  | _ :: hist, _, n => requests_snoc caller hist _ n

theorem fresh_name {t : ParamsTree S V} {hist : List Str} {n : Str} (hist_ok : ∀ n ∈ hist, IsIdent n ∧ ¬EndsInNumber n) (hid : IsIdent n) (hn : ¬EndsInNumber n) (hnew : n ∉ hist) :
    request (some (t.name, sCall)) (requests (some (t.name, sCall)) .empty hist).2 n = (.ok (withPrefix (some (t.name, sCall)) n), (requests (some (t.name, sCall)) .empty (hist ++ [n])).2) := by
  have := kth_name (some (t.name, sCall)) hist n hist_ok hid hn
  rw [if_pos (List.count_eq_zero.mpr hnew)] at this
  rw [requests_snoc]
  exact Prod.ext this rfl

theorem assign_plain {t : ParamsTree S V} : ∀ {ids : List (Str × Str)} {hist : List Str}, (∀ n ∈ hist, IsIdent n ∧ ¬EndsInNumber n) →
    (∀ i ∈ ids, t.ignore (keyOf i) = false → IsIdent (t.mangle (keyOf i)) ∧ ¬EndsInNumber (t.mangle (keyOf i)) ∧ t.mangle (keyOf i) ∉ hist) →
    ids.Pairwise (fun i j => t.ignore (keyOf i) = false → t.ignore (keyOf j) = false → t.mangle (keyOf i) ≠ t.mangle (keyOf j)) →
    assign t (requests (some (t.name, sCall)) .empty hist).2 ids = ids.map fun i => if t.ignore (keyOf i) then none else some (plainName t i.1 i.2)
  | [], hist, _, _, _ => rfl
  | i :: ids, hist, hh, hi, hpw => by
    obtain ⟨p1, p2⟩ := List.pairwise_cons.mp hpw
    unfold assign
    rw [List.map_cons]
    cases hig : t.ignore (keyOf i) with
    | true =>
      rw [if_pos rfl, if_pos rfl, assign_plain hh (fun j hj => hi j (List.mem_cons_of_mem _ hj)) p2]
    | false =>
      obtain ⟨a1, a2, a3⟩ := hi i List.mem_cons_self hig
      rw [if_neg (by decide), if_neg (by decide), fresh_name hh a1 a2 a3]
      dsimp only
      rw [assign_plain (fun n hn => ?_) (fun j hj hjg => ?_) p2]
      · rfl
      · rcases List.mem_append.mp hn with hn | hn
        · exact hh n hn
        · rw [List.mem_singleton.mp hn]
          exact ⟨a1, a2⟩
      · obtain ⟨b1, b2, b3⟩ := hi j (List.mem_cons_of_mem _ hj) hjg
        refine ⟨b1, b2, fun k => ?_⟩
        rcases List.mem_append.mp k with k | k
        · exact b3 k
        · exact p1 j hj hig hjg (List.mem_singleton.mp k).symm

theorem nodup_ids : ∀ {tree : Params V}, Proper tree → ((leaves tree).map Prod.fst).Nodup
  | [], _ => List.nodup_nil
  | (m, d) :: tree, h => by
    rw [leaves_cons, List.map_append, List.nodup_append]
    have h1 := List.nodup_cons.mp h.1
    refine ⟨?_, nodup_ids ⟨h1.2, fun x hx => h.2 x (List.mem_cons_of_mem _ hx)⟩, ?_⟩
    · rw [List.map_map]
      have := h.2 _ (List.mem_cons_self (a := (m, d)) (l := tree))
      refine List.Nodup.of_map Prod.snd ?_
      rw [List.map_map]
      exact this
    · rintro i hi j hj rfl
      obtain ⟨x, hx, e⟩ := List.mem_map.mp hi
      obtain ⟨y, hy, e'⟩ := List.mem_map.mp hx
      obtain ⟨z, hz, e''⟩ := List.mem_map.mp hj
      unfold leaves at hz
      obtain ⟨w, hw, hz⟩ := List.mem_flatMap.mp hz
      obtain ⟨k, hk, e3⟩ := List.mem_map.mp hz
      apply h1.1
      refine List.mem_map.mpr ⟨w, hw, ?_⟩
      subst e' e3
      rw [← e] at e''
      have e4 : (w.1, k.1) = (m, y.1) := e''
      show w.1 = m
      injection e4

theorem mem_ids {tree : Params V} (hp : Proper tree) {i : Str × Str} : i ∈ (leaves tree).map Prod.fst ↔ (value tree i.1 i.2).isSome := by
  rw [List.mem_map]
  constructor
  · rintro ⟨⟨⟨m, p⟩, v⟩, hx, rfl⟩
    rw [(mem_leaves hp).mp hx]
    rfl
  · intro h
    obtain ⟨v, hv⟩ := Option.isSome_iff_exists.mp h
    exact ⟨(i, v), (mem_leaves hp).mpr hv, rfl⟩

theorem assign_apart {t : ParamsTree S V} {trees : List (Params V)} (ha : Apart t trees) {tree : Params V} (ht : tree ∈ trees) (hp : Proper tree) :
    assign t .empty ((leaves tree).map Prod.fst) = ((leaves tree).map Prod.fst).map fun i => if t.ignore (keyOf i) then none else some (plainName t i.1 i.2) := by
  refine assign_plain (hist := []) (fun n hn => by cases hn) (fun i hi hg => ?_) ?_
  · obtain ⟨a1, a2⟩ := ha.1 tree ht i.1 i.2 ((mem_ids hp).mp hi) hg
    exact ⟨a1, a2, List.not_mem_nil⟩
  · refine List.Pairwise.imp_of_mem (fun {i j} hi hj hne hgi hgj e => ?_) (nodup_ids hp)
    obtain ⟨e1, e2⟩ := ha.2 tree ht tree ht _ _ _ _ ((mem_ids hp).mp hi) ((mem_ids hp).mp hj) hgi hgj e
    exact hne (Prod.ext e1 e2)

theorem zip_map_mem {α β : Type} {f : α → β} : ∀ {l : List α} {a : α} {b : β}, (a, b) ∈ l.zip (l.map f) ↔ a ∈ l ∧ b = f a
  | [], a, b => by simp
  | x :: l, a, b => by
    rw [List.map_cons, List.zip_cons_cons, List.mem_cons, zip_map_mem (l := l), List.mem_cons, Prod.mk.injEq]
    constructor
    · rintro (⟨rfl, rfl⟩ | ⟨h, e⟩)
      · exact ⟨Or.inl rfl, rfl⟩
      · exact ⟨Or.inr h, e⟩
    · rintro ⟨rfl | h, e⟩
      · exact Or.inl ⟨rfl, e⟩
      · exact Or.inr ⟨h, e⟩

theorem named_apart {t : ParamsTree S V} {trees : List (Params V)} (ha : Apart t trees) {tree : Params V} (ht : tree ∈ trees) (hp : Proper tree) {m p q : Str} :
    Named t tree m p q ↔ (value tree m p).isSome ∧ t.ignore (key m p) = false ∧ q = plainName t m p := by
  unfold Named
  rw [assign_apart ha ht hp, zip_map_mem, mem_ids hp]
  refine and_congr_right fun _ => ?_
  show _ = (if t.ignore (key m p) then none else some (plainName t m p)) ↔ _
  cases t.ignore (key m p) with
  | true => simp
  | false => simp

theorem plainName_inj {t : ParamsTree S V} {m p m' p' : Str} (h : plainName t m p = plainName t m' p') : t.mangle (key m p) = t.mangle (key m' p') := by
  unfold plainName at h
  rw [withPrefix_some, withPrefix_some] at h
  have := List.append_cancel_left h
  injection this

/-- C82: also when the trees have their names in different orders, or other names, if different parameters have different names that are identifiers and do not end in a number. -/
theorem tree_any_order_partial {t : ParamsTree S V} {calls : List (Params V × Bool)} {tree out : Params V} {u : Bool} {st st' : Dict Str S} (hp : Proper tree) (hps : ∀ c ∈ calls, Proper c.1)
    (ha : Apart t (tree :: calls.map Prod.fst)) (h : t.after [] calls = .ok st) (h' : t.call st tree u = .ok (out, st')) :
    names out = names tree ∧ ∀ m p v, value tree m p = some v → (t.ignore (key m p) = true → value out m p = some v) ∧
      (t.ignore (key m p) = false → ∃ s v' s', alone t.leaf none (own calls m p) = .ok s ∧ t.leaf s v u = .ok (v', s') ∧ value out m p = some v') := by
  obtain ⟨c1, c2, c3⟩ := call_spec hp h'
  refine ⟨c1, fun m p v hv => ?_⟩
  obtain ⟨d1, d2, d3⟩ := c3 m p v hv
  refine ⟨d1, fun hi => ?_⟩
  have hq : Named t tree m p (plainName t m p) := (named_apart ha List.mem_cons_self hp).mpr ⟨by rw [hv]; rfl, hi, rfl⟩
  obtain ⟨_, v', s', e1, e2, e3⟩ := d3 _ hq
  have := after_spec (t := t) (R := fun m p q => (∃ tr ∈ tree :: calls.map Prod.fst, (value tr m p).isSome) ∧ t.ignore (key m p) = false ∧ q = plainName t m p) (fun m p m' p' q a b => by
      obtain ⟨⟨tr, a0, a1⟩, a2, a3⟩ := a
      obtain ⟨⟨tr', b0, b1⟩, b2, b3⟩ := b
      exact ha.2 tr a0 tr' b0 _ _ _ _ a1 b1 a2 b2 (plainName_inj (a3.symm.trans b3)))
    calls [] (fun c hc => ?_) h m p (plainName t m p) ⟨⟨tree, List.mem_cons_self, by rw [hv]; rfl⟩, hi, rfl⟩
  · exact ⟨_, v', s', this, e1, e2⟩
  · have hm : c.1 ∈ tree :: calls.map Prod.fst := List.mem_cons_of_mem _ (List.mem_map.mpr ⟨c, hc, rfl⟩)
    refine ⟨hps c hc, fun m p q k => ?_, fun m p q k k' => ?_⟩
    · obtain ⟨k1, k2, k3⟩ := (named_apart ha hm (hps c hc)).mp k
      exact ⟨⟨c.1, hm, k1⟩, k2, k3⟩
    · exact (named_apart ha hm (hps c hc)).mpr ⟨k', k.2.1, k.2.2⟩

/-! ### A call succeeds -/

theorem run_append_inv (t : ParamsTree S V) (u : Bool) : ∀ (a b : List ((Str × Str) × V)) (s : Scope × Dict Str S) {r} {s2 : Scope × Dict Str S},
    runLeaves t u (a ++ b) s = .ok (r, s2) → ∃ ra rb s1, runLeaves t u a s = .ok (ra, s1) ∧ runLeaves t u b s1 = .ok (rb, s2)
  | [], b, s, r, s2, h => ⟨[], r, s, rfl, h⟩
  | (i, v) :: a, b, s, r, s2, h => by
    obtain ⟨⟨v', s'⟩, g1, h⟩ := bind_ok_iff.mp h
    obtain ⟨⟨r', s''⟩, g2, h⟩ := bind_ok_iff.mp h
    cases h
    obtain ⟨ra, rb, s1, q1, q2⟩ := run_append_inv t u a b s' g2
    exact ⟨(i, v') :: ra, rb, s1, bind_ok_iff.mpr ⟨_, g1, bind_ok_iff.mpr ⟨_, q1, rfl⟩⟩, q2⟩

theorem params_of_run (t : ParamsTree S V) (u : Bool) (m : Str) : ∀ (d : Dict Str V) (s : Scope × Dict Str S) {r} {s' : Scope × Dict Str S}, runLeaves t u (d.map fun y => ((m, y.1), y.2)) s = .ok (r, s') →
    ∃ d', t.params u m d s = .ok (d', s')
  | [], s, r, s', h => by
    cases h
    exact ⟨[], rfl⟩
  | (p, v) :: d, s, r, s', h => by
    obtain ⟨⟨v', s1⟩, g1, h⟩ := bind_ok_iff.mp h
    obtain ⟨⟨r', s2⟩, g2, h⟩ := bind_ok_iff.mp h
    cases h
    obtain ⟨d', q⟩ := params_of_run t u m d s1 g2
    exact ⟨(p, v') :: d', bind_ok_iff.mpr ⟨_, g1, bind_ok_iff.mpr ⟨_, q, rfl⟩⟩⟩

theorem modules_of_run (t : ParamsTree S V) (u : Bool) : ∀ (tree : Params V) (s : Scope × Dict Str S) {r} {s' : Scope × Dict Str S}, runLeaves t u (leaves tree) s = .ok (r, s') → ∃ out, t.modules u tree s = .ok (out, s')
  | [], s, r, s', h => by
    cases h
    exact ⟨[], rfl⟩
  | (m, d) :: tree, s, r, s', h => by
    obtain ⟨ra, rb, s1, h1, h2⟩ := run_append_inv t u _ _ s h
    obtain ⟨d', q1⟩ := params_of_run t u m d s h1
    obtain ⟨out, q2⟩ := modules_of_run t u tree s1 h2
    exact ⟨(m, d') :: out, bind_ok_iff.mpr ⟨_, q1, bind_ok_iff.mpr ⟨_, q2, rfl⟩⟩⟩

theorem run_succeeds {t : ParamsTree S V} {u : Bool} (hl : ∀ s v, ∃ r, t.leaf s v u = .ok r) : ∀ {l : List ((Str × Str) × V)} {hist : List Str} (st : Dict Str S), (∀ n ∈ hist, IsIdent n ∧ ¬EndsInNumber n) →
    (∀ x ∈ l, t.ignore (keyOf x.1) = false → IsIdent (t.mangle (keyOf x.1)) ∧ ¬EndsInNumber (t.mangle (keyOf x.1)) ∧ t.mangle (keyOf x.1) ∉ hist) →
    l.Pairwise (fun x y => t.ignore (keyOf x.1) = false → t.ignore (keyOf y.1) = false → t.mangle (keyOf x.1) ≠ t.mangle (keyOf y.1)) →
    ∃ r, runLeaves t u l ((requests (some (t.name, sCall)) .empty hist).2, st) = .ok r
  | [], hist, st, _, _, _ => ⟨_, rfl⟩
  | (i, v) :: l, hist, st, hh, hi, hpw => by
    obtain ⟨p1, p2⟩ := List.pairwise_cons.mp hpw
    cases hig : t.ignore (keyOf i) with
    | true =>
      obtain ⟨⟨r, s'⟩, hr⟩ := run_succeeds hl st hh (fun j hj => hi j (List.mem_cons_of_mem _ hj)) p2
      refine ⟨_, bind_ok_iff.mpr ⟨(v, _), ?_, bind_ok_iff.mpr ⟨_, hr, rfl⟩⟩⟩
      unfold ParamsTree.maybe
      rw [hig, if_pos rfl]
    | false =>
      obtain ⟨a1, a2, a3⟩ := hi (i, v) List.mem_cons_self hig
      dsimp only at a1 a2 a3
      obtain ⟨⟨v', s'⟩, hv⟩ := hl (st.get? (withPrefix (some (t.name, sCall)) (t.mangle (keyOf i)))) v
      obtain ⟨⟨r, s''⟩, hr⟩ := run_succeeds hl (l := l) (hist := hist ++ [t.mangle (keyOf i)]) (st.set (withPrefix (some (t.name, sCall)) (t.mangle (keyOf i))) s') (fun n hn => by
        rcases List.mem_append.mp hn with hn | hn
        · exact hh n hn
        · rw [List.mem_singleton.mp hn]
          exact ⟨a1, a2⟩) (fun j hj hjg => by
        obtain ⟨b1, b2, b3⟩ := hi j (List.mem_cons_of_mem _ hj) hjg
        refine ⟨b1, b2, fun k => ?_⟩
        rcases List.mem_append.mp k with k | k
        · exact b3 k
        · exact p1 j hj hig hjg (List.mem_singleton.mp k).symm) p2
      refine ⟨_, bind_ok_iff.mpr ⟨(v', _, _), ?_, bind_ok_iff.mpr ⟨_, hr, rfl⟩⟩⟩
      unfold ParamsTree.maybe
      rw [hig, if_neg (by decide), fresh_name hh a1 a2 a3]
      dsimp only
      rw [hv]

/-- C82: under the same condition a call succeeds, if no module for a parameter fails. -/
theorem tree_succeeds_partial {t : ParamsTree S V} {tree : Params V} (hp : Proper tree) (ha : Apart t [tree]) (u : Bool) (hl : ∀ s v, ∃ r, t.leaf s v u = .ok r) (st : Dict Str S) :
    ∃ out st', t.call st tree u = .ok (out, st') := by
  have key : ∀ x ∈ leaves tree, (value tree x.1.1 x.1.2).isSome := fun x hx => (mem_ids hp).mp (List.mem_map.mpr ⟨x, hx, rfl⟩)
  obtain ⟨⟨r, s'⟩, hr⟩ := run_succeeds (t := t) (u := u) hl (l := leaves tree) (hist := []) st (fun n hn => by cases hn) (fun x hx hg => by
      obtain ⟨a1, a2⟩ := ha.1 tree (List.mem_singleton.mpr rfl) _ _ (key x hx) hg
      exact ⟨a1, a2, List.not_mem_nil⟩) (by
      have hn : (leaves tree).Pairwise fun x y => x.1 ≠ y.1 := List.pairwise_map.mp (nodup_ids hp)
      refine List.Pairwise.imp_of_mem (fun {x y} hx hy hne hgx hgy e => ?_) hn
      obtain ⟨e1, e2⟩ := ha.2 tree (List.mem_singleton.mpr rfl) tree (List.mem_singleton.mpr rfl) _ _ _ _ (key x hx) (key y hy) hgx hgy e
      exact hne (Prod.ext e1 e2))
  obtain ⟨out, ho⟩ := modules_of_run t u tree _ hr
  exact ⟨out, s'.2, bind_ok_iff.mpr ⟨_, ho, rfl⟩⟩

/-! ### Moving averages -/

section Ema
open Verif.Ema (EMA State)
variable {K : Type} [Field K]

theorem ema_leaf {name : Str} {decay : K} {z : Bool} {w : Int} {ig : Str → Bool} {e : EMA K} (he : EMA.make decay z w = .ok e) (s : Option (State K)) (v : K) (u : Bool) :
    (ema name decay z w ig).leaf s v u = .ok (e.call (s.getD State.empty) v u) := by
  show (EMA.make decay z w >>= _) = _
  rw [he]
  rfl

theorem ema_alone {name : Str} {decay : K} {z : Bool} {w : Int} {ig : Str → Bool} {e : EMA K} (he : EMA.make decay z w = .ok e) : ∀ (l : List (K × Bool)) (s : Option (State K)),
    ∃ s', alone (ema name decay z w ig).leaf s l = .ok s' ∧ s'.getD State.empty = e.after (s.getD State.empty) l
  | [], s => ⟨s, rfl, rfl⟩
  | (v, u) :: l, s => by
    obtain ⟨s', h1, h2⟩ := ema_alone he l (some (e.call (s.getD State.empty) v u).2)
    refine ⟨s', ?_, h2⟩
    unfold alone
    rw [ema_leaf he]
    exact h1

/-- C82: after calls with trees that have the same names in the same order, `EMAParamsTree` gives each parameter the moving average of its own values. -/
theorem ema_tree_same_order {name : Str} {decay : K} {z : Bool} {w : Int} {ig : Str → Bool} {e : EMA K} (he : EMA.make decay z w = .ok e) {calls : List (Params K × Bool)} {tree out : Params K} {u : Bool}
    {st st' : Dict Str (State K)} (hp : Proper tree) (hn : ∀ c ∈ calls, names c.1 = names tree) (h : (ema name decay z w ig).after [] calls = .ok st) (h' : (ema name decay z w ig).call st tree u = .ok (out, st')) :
    names out = names tree ∧ ∀ m p v, value tree m p = some v →
      value out m p = some (if ig (key m p) then v else (e.call (e.after State.empty (own calls m p)) v u).1) := by
  obtain ⟨h1, h2⟩ := tree_same_order hp hn h h'
  refine ⟨h1, fun m p v hv => ?_⟩
  obtain ⟨a, b⟩ := h2 m p v hv
  cases hi : ig (key m p) with
  | true => exact a hi
  | false =>
    obtain ⟨s, v', s', c1, c2, c3⟩ := b hi
    obtain ⟨s2, d1, d2⟩ := ema_alone (name := name) (ig := ig) he (own calls m p) none
    rw [c1] at d1
    cases d1
    rw [ema_leaf he, d2] at c2
    rw [c3, if_neg (by decide)]
    injection c2 with c2
    exact congrArg (fun x => some x.1) c2.symm

/-- C82: the same for trees in any order, if the names of the modules are apart. -/
theorem ema_tree_any_order_partial {name : Str} {decay : K} {z : Bool} {w : Int} {ig : Str → Bool} {e : EMA K} (he : EMA.make decay z w = .ok e) {calls : List (Params K × Bool)} {tree : Params K} {u : Bool}
    {st : Dict Str (State K)} (hp : Proper tree) (hps : ∀ c ∈ calls, Proper c.1) (ha : Apart (ema name decay z w ig) (tree :: calls.map Prod.fst)) (h : (ema name decay z w ig).after [] calls = .ok st) :
    ∃ out st', (ema name decay z w ig).call st tree u = .ok (out, st') ∧ names out = names tree ∧ ∀ m p v, value tree m p = some v →
      value out m p = some (if ig (key m p) then v else (e.call (e.after State.empty (own calls m p)) v u).1) := by
  have ha1 : Apart (ema name decay z w ig) [tree] := by
    refine ⟨fun tr htr => ha.1 tr (by rw [List.mem_singleton.mp htr]; exact List.mem_cons_self), fun tr htr tr' htr' => ha.2 tr ?_ tr' ?_⟩
    · rw [List.mem_singleton.mp htr]
      exact List.mem_cons_self
    · rw [List.mem_singleton.mp htr']
      exact List.mem_cons_self
  obtain ⟨out, st', h'⟩ := tree_succeeds_partial hp ha1 u (fun s v => ⟨_, ema_leaf he s v u⟩) st
  obtain ⟨h1, h2⟩ := tree_any_order_partial hp hps ha h h'
  refine ⟨out, st', h', h1, fun m p v hv => ?_⟩
  obtain ⟨a, b⟩ := h2 m p v hv
  cases hi : ig (key m p) with
  | true => exact a hi
  | false =>
    obtain ⟨s, v', s', c1, c2, c3⟩ := b hi
    obtain ⟨s2, d1, d2⟩ := ema_alone (name := name) (ig := ig) he (own calls m p) none
    rw [c1] at d1
    cases d1
    rw [ema_leaf he, d2] at c2
    rw [c3, if_neg (by decide)]
    injection c2 with c2
    exact congrArg (fun x => some x.1) c2.symm

end Ema

/-! ### Names that are apart -/

/-- A module name: identifiers, slashes and tildes. -/
def NameChar (c : Char) : Prop := IdChar c ∨ c = '/' ∨ c = '~'

theorem replace_append (c : Char) (r a b : Str) : replaceChar c r (a ++ b) = replaceChar c r a ++ replaceChar c r b := List.flatMap_append

theorem replace_absent {c : Char} {r : Str} : ∀ {s : Str}, c ∉ s → replaceChar c r s = s
  | [], _ => rfl
  | d :: s, h => by
    show (if d = c then r else [d]) ++ replaceChar c r s = _
    rw [if_neg fun e => h (by rw [e]; exact List.mem_cons_self), replace_absent fun k => h (List.mem_cons_of_mem _ k)]
    rfl

theorem replace_mem {c : Char} {r s : Str} {d : Char} (h : d ∈ replaceChar c r s) : d ∈ r ∨ (d ∈ s ∧ d ≠ c) := by
  obtain ⟨x, hx, hd⟩ := List.mem_flatMap.mp h
  split at hd
  · exact Or.inl hd
  · rw [List.mem_singleton.mp hd]
    exact Or.inr ⟨hx, by assumption⟩

theorem idChar_ne {c : Char} (h : IdChar c) : c ≠ '/' ∧ c ≠ '~' := by
  rcases h with h | h
  · constructor
    · rintro rfl
      exact absurd h (by decide)
    · rintro rfl
      exact absurd h (by decide)
  · subst h
    decide

/-- The name of the module for parameter `p` ends in the name of the parameter. -/
theorem mangle_key (t : ParamsTree S V) (m : Str) {p : Str} (hp : ∀ c ∈ p, IdChar c) : t.mangle (key m p) = t.mangle m ++ '_' :: '_' :: p := by
  have h1 : '/' ∉ p := fun k => (idChar_ne (hp _ k)).1 rfl
  have h2 : '~' ∉ p := fun k => (idChar_ne (hp _ k)).2 rfl
  unfold ParamsTree.mangle key
  rw [replace_append, show replaceChar '/' ['_', '_'] ('/' :: p) = '_' :: '_' :: replaceChar '/' ['_', '_'] p from rfl, replace_absent h1, replace_append,
    show replaceChar '~' t.tilde ('_' :: '_' :: p) = '_' :: '_' :: replaceChar '~' t.tilde p from rfl, replace_absent h2]

theorem mangle_chars {t : ParamsTree S V} (ht : ∀ c ∈ t.tilde, IdChar c) {m : Str} (hm : ∀ c ∈ m, NameChar c) : ∀ c ∈ t.mangle m, IdChar c := by
  intro c hc
  rcases replace_mem hc with h | ⟨h, hne⟩
  · exact ht c h
  · rcases replace_mem h with h | ⟨h, hne'⟩
    · rcases List.mem_cons.mp h with rfl | h
      · exact Or.inr rfl
      · rw [List.mem_singleton.mp h]
        exact Or.inr rfl
    · rcases hm c h with k | k | k
      · exact k
      · exact absurd k hne'
      · exact absurd k hne

/-- The names of the modules are identifiers without a number at the end, if the parameters' names are, and the modules' names do not start with a digit. -/
theorem mangle_ident {t : ParamsTree S V} (ht : ∀ c ∈ t.tilde, IdChar c) {m p : Str} (hm : ∀ c ∈ m, NameChar c) (hm0 : ∃ c rest, m = c :: rest ∧ c.isDigit = false) (ht0 : t.tilde.head? = some '_') (hp : IsIdent p) (hn : ¬EndsInNumber p) :
    IsIdent (t.mangle (key m p)) ∧ ¬EndsInNumber (t.mangle (key m p)) := by
  rw [mangle_key t m hp.2.1]
  refine ⟨⟨by simp, fun c hc => ?_, fun c hc => ?_⟩, ?_⟩
  · rcases List.mem_append.mp hc with h | h
    · exact mangle_chars ht hm c h
    · rcases List.mem_cons.mp h with rfl | h
      · exact Or.inr rfl
      · rcases List.mem_cons.mp h with rfl | h
        · exact Or.inr rfl
        · exact hp.2.1 c h
  · obtain ⟨a, rest, rfl, hd⟩ := hm0
    by_cases n1 : a = '/'
    · subst n1
      cases hc
      rfl
    by_cases n2 : a = '~'
    · subst n2
      change (t.tilde ++ t.mangle rest ++ _).head? = _ at hc
      cases htl : t.tilde with
      | nil =>
        rw [htl] at ht0
        cases ht0
      | cons y ys =>
        rw [htl] at ht0 hc
        cases ht0
        cases hc
        rfl
    have : t.mangle (a :: rest) = a :: t.mangle rest := by
      unfold ParamsTree.mangle replaceChar
      rw [List.flatMap_cons, if_neg n1, List.singleton_append, List.flatMap_cons, if_neg n2]
      rfl
    rw [this] at hc
    cases hc
    exact hd
  · rintro ⟨b, ds, hne, hd, e⟩
    obtain ⟨c, p', rfl⟩ : ∃ c p', p = c :: p' := by
      cases p with
      | nil => exact absurd rfl hp.1
      | cons c p' => exact ⟨c, p', rfl⟩
    have e' : (t.mangle m ++ ['_', '_']) ++ (c :: p') = (b ++ ['_']) ++ ds := by simpa using e
    rcases List.append_eq_append_iff.mp e' with ⟨x, h1, h2⟩ | ⟨x, h1, h2⟩
    · rcases List.eq_nil_or_concat x with rfl | ⟨y, z, rfl⟩
      · rw [List.nil_append] at h2
        rw [← h2] at hd
        have := hd c List.mem_cons_self
        rw [hp.2.2 c rfl] at this
        cases this
      · rw [List.concat_eq_append] at h1 h2
        rw [← List.append_assoc] at h1
        obtain ⟨_, hz⟩ := List.append_inj' h1 rfl
        cases hz
        exact hn ⟨y, ds, hne, hd, by rw [h2]; simp⟩
    · rw [h2] at hd
      have := hd c (List.mem_append_right _ List.mem_cons_self)
      rw [hp.2.2 c rfl] at this
      cases this

/-- Tildes only at the start of a part between slashes, underscores neither at the start or end of such a part nor next to each other. -/
def plainKey : Bool → Str → Bool
  | _, [] => true
  | f, c :: k =>
    if c = '/' then plainKey true k
    else if c = '~' then f && plainKey false k
    else if c = '_' then !f && (k.head?.all fun d => d != '_' && d != '/' && d != '~') && plainKey false k
    else plainKey false k

theorem mangle_slash (t : ParamsTree S V) (k : Str) : t.mangle ('/' :: k) = '_' :: '_' :: t.mangle k := rfl

theorem mangle_tilde (t : ParamsTree S V) (k : Str) : t.mangle ('~' :: k) = t.tilde ++ t.mangle k := rfl

theorem mangle_other (t : ParamsTree S V) {c : Char} (h1 : c ≠ '/') (h2 : c ≠ '~') (k : Str) : t.mangle (c :: k) = c :: t.mangle k := by
  unfold ParamsTree.mangle replaceChar
  rw [List.flatMap_cons, if_neg h1, List.singleton_append, List.flatMap_cons, if_neg h2]
  rfl

/-- The four ways in which a key with such names starts. -/
inductive Head (t : ParamsTree S V) : Bool → Str → Str → Prop where
  | nil (f) : Head t f [] []
  | slash (f k) (h : plainKey true k = true) : Head t f ('/' :: k) ('_' :: '_' :: t.mangle k)
  | tilde (k) (h : plainKey false k = true) : Head t true ('~' :: k) (t.tilde ++ t.mangle k)
  | under (k) (h : plainKey false k = true) (hd : ∀ d ∈ (t.mangle k).head?, d ≠ '_') : Head t false ('_' :: k) ('_' :: t.mangle k)
  | other (f c k) (h1 : c ≠ '_') (h : plainKey false k = true) : Head t f (c :: k) (c :: t.mangle k)

theorem head_of (t : ParamsTree S V) {f : Bool} : ∀ {k : Str}, plainKey f k = true → Head t f k (t.mangle k)
  | [], _ => .nil f
  | c :: k, h => by
    unfold plainKey at h
    by_cases h1 : c = '/'
    · subst h1
      rw [if_pos rfl] at h
      exact .slash f k h
    rw [if_neg h1] at h
    by_cases h2 : c = '~'
    · subst h2
      rw [if_pos rfl, Bool.and_eq_true] at h
      obtain ⟨rfl, h⟩ := h
      exact .tilde k h
    rw [if_neg h2] at h
    rw [mangle_other t h1 h2]
    by_cases h3 : c = '_'
    · subst h3
      rw [if_pos rfl, Bool.and_eq_true, Bool.and_eq_true] at h
      obtain ⟨⟨hf, hd⟩, h⟩ := h
      have hf : f = false := by simpa using hf
      subst hf
      refine .under k h fun d hdm => ?_
      cases k with
      | nil => cases hdm
      | cons e k =>
        have : ((e != '_' && e != '/') && e != '~') = true := hd
        simp only [Bool.and_eq_true, bne_iff_ne] at this
        obtain ⟨⟨e1, e2⟩, e3⟩ := this
        rw [mangle_other t e2 e3] at hdm
        cases hdm
        exact e1
    · rw [if_neg h3] at h
      exact .other f c k h3 h

/-- Keys made of such names can be told apart by the names of the modules. -/
theorem mangle_inj {t : ParamsTree S V} {x : Char} {xs : Str} (ht : t.tilde = '_' :: x :: xs) (hx : x ≠ '_') : ∀ (k k' : Str) {f : Bool}, plainKey f k = true → plainKey f k' = true → t.mangle k = t.mangle k' → k = k' := by
  have main : ∀ (n : Nat) (k k' : Str) {f : Bool}, k.length ≤ n → plainKey f k = true → plainKey f k' = true → t.mangle k = t.mangle k' → k = k' := by
    intro n
    induction n with
    | zero =>
      intro k k' f hn h h' e
      cases k with
      | cons _ _ => simp at hn
      | nil =>
        have h2 := head_of t h'
        change [] = t.mangle k' at e
        generalize t.mangle k' = z at h2 e
        cases h2 with
        | nil => rfl
        | tilde _ _ => rw [ht] at e; cases e
        | slash _ _ _ => cases e
        | under _ _ _ => cases e
        | other _ _ _ _ _ => cases e
    | succ n ih =>
      intro k k' f hn h h' e
      have h1 := head_of t h
      have h2 := head_of t h'
      generalize t.mangle k = z at h1 e
      generalize t.mangle k' = z' at h2 e
      cases h1 with
      | nil =>
        cases h2 with
        | nil => rfl
        | tilde _ _ => rw [ht] at e; cases e
        | slash _ _ _ => cases e
        | under _ _ _ => cases e
        | other _ _ _ _ _ => cases e
      | slash _ a ha =>
        cases h2 with
        | nil => cases e
        | tilde b hb =>
          rw [ht] at e
          injection e with _ e
          injection e with e _
          exact absurd e.symm hx
        | slash _ b hb =>
          injection e with _ e
          injection e with _ e
          rw [ih a b (Nat.le_of_succ_le_succ hn) ha hb e]
        | under b hb hd =>
          injection e with _ e
          exact absurd rfl (hd '_' (by rw [← e]; rfl))
        | other _ c b hc hb =>
          injection e with e _
          exact absurd e.symm hc
      | tilde a ha =>
        cases h2 with
        | nil => rw [ht] at e; cases e
        | tilde b hb =>
          rw [ih a b (Nat.le_of_succ_le_succ hn) ha hb (List.append_cancel_left e)]
        | slash _ b hb =>
          rw [ht] at e
          injection e with _ e
          injection e with e _
          exact absurd e hx
        | other _ c b hc hb =>
          rw [ht] at e
          injection e with e _
          exact absurd e.symm hc
      | under a ha hd =>
        cases h2 with
        | nil => cases e
        | slash _ b hb =>
          injection e with _ e
          exact absurd rfl (hd '_' (by rw [e]; rfl))
        | under b hb hd' =>
          injection e with _ e
          rw [ih a b (Nat.le_of_succ_le_succ hn) ha hb e]
        | other _ c b hc hb =>
          injection e with e _
          exact absurd e.symm hc
      | other _ c a hc ha =>
        cases h2 with
        | nil => cases e
        | tilde b hb =>
          rw [ht] at e
          injection e with e _
          exact absurd e hc
        | slash _ b hb =>
          injection e with e _
          exact absurd e hc
        | under b hb hd' =>
          injection e with e _
          exact absurd e hc
        | other _ c' b hc' hb =>
          injection e with e1 e
          rw [e1, ih a b (Nat.le_of_succ_le_succ hn) ha hb e]
  exact fun k k' f h h' e => main _ k k' (le_refl _) h h' e

theorem key_inj {m p m' p' : Str} (hp : '/' ∉ p) (hp' : '/' ∉ p') (h : key m p = key m' p') : m = m' ∧ p = p' := by
  unfold key at h
  rcases List.append_eq_append_iff.mp h with ⟨x, h1, h2⟩ | ⟨x, h1, h2⟩
  · cases x with
    | nil =>
      rw [List.append_nil] at h1
      injection h2 with _ h2
      exact ⟨h1.symm, h2⟩
    | cons c x =>
      injection h2 with _ h2
      exact absurd (by rw [h2]; simp) hp
  · cases x with
    | nil =>
      rw [List.append_nil] at h1
      injection h2 with _ h2
      exact ⟨h1, h2.symm⟩
    | cons c x =>
      injection h2 with _ h2
      exact absurd (by rw [h2]; simp) hp'

/-- The names that Haiku gives by default, and others like them: see `plainKey`; the parameter is an identifier that does not end in a number. -/
def Usual (m p : Str) : Prop := plainKey true (key m p) = true ∧ (∀ c ∈ m, NameChar c) ∧ (∃ c rest, m = c :: rest ∧ c.isDigit = false) ∧ IsIdent p ∧ ¬EndsInNumber p

/-- C82: trees with usual names meet the condition of `tree_any_order_partial`. -/
theorem usual_apart {t : ParamsTree S V} {x : Char} {xs : Str} (ht : t.tilde = '_' :: x :: xs) (hx : x ≠ '_') (ht' : ∀ c ∈ t.tilde, IdChar c) {trees : List (Params V)}
    (h : ∀ tree ∈ trees, ∀ m p, (value tree m p).isSome → t.ignore (key m p) = false → Usual m p) : Apart t trees := by
  refine ⟨fun tree ht0 m p hv hi => ?_, fun tree ht0 tree' ht1 m p m' p' hv hv' hi hi' e => ?_⟩
  · obtain ⟨_, u2, u3, u4, u5⟩ := h tree ht0 m p hv hi
    exact mangle_ident ht' u2 u3 (by rw [ht]; rfl) u4 u5
  · obtain ⟨u1, _, _, u4, _⟩ := h tree ht0 m p hv hi
    obtain ⟨w1, _, _, w4, _⟩ := h tree' ht1 m' p' hv' hi'
    exact key_inj (fun k => (idChar_ne (u4.2.1 _ k)).1 rfl) (fun k => (idChar_ne (w4.2.1 _ k)).1 rfl) (mangle_inj ht hx _ _ u1 w1 e)

/-! ### Concrete trees -/

/-- An `EMAParamsTree` with decay one half. -/
def tEma : ParamsTree (Ema.State ℚ) ℚ := ema "ema_params_tree".toList (1 / 2) true 0 fun _ => false

/-- Two modules whose averages have names that clash. -/
def clash : Params ℚ := [("a/b".toList, [("w".toList, 8)]), ("a__b".toList, [("w".toList, 0)])]

/-- The same parameters in the other order. -/
def clash' : Params ℚ := [("a__b".toList, [("w".toList, 0)]), ("a/b".toList, [("w".toList, 8)])]

theorem clash_proper : Proper clash := ⟨by decide, by decide⟩

/-- In the same order, each parameter has its own average. -/
example : ∃ out, (do let st ← tEma.after [] [(clash, true), (clash, true)]; let r ← tEma.call st clash true; .ok r.1) = (.ok out : Except Fail (Params ℚ)) ∧ value out "a/b".toList "w".toList = some 8 ∧
    value out "a__b".toList "w".toList = some 0 := ⟨clash, by decide +kernel⟩

/-- C82, C83: the same for the way in which `EMAParamsTree` and `SNParamsTree` write names. -/
theorem usual_modules_apart {K : Type} [Field K] [LinearOrder K] (name : Str) (decay eps : K) (z : Bool) (w n : Int) (rsqrt : K → K) (init : List Nat → Verif.Pool.Arr K) (ig : Str → Bool) :
    (∀ trees : List (Params K), (∀ tree ∈ trees, ∀ m p, (value tree m p).isSome → ig (key m p) = false → Usual m p) → Apart (ema name decay z w ig) trees) ∧
    (∀ trees : List (Params (Verif.Pool.Arr K)), (∀ tree ∈ trees, ∀ m p, (value tree m p).isSome → ig (key m p) = false → Usual m p) → Apart (sn name eps n rsqrt init ig) trees) :=
  ⟨fun _ h => usual_apart (xs := "ilde_".toList) (x := 't') rfl (by decide) (show ∀ c ∈ "_tilde_".toList, IdChar c by unfold IdChar; decide) h, fun _ h => usual_apart (xs := "ilde".toList) (x := 't') rfl (by decide) (show ∀ c ∈ "_tilde".toList, IdChar c by unfold IdChar; decide) h⟩

/-- C82: in another order, they get each other's averages: the average of a constant 8 becomes 8/3. -/
theorem ema_tree_order_swaps : ∃ out, (do let st ← tEma.after [] [(clash, true)]; let r ← tEma.call st clash' true; .ok r.1) = (.ok out : Except Fail (Params ℚ)) ∧ value out "a/b".toList "w".toList = some (16 / 3) ∧
    value out "a__b".toList "w".toList = some (8 / 3) := ⟨[("a__b".toList, [("w".toList, 8 / 3)]), ("a/b".toList, [("w".toList, 16 / 3)])], by decide +kernel⟩

/-- C82: a tree of parameters as a network may have it can be rejected because names clash. -/
theorem ema_tree_rejects : tEma.call [] [("a/b".toList, [("w".toList, 8)]), ("a__b".toList, [("w".toList, 0), ("w_1".toList, 0)])] true = .error (.naming .nameNotUnique) := by
  rfl

theorem ident_of {s : Str} (h : validIdentifier s = true) (hl : s.getLast? ≠ some '\n') : IsIdent s := (validIdentifier_iff_partial s hl).mp h

theorem usual_of {m p : Str} (h1 : plainKey true (key m p) = true) (h2 : m.all fun c => c.isAlphanum || c == '_' || c == '/' || c == '~') (h3 : (m.head?.any fun c => !c.isDigit) = true) (h4 : validIdentifier p = true)
    (h5 : p.getLast? ≠ some '\n') (h6 : splitNum p = none) : Usual m p := by
  refine ⟨h1, fun c hc => ?_, ?_, ident_of h4 h5, (splitNum_none_iff h5).mp h6⟩
  · have := List.all_eq_true.mp h2 c hc
    simp only [Bool.or_eq_true, beq_iff_eq] at this
    unfold NameChar IdChar
    tauto
  · cases m with
    | nil => cases h3
    | cons c rest =>
      refine ⟨c, rest, rfl, ?_⟩
      simpa using h3

/-- A network as it is usually built, and the same in another order. -/
def net : Params ℚ := [("mlp/~/linear_0".toList, [("w".toList, 4), ("b".toList, 2)]), ("mlp/~/linear_1".toList, [("w".toList, 1)]), ("~".toList, [("offset".toList, 7)])]

/-- The same modules in another order. -/
def net' : Params ℚ := [("~".toList, [("offset".toList, 7)]), ("mlp/~/linear_1".toList, [("w".toList, 3)]), ("mlp/~/linear_0".toList, [("b".toList, 2), ("w".toList, 4)])]

theorem value_mem {tree : Params V} {m p : Str} (h : (value tree m p).isSome) : (m, p) ∈ (leaves tree).map Prod.fst := by
  unfold value at h
  rcases hd : tree.get? m with _ | d
  · rw [hd] at h
    cases h
  · rw [hd] at h
    obtain ⟨v, hv⟩ := Option.isSome_iff_exists.mp h
    exact List.mem_map.mpr ⟨((m, p), v), List.mem_flatMap.mpr ⟨(m, d), Dict.mem_of_get? hd, List.mem_map.mpr ⟨(p, v), Dict.mem_of_get? hv, rfl⟩⟩, rfl⟩

theorem net_usual : ∀ tree ∈ [net', net], ∀ m p, (value tree m p).isSome → tEma.ignore (key m p) = false → Usual m p := by
  intro tree ht m p hv _
  have : (m, p) ∈ [("mlp/~/linear_0".toList, "w".toList), ("mlp/~/linear_0".toList, "b".toList), ("mlp/~/linear_1".toList, "w".toList), ("~".toList, "offset".toList)] := by
    have hm := value_mem hv
    have key : ∀ tree ∈ [net', net], ∀ i ∈ (leaves tree).map Prod.fst, i ∈ [("mlp/~/linear_0".toList, "w".toList), ("mlp/~/linear_0".toList, "b".toList), ("mlp/~/linear_1".toList, "w".toList), ("~".toList, "offset".toList)] := by
      decide +kernel
    exact key tree ht _ hm
  simp only [List.mem_cons, List.not_mem_nil, or_false, Prod.mk.injEq] at this
  rcases this with ⟨rfl, rfl⟩ | ⟨rfl, rfl⟩ | ⟨rfl, rfl⟩ | ⟨rfl, rfl⟩ <;> exact usual_of (by decide +kernel) (by decide +kernel) (by decide +kernel) (by decide +kernel) (by decide +kernel) (by decide +kernel)

theorem net_apart : Apart tEma [net', net] := (usual_modules_apart _ _ 0 _ _ 0 id (fun s => ⟨s, fun _ => 0⟩) _).1 _ net_usual

/-- The average of 1 and 3, however the trees are ordered. -/
example {st : Dict Str (Ema.State ℚ)} (h : tEma.after [] [(net, true)] = .ok st) : ∃ out st', tEma.call st net' true = .ok (out, st') ∧ value out "mlp/~/linear_1".toList "w".toList = some (7 / 3) := by
  obtain ⟨out, st', h1, _, h3⟩ := ema_tree_any_order_partial (name := "ema_params_tree".toList) (decay := (1 / 2 : ℚ)) (z := true) (w := 0) (ig := fun _ => false) (e := ⟨1 / 2, true, 0⟩) rfl
    (calls := [(net, true)]) (tree := net') (u := true) ⟨by decide, by decide⟩ (by intro c hc; rw [List.mem_singleton.mp hc]; exact ⟨by decide, by decide⟩) net_apart h
  refine ⟨out, st', h1, (h3 _ _ 3 (by decide +kernel)).trans ?_⟩
  rw [if_neg (by decide)]
  decide +kernel

/-! ### Spectral normalisation of a tree -/

section SN
open Verif.Pool (Arr)
variable {K : Type} [Field K] [LinearOrder K] [IsStrictOrderedRing K]

/-- C83: `SNParamsTree` fails on every tree with a scalar or vector, such as the bias of a layer, that is not ignored. -/
theorem sn_tree_vector {name : Str} {eps : K} {n : Int} {rsqrt : K → K} {init : List Nat → Arr K} {ig : Str → Bool} {tree : Params (Arr K)} (hp : Proper tree) {m p : Str} {v : Arr K} (hv : value tree m p = some v)
    (hi : ig (key m p) = false) (hr : v.shape.length ≤ 1) (st : Dict Str (Spectral.State K)) (u : Bool) : ∃ e, (sn name eps n rsqrt init ig).call st tree u = .error e := by
  rcases h : (sn name eps n rsqrt init ig).call st tree u with e | ⟨out, st'⟩
  · exact ⟨e, rfl⟩
  · obtain ⟨_, _, c3⟩ := call_spec hp h
    obtain ⟨_, d2, d3⟩ := c3 m p v hv
    obtain ⟨q, hq⟩ := d2 hi
    obtain ⟨_, v', s', e1, _⟩ := d3 q hq
    have : (sn name eps n rsqrt init ig).leaf (st.get? q) v u = .error .value := Spectral.spectral_norm_scalar _ rsqrt init _ v hr u false
    rw [this] at e1
    cases e1

/-- C83: when a call succeeds, after any earlier calls, the tree keeps its names, ignored parameters come back as they are, and every other parameter is divided by one number of its own, at most its first singular value. -/
theorem sn_tree_normalised {name : Str} {eps : K} (he : 0 < eps) {n : Int} {rsqrt : K → K} (hr : Spectral.IsRsqrt rsqrt) {init : List Nat → Arr K} {ig : Str → Bool} {tree out : Params (Arr K)} (hp : Proper tree)
    {st st' : Dict Str (Spectral.State K)} {u : Bool} (h : (sn name eps n rsqrt init ig).call st tree u = .ok (out, st')) :
    names out = names tree ∧ ∀ m p v, value tree m p = some v → (ig (key m p) = true → value out m p = some v) ∧
      (ig (key m p) = false → ∃ v' sigma lead k, value out m p = some v' ∧ v.shape = lead ++ [k] ∧ v'.shape = v.shape ∧ (∀ i, Reset.Valid v.shape i → v'.val i = v.val i / sigma) ∧ 0 ≤ sigma ∧
        ∀ L, Spectral.NormBound lead k v L → sigma ^ 2 ≤ L) := by
  obtain ⟨c1, _, c3⟩ := call_spec hp h
  refine ⟨c1, fun m p v hv => ?_⟩
  obtain ⟨d1, d2, d3⟩ := c3 m p v hv
  refine ⟨d1, fun hi => ?_⟩
  obtain ⟨q, hq⟩ := d2 hi
  obtain ⟨_, v', s', e1, e2, _⟩ := d3 q hq
  rcases List.eq_nil_or_concat v.shape with h0 | ⟨lead, k, hk⟩
  · have : (sn name eps n rsqrt init ig).leaf (st.get? q) v u = .error .value := Spectral.spectral_norm_scalar _ rsqrt init _ v (by rw [h0]; exact Nat.zero_le _) u false
    rw [this] at e1
    cases e1
  · rw [List.concat_eq_append] at hk
    obtain ⟨sigma, f1, f2, f3, f4, _⟩ := Spectral.spectral_norm_estimate (m := ⟨eps, n⟩) hr he hk e1
    exact ⟨v', sigma, lead, k, e2, hk, f1, f2, f3, f4⟩

/-- A bias of zeros. -/
example (st : Dict Str (Spectral.State ℝ)) : ∃ e, (sn "sn".toList (1 / 10000) 1 Spectral.rs Spectral.ones fun _ => false).call st [("linear".toList, [("w".toList, Spectral.diag), ("b".toList, ⟨[2], fun _ => 0⟩)])] true = .error e :=
  sn_tree_vector (m := "linear".toList) (p := "b".toList) ⟨by decide, by simp [Dict.keys]⟩ rfl rfl (by decide) st true

example {st st' : Dict Str (Spectral.State ℝ)} {out : Params (Arr ℝ)}
    (h : (sn "sn".toList (1 / 10000) 1 Spectral.rs Spectral.ones fun k => k.getLast? == some 'b').call st [("linear".toList, [("w".toList, Spectral.diag), ("b".toList, ⟨[2], fun _ => 0⟩)])] true = .ok (out, st')) :
    ∃ v' sigma, value out "linear".toList "w".toList = some v' ∧ v'.val [0, 0] = 2 / sigma ∧ sigma ^ 2 ≤ 4 := by
  obtain ⟨_, h2⟩ := sn_tree_normalised (by norm_num) Spectral.real_rsqrt ⟨by decide, by simp [Dict.keys]⟩ h
  obtain ⟨v', sigma, lead, k, a1, a2, a3, a4, a5, a6⟩ := (h2 "linear".toList "w".toList Spectral.diag rfl).2 (by decide)
  have : lead = [2] ∧ k = 2 := by
    have := List.append_inj' (show [2] ++ [2] = lead ++ [k] from a2) rfl
    exact ⟨this.1.symm, by simpa using this.2.symm⟩
  obtain ⟨rfl, rfl⟩ := this
  refine ⟨v', sigma, a1, (a4 [0, 0] (.cons (by decide) (.cons (by decide) .nil))).trans rfl, a6 4 Spectral.diag_bound⟩

end SN

end Verif.Props.PTree
