import Verif.Model.Lift
import Verif.Props.Params

/-!
# `hk.lift` (C37)
-/

set_option linter.unusedVariables false

namespace Verif.Props.Lift
open Verif Names Frame
open Verif.Props.Context Verif.Props.Control Verif.Props.Params Verif.Lift Verif.Transform

/-! ### Specification vocabulary -/

/-- The bundle is below module `n`. -/
def Below (n b : Str) : Prop := ∃ k, b = n ++ '/' :: k

/-- The module object `m` has the name `n`. -/
def Named (w : World) (m : ModId) (n : Str) : Prop := ∃ subs, w.heap[m]? = some ⟨some n, subs⟩

/-- A structure as Python dicts can be: no key twice. -/
def IsDict (d : PDict) : Prop := (d.map Prod.fst).Nodup ∧ ∀ p ∈ d, (p.2.map Prod.fst).Nodup

/-- `w` with other parameters in the current frame. -/
def withParams (P : PDict) (w : World) : World := onTop (fun F => { F with params := P }) w

/-! ### Dictionaries -/

theorem fq_inj {n k k' : Str} (h : fqName n k = fqName n k') : k = k' := by
  have := List.append_cancel_left h
  injection this

theorem isPrefix_iff {n b : Str} : (n ++ ['/']).isPrefixOf b = true ↔ Below n b := by
  rw [List.isPrefixOf_iff_prefix]
  constructor
  · rintro ⟨k, rfl⟩
    exact ⟨k, by simp⟩
  · rintro ⟨k, rfl⟩
    exact ⟨k, by simp⟩

theorem drop_fq (n k : Str) : (fqName n k).drop (n ++ ['/']).length = k := by
  have : fqName n k = (n ++ ['/']) ++ k := by simp [fqName]
  rw [this, List.drop_left]

theorem pack_eq (n : Str) : ∀ (src dst : PDict), src.keys.Nodup → (∀ k ∈ src.keys, fqName n k ∉ dst.keys) →
    packIntoDict n src dst = (.ok (), dst ++ src.map fun p => (fqName n p.1, p.2)) := by
  intro src
  induction src with
  | nil => intro dst _ _; simp [packIntoDict]
  | cons p src ih =>
    obtain ⟨k, v⟩ := p
    intro dst hn hd
    have hk : fqName n k ∉ dst.keys := hd k (by simp [Dict.keys])
    unfold packIntoDict
    dsimp only
    rw [if_neg (by rw [Dict.has_iff]; exact hk), Dict.set_append hk]
    simp only [Dict.keys, List.map_cons, List.nodup_cons] at hn
    rw [ih _ hn.2]
    · simp
    · intro j hj
      have h1 := hd j (by simp only [Dict.keys, List.map_cons, List.mem_cons]; exact .inr hj)
      simp only [Dict.keys, List.map_append, List.mem_append, not_or]
      refine ⟨h1, ?_⟩
      simp only [List.map_cons, List.map_nil, List.mem_singleton]
      intro e
      have := fq_inj e
      subst this
      exact hn.1 hj

theorem pack_fails (n : Str) : ∀ (src dst : PDict), (∃ k ∈ src.keys, fqName n k ∈ dst.keys) →
    (packIntoDict n src dst).1 = .error .liftKeyExists := by
  intro src
  induction src with
  | nil => rintro dst ⟨k, hk, _⟩; cases hk
  | cons p src ih =>
    obtain ⟨k, v⟩ := p
    rintro dst ⟨j, hj, hjd⟩
    unfold packIntoDict
    dsimp only
    by_cases hk : dst.has (fqName n k) = true
    · rw [if_pos hk]
    · rw [if_neg hk]
      have hne : j ≠ k := by rintro rfl; exact hk (by rw [Dict.has_iff]; exact hjd)
      simp only [Dict.keys, List.map_cons, List.mem_cons] at hj
      refine ih _ ⟨j, (hj.resolve_left hne), ?_⟩
      exact (Dict.keys_prefix_set dst _ v).subset hjd

/-- Looking up in the unpacked structure. -/
theorem unpack_props (n : Str) (d : PDict) (hn : d.keys.Nodup) :
    (unpackFromDict (n ++ ['/']) d).keys.Nodup ∧ ∀ k, (unpackFromDict (n ++ ['/']) d).get? k = d.get? (fqName n k) := by
  have key : ∀ (l out : PDict), l.keys.Nodup → out.keys.Nodup → (∀ k ∈ out.keys, fqName n k ∉ l.keys) →
      (l.foldl (fun out p => if (n ++ ['/']).isPrefixOf p.1 then Dict.set out (p.1.drop (n ++ ['/']).length) p.2 else out) out).keys.Nodup ∧
      ∀ k, (l.foldl (fun out p => if (n ++ ['/']).isPrefixOf p.1 then Dict.set out (p.1.drop (n ++ ['/']).length) p.2 else out) out).get? k =
        (out.get? k).or (l.get? (fqName n k)) := by
    intro l
    induction l with
    | nil => intro out _ h _; exact ⟨h, fun k => by simp⟩
    | cons p l ih =>
      obtain ⟨b, v⟩ := p
      intro out hl ho hd
      rw [List.foldl_cons]
      dsimp only
      simp only [Dict.keys, List.map_cons, List.nodup_cons] at hl
      by_cases hb : (n ++ ['/']).isPrefixOf b = true
      · rw [if_pos hb]
        obtain ⟨k0, rfl⟩ := isPrefix_iff.1 hb
        have hdrop : (n ++ '/' :: k0).drop (n ++ ['/']).length = k0 := drop_fq n k0
        rw [hdrop]
        have hk0 : k0 ∉ out.keys := fun h => hd k0 h (by simp [Dict.keys, fqName])
        have := ih (out.set k0 v) hl.2 (Dict.nodup_set ho _ _) (by
          intro k hk
          rw [Dict.set_append hk0] at hk
          simp only [Dict.keys, List.map_append, List.mem_append, List.map_cons, List.map_nil, List.mem_singleton] at hk
          rcases hk with hk | rfl
          · exact fun h => hd k hk (by simp only [Dict.keys, List.map_cons, List.mem_cons]; exact .inr h)
          · exact hl.1)
        refine ⟨this.1, fun k => ?_⟩
        rw [this.2, Dict.get?_set, Dict.get?_cons]
        show _ = (Dict.get? out k).or (if fqName n k0 = fqName n k then some v else Dict.get? l (fqName n k))
        by_cases hk : k0 = k
        · subst hk
          rw [if_pos rfl, if_pos rfl]
          have := (Dict.get?_eq_none_iff out k0).2 hk0
          rw [this]; rfl
        · rw [if_neg hk, if_neg (fun e => hk (fq_inj (n := n) e))]
      · rw [if_neg hb]
        have := ih out hl.2 ho fun k hk h => hd k hk (by simp only [Dict.keys, List.map_cons, List.mem_cons]; exact .inr h)
        refine ⟨this.1, fun k => ?_⟩
        rw [this.2, Dict.get?_cons, if_neg]
        rintro rfl
        exact hb (isPrefix_iff.2 ⟨k, rfl⟩)
  have := key d [] hn (by simp [Dict.keys]) (by simp [Dict.keys])
  exact ⟨this.1, fun k => by rw [unpackFromDict, this.2]; simp⟩

theorem unpack_append (n : Str) (src dst : PDict) (hs : src.keys.Nodup) (hd : ∀ p ∈ dst, ¬ Below n p.1) :
    unpackFromDict (n ++ ['/']) (dst ++ src.map fun p => (fqName n p.1, p.2)) = src := by
  unfold unpackFromDict
  rw [List.foldl_append]
  have h1 : ∀ (l out : PDict), (∀ p ∈ l, ¬ Below n p.1) →
      l.foldl (fun out p => if (n ++ ['/']).isPrefixOf p.1 then Dict.set out (p.1.drop (n ++ ['/']).length) p.2 else out) out = out := by
    intro l
    induction l with
    | nil => intros; rfl
    | cons p l ih =>
      intro out h
      rw [List.foldl_cons, if_neg (by rw [isPrefix_iff]; exact h p (by simp))]
      exact ih out fun q hq => h q (by simp [hq])
  rw [h1 dst [] hd, List.foldl_map]
  have h2 : ∀ (l out : PDict),
      l.foldl (fun out p => if (n ++ ['/']).isPrefixOf (fqName n p.1) then Dict.set out ((fqName n p.1).drop (n ++ ['/']).length) p.2 else out) out =
      l.foldl (fun out p => out.set p.1 p.2) out := by
    intro l
    induction l with
    | nil => intros; rfl
    | cons p l ih =>
      intro out
      rw [List.foldl_cons, List.foldl_cons, if_pos (show (n ++ ['/']).isPrefixOf (fqName n p.1) = true from isPrefix_iff.2 ⟨p.1, rfl⟩), drop_fq]
      exact ih _
  rw [h2]
  exact Dict.ofItems_of_nodup hs

theorem get?_pack (n : Str) (src dst : PDict) (b : Str) :
    Dict.get? (dst ++ src.map fun p => (fqName n p.1, p.2)) b = (dst.get? b).or (Dict.get? (src.map fun p => (fqName n p.1, p.2)) b) :=
  Dict.get?_append _ _ _

theorem get?_pack_below (n : Str) : ∀ (src : PDict) (k : Str), Dict.get? (src.map fun p => (fqName n p.1, p.2)) (fqName n k) = src.get? k := by
  intro src k
  induction src with
  | nil => rfl
  | cons p src ih =>
    obtain ⟨j, v⟩ := p
    rw [List.map_cons, Dict.get?_cons, Dict.get?_cons, ih]
    by_cases h : j = k
    · rw [if_pos h, if_pos (by rw [h])]
    · rw [if_neg h, if_neg (fun e => h (fq_inj e))]

theorem get?_pack_other (n : Str) (src : PDict) (b : Str) (h : ¬ Below n b) : Dict.get? (src.map fun p => (fqName n p.1, p.2)) b = none := by
  rw [Dict.get?_eq_none_iff]
  intro hb
  simp only [Dict.keys, List.map_map, List.mem_map, Function.comp] at hb
  obtain ⟨p, _, rfl⟩ := hb
  exact h ⟨_, rfl⟩

/-! ### In init -/

theorem isDict_wf {d : PDict} : IsDict d ↔ WF2 d := by
  constructor
  · rintro ⟨h1, h2⟩
    exact ⟨h1, fun b i h => h2 _ (Dict.mem_of_get? h)⟩
  · intro h
    exact ⟨h.1, fun p hp => h.mem hp⟩

theorem liftPack_eq (m : ModId) (src : PDict) (s : LW) : (Prog.op (.liftPack m src)).run localMach s =
    localMach.top (fun E => liftPack m src E >>- fun _ => M.pure .unit) s := rfl

theorem liftUnpack_eq (m : ModId) (s : LW) : (Prog.op (.liftUnpack m)).run localMach s =
    localMach.top (fun E => liftUnpack m E >>- fun d => M.pure (match d with | some d => .bundle d | none => .none)) s := rfl

theorem moduleName_named {s : LW} {tl rest} {m : ModId} {n : Str} (h : Named (toWorld s tl rest) m n) : moduleName m s.loc = .ok n := by
  obtain ⟨subs, h⟩ := h
  have h : s.loc.heap[m]? = some ⟨some n, subs⟩ := h
  unfold moduleName
  rw [h]

/-- C37 packing stores every inner bundle below the name of the lifting module, leaves every other bundle as it is, and changes nothing else. -/
theorem pack_stores {w : World} (hw : InTransform w) (ha : InInit w) (m : ModId) (n : Str) (hm : Named w m n) (src : PDict) (hs : IsDict src)
    (hd : ∀ p ∈ topParams w, ¬ Below n p.1) :
    ∃ P, (Prog.op (.liftPack m src)).run stackMach w = (.ok .unit, withParams P w) ∧
      (∀ k, P.get? (n ++ '/' :: k) = src.get? k) ∧ ∀ b, ¬ Below n b → P.get? b = (topParams w).get? b := by
  obtain ⟨F, rest, r, tl, hF, hr⟩ := hw
  have hc := toWorld_curr hF hr
  generalize curr F r w = s at hc
  subst hc
  have hf : s.env.frozen = false := by obtain ⟨G, hG, h⟩ := ha; cases hG; exact h
  have hd : ∀ p ∈ s.loc.params, ¬ Below n p.1 := hd
  have hwf := isDict_wf.1 hs
  have hk : liftPack m src s.env s.loc = (.ok (), { s.loc with params := s.loc.params ++ src.map fun p => (fqName n p.1, p.2) }) := by
    unfold liftPack
    rw [moduleName_named hm]
    dsimp only
    rw [hf, dict2_of_wf hwf, pack_eq n src s.loc.params hs.1]
    · rfl
    · intro k _ hk
      simp only [Dict.keys, List.mem_map] at hk
      obtain ⟨p, hp, he⟩ := hk
      exact hd p hp ⟨k, he⟩
  refine ⟨s.loc.params ++ src.map fun p => (fqName n p.1, p.2), ?_, fun k => ?_, fun b hb => ?_⟩
  · rw [(ref_run _).1, liftPack_eq, top_eq, M.bind, hk]
    rfl
  · rw [get?_pack]
    have : s.loc.params.get? (n ++ '/' :: k) = none := by
      rw [Dict.get?_eq_none_iff]
      intro hk
      simp only [Dict.keys, List.mem_map] at hk
      obtain ⟨p, hp, he⟩ := hk
      exact hd p hp ⟨k, he⟩
    rw [this]
    exact get?_pack_below n src k
  · rw [get?_pack, get?_pack_other n src b hb]
    exact Option.or_none

/-- C37 when a bundle to be stored exists already, packing raises instead of overwriting it. -/
theorem pack_occupied {w : World} (hw : InTransform w) (ha : InInit w) (m : ModId) (n : Str) (hm : Named w m n) (src : PDict) (hs : IsDict src)
    (k : Str) (hk : k ∈ src.map Prod.fst) (hd : n ++ '/' :: k ∈ (topParams w).map Prod.fst) :
    ((Prog.op (.liftPack m src)).run stackMach w).1 = .error .liftKeyExists := by
  obtain ⟨F, rest, r, tl, hF, hr⟩ := hw
  have hc := toWorld_curr hF hr
  generalize curr F r w = s at hc
  subst hc
  have hf : s.env.frozen = false := by obtain ⟨G, hG, h⟩ := ha; cases hG; exact h
  have h1 := pack_fails n src s.loc.params ⟨k, hk, hd⟩
  rw [(ref_run _).1, liftPack_eq, top_eq, M.bind]
  have hk : liftPack m src s.env s.loc = ((packIntoDict n src s.loc.params).1, { s.loc with params := (packIntoDict n src s.loc.params).2 }) := by
    unfold liftPack
    rw [moduleName_named hm]
    dsimp only
    rw [hf, dict2_of_wf (isDict_wf.1 hs)]
    rfl
  rw [hk, h1]

/-- C37 packing never changes a bundle that exists already, whatever it packs and however it ends. -/
theorem pack_keeps {w : World} (hw : InTransform w) (m : ModId) (src : PDict) (b : Str) (i : Dict Str Arr) (hb : (topParams w).get? b = some i) :
    (topParams ((Prog.op (.liftPack m src)).run stackMach w).2).get? b = some i := by
  obtain ⟨F, rest, r, tl, hF, hr⟩ := hw
  have hc := toWorld_curr hF hr
  generalize curr F r w = s at hc
  subst hc
  have hb : s.loc.params.get? b = some i := hb
  rw [(ref_run _).1, liftPack_eq, top_eq]
  have : (liftPack m src s.env s.loc).2.params.get? b = some i := by
    unfold liftPack
    split
    · exact hb
    · split
      · exact hb
      · exact packIntoDict_get? _ _ _ _ _ hb
  show Dict.get? ((liftPack m src s.env >>- fun _ => M.pure Val.unit) s.loc).2.params b = some i
  rw [M.bind]
  rcases hq : liftPack m src s.env s.loc with ⟨e | u, l⟩ <;> rw [hq] at this <;> exact this

/-! ### In apply -/

/-- C37 unpacking returns exactly the bundles below the name of the lifting module, with the name removed, and changes nothing. -/
theorem unpack_returns {w : World} (hw : InTransform w) (ht : Tidy w) (ha : InApply w) (m : ModId) (n : Str) (hm : Named w m n) :
    ∃ d, (Prog.op (.liftUnpack m)).run stackMach w = (.ok (.bundle d), w) ∧ (d.map Prod.fst).Nodup ∧
      ∀ k, d.get? k = (topParams w).get? (n ++ '/' :: k) := by
  obtain ⟨F, rest, r, tl, hF, hr⟩ := hw
  have hc := toWorld_curr hF hr
  generalize curr F r w = s at hc
  subst hc
  rw [tidy_toWorld] at ht
  have hf : s.env.frozen = true := by obtain ⟨G, hG, h⟩ := ha; cases hG; exact h
  obtain ⟨h1, h2⟩ := unpack_props n s.loc.params ht.1.1
  refine ⟨_, ?_, h1, h2⟩
  have hk : liftUnpack m s.env s.loc = (.ok (some (unpackFromDict (n ++ ['/']) s.loc.params)), s.loc) := by
    unfold liftUnpack
    rw [moduleName_named hm]
    dsimp only
    rw [if_pos hf]
  rw [(ref_run _).1, liftUnpack_eq, top_eq, M.bind, hk]
  rfl

/-- C37 there and back: what was packed in init under the name `n` is what unpacking under `n` returns in an apply that gets these parameters (in
the same order even). -/
theorem pack_unpack {w w1 w2 : World} (hw : InTransform w) (ha : InInit w) (m m' : ModId) (n : Str) (hm : Named w m n) (src : PDict) (hs : IsDict src)
    (hd : ∀ p ∈ topParams w, ¬ Below n p.1) (h1 : (Prog.op (.liftPack m src)).run stackMach w = (.ok .unit, w1))
    (hw2 : InTransform w2) (ha2 : InApply w2) (hm2 : Named w2 m' n) (hp : topParams w2 = topParams w1) :
    (Prog.op (.liftUnpack m')).run stackMach w2 = (.ok (.bundle src), w2) := by
  have hP : topParams w1 = topParams w ++ src.map fun p => (fqName n p.1, p.2) := by
    obtain ⟨F, rest, r, tl, hF, hr⟩ := hw
    have hc := toWorld_curr hF hr
    generalize curr F r w = s at hc
    subst hc
    have hf : s.env.frozen = false := by obtain ⟨G, hG, h⟩ := ha; cases hG; exact h
    have hk : liftPack m src s.env s.loc = (.ok (), { s.loc with params := s.loc.params ++ src.map fun p => (fqName n p.1, p.2) }) := by
      unfold liftPack
      rw [moduleName_named hm]
      dsimp only
      rw [hf, dict2_of_wf (isDict_wf.1 hs), pack_eq n src s.loc.params hs.1]
      · rfl
      · intro k _ hk
        simp only [Dict.keys, List.mem_map] at hk
        obtain ⟨p, hp, he⟩ := hk
        exact hd p hp ⟨k, he⟩
    rw [(ref_run _).1, liftPack_eq, top_eq, M.bind, hk] at h1
    injection h1 with _ h1
    rw [← h1]
    rfl
  have hP2 := hp.trans hP
  have hu := unpack_append n src (topParams w) hs.1 hd
  rw [← hP2] at hu
  obtain ⟨F, rest, r, tl, hF, hr⟩ := hw2
  have hc := toWorld_curr hF hr
  generalize curr F r w2 = s at hc
  subst hc
  have hf : s.env.frozen = true := by obtain ⟨G, hG, h⟩ := ha2; cases hG; exact h
  have hk : liftUnpack m' s.env s.loc = (.ok (some src), s.loc) := by
    unfold liftUnpack
    rw [moduleName_named hm2]
    dsimp only
    rw [if_pos hf]
    have hu : unpackFromDict (n ++ ['/']) s.loc.params = src := hu
    rw [hu]
  rw [(ref_run _).1, liftUnpack_eq, top_eq, M.bind, hk]
  rfl

/-- C37 in init, calling the lifted function runs the inner init function, stores its parameters and returns them. -/
theorem lift_call_init {w w1 : World} (hw : InTransform w) (ha : InInit w) (m : ModId) (n : Str) (hm : Named w m n) (initFn : Val → Prog) (args : Val)
    (src : PDict) (hs : IsDict src) (hi : (initFn args).run stackMach w = (.ok (.bundle src), w1)) (hw1 : InTransform w1) (ha1 : InInit w1)
    (hm1 : Named w1 m n) (hd : ∀ p ∈ topParams w1, ¬ Below n p.1) :
    ∃ P, (callBody m initFn args).run stackMach w = (.ok (.bundle src), withParams P w1) ∧
      (∀ k, P.get? (n ++ '/' :: k) = src.get? k) ∧ ∀ b, ¬ Below n b → P.get? b = (topParams w1).get? b := by
  obtain ⟨P, h1, h2, h3⟩ := pack_stores hw1 ha1 m n hm1 src hs hd
  refine ⟨P, ?_, h2, h3⟩
  have hu : (Prog.op (.liftUnpack m)).run stackMach w = (.ok .none, w) := by
    obtain ⟨F, rest, r, tl, hF, hr⟩ := hw
    have hc := toWorld_curr hF hr
    generalize curr F r w = s at hc
    subst hc
    have hf : s.env.frozen = false := by obtain ⟨G, hG, h⟩ := ha; cases hG; exact h
    have hk : liftUnpack m s.env s.loc = (.ok none, s.loc) := by
      unfold liftUnpack
      rw [moduleName_named hm]
      dsimp only
      rw [hf]
      rfl
    rw [(ref_run _).1, liftUnpack_eq, top_eq, M.bind, hk]
    rfl
  show ((Prog.op (.liftUnpack m)).run stackMach >>- _) w = _
  rw [M.bind, hu]
  show ((initFn args).run stackMach >>- _) w = _
  rw [M.bind, hi]
  show ((Prog.op (.liftPack m src)).run stackMach >>- _) w1 = _
  rw [M.bind, h1]
  rfl

/-- C37 in apply, calling the lifted function returns the parameters stored below its name, without running the inner init function. -/
theorem lift_call_apply {w : World} (hw : InTransform w) (ht : Tidy w) (ha : InApply w) (m : ModId) (n : Str) (hm : Named w m n) (initFn : Val → Prog)
    (args : Val) :
    ∃ d, (callBody m initFn args).run stackMach w = (.ok (.bundle d), w) ∧ (d.map Prod.fst).Nodup ∧
      ∀ k, d.get? k = (topParams w).get? (n ++ '/' :: k) := by
  obtain ⟨d, h1, h2, h3⟩ := unpack_returns hw ht ha m n hm
  refine ⟨d, ?_, h2, h3⟩
  show ((Prog.op (.liftUnpack m)).run stackMach >>- _) w = _
  rw [M.bind, h1]
  rfl

/-! ### Examples -/

/-- An init with a lifting module named "lifted" and a parameter outside. -/
def lifting : World := { World.initial with
  frames := [World.frameOf { Ctx.new (some [("~".toList, [("w".toList, ⟨[], .f32, [3]⟩)])]) (some []) none with frozen := false }]
  heap := [⟨some "lifted".toList, some []⟩] }

/-- Inner parameters: two modules. -/
def inner : PDict := [("a".toList, [("w".toList, ⟨[], .f32, [1]⟩), ("b".toList, ⟨[], .f32, [2]⟩)]), ("a/b".toList, [])]

example : InTransform lifting ∧ InInit lifting ∧ Named lifting 0 "lifted".toList ∧ IsDict inner ∧
    ∀ p ∈ topParams lifting, ¬ Below "lifted".toList p.1 := by
  refine ⟨⟨_, _, _, _, rfl, rfl⟩, ⟨_, rfl, rfl⟩, ⟨_, rfl⟩, by unfold IsDict; decide +kernel, ?_⟩
  intro p hp hb
  obtain ⟨k, hk⟩ := hb
  have hp : p ∈ [("~".toList, [("w".toList, (⟨[], .f32, [3]⟩ : Arr))])] := hp
  rw [List.mem_singleton] at hp
  subst hp
  exact absurd hk (by intro h; injection h with h; revert h; decide)

/-- The transformed function calls `hk.lift` of an init function with two parameters and returns what it gets. -/
def outer : List Val → Prog := fun _ => .bind (getP "w") fun _ =>
  lift "lifted".toList (fun _ => (transform fun _ => .bind (getP "a") fun _ => getP "b").init [.none]) .unit

/-- Inner and outer parameters of the example. -/
def outerParams : PDict := [("~".toList, [("w".toList, ⟨[], .f32, [0]⟩)]),
  ("lifted/~".toList, [("a".toList, ⟨[], .f32, [0]⟩), ("b".toList, ⟨[], .f32, [0]⟩)])]

example : (((transform outer).init [.none]).run stackMach World.initial).1 = .ok (.bundle outerParams) ∧
    (((transform outer).apply [.bundle outerParams, .none]).run stackMach World.initial).1 =
      .ok (.bundle [("~".toList, [("a".toList, ⟨[], .f32, [0]⟩), ("b".toList, ⟨[], .f32, [0]⟩)])]) := by decide +kernel

end Verif.Props.Lift
