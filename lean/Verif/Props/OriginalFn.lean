import Verif.Model.OriginalFn

/-!
# The function behind a transformed function
-/

namespace Verif.Props.OriginalFn
open Verif.OriginalFn

/-! ### What is claimed -/

/-- What a call is made with. -/
def argOf : Call → Arg
  | .transform f => f
  | .transformWithState f => f
  | .withoutState f => f
  | .withoutApplyRng f => f

/-- The function that the calls leading to the result number `k` started from. -/
inductive Source (cs : List Call) : Nat → Arg → Prop where
  | user {k c n} : cs[k]? = some c → argOf c = .user n → Source cs k (.user n)
  | init {k c j} : cs[k]? = some c → argOf c = .initOf j → Source cs k (.initOf j)
  | apply {k c j} : cs[k]? = some c → argOf c = .applyOf j → Source cs k (.applyOf j)
  | back {k c j s} : cs[k]? = some c → argOf c = .result j → Source cs j s → Source cs k s

/-- Every call names earlier results only, and only results are given to `without_state` and `without_apply_rng`. -/
def Sensible (cs : List Call) : Prop := ∀ k c, cs[k]? = some c →
  (match argOf c with | .user _ => True | .result j => j < k | .initOf j => j < k | .applyOf j => j < k) ∧
  (match c with | .withoutState f => ∃ j, f = .result j | .withoutApplyRng f => ∃ j, f = .result j | _ => True)

/-! ### Lemmas -/

/-- Made before the call number `n`. -/
def Old (n : Nat) : Fn → Prop
  | .user _ => True
  | .init k => k < n
  | .apply k => k < n
  | .innerInit k => k < n
  | .innerApply k => k < n

theorem Old.mono {n m : Nat} (h : n ≤ m) {f : Fn} (ho : Old n f) : Old m f := by
  cases f <;> simp only [Old] at * <;> omega

theorem getAttr_cons (a : Attrs) (f g : Fn) (v : Value) : getAttr ((f, v) :: a) g = if f = g then some v else getAttr a g := by
  unfold getAttr
  rw [List.find?_cons]
  by_cases h : f = g
  · subst h; simp
  · have : (f == g) = false := beq_eq_false_iff_ne.2 h
    simp [h, this]

theorem Source.mono {cs : List Call} {k : Nat} {s : Arg} (h : Source cs k s) (ds : List Call) : Source (cs ++ ds) k s := by
  have aux : ∀ {k c}, cs[k]? = some c → (cs ++ ds)[k]? = some c := fun {k c} h => by
    rw [List.getElem?_append_left (List.getElem?_eq_some_iff.1 h).1, h]
  induction h with
  | user h e => exact .user (aux h) e
  | init h e => exact .init (aux h) e
  | apply h e => exact .apply (aux h) e
  | back h e _ ih => exact .back (aux h) e ih

theorem value_mono {res : List Pair} {s : Arg} {v : Value} (h : s.value res = some v) (r : List Pair) : s.value (res ++ r) = some v := by
  have aux : ∀ {k p}, res[k]? = some p → (res ++ r)[k]? = some p := fun {k c} h => by
    rw [List.getElem?_append_left (List.getElem?_eq_some_iff.1 h).1, h]
  cases s with
  | user n => exact h
  | result k | initOf k | applyOf k =>
    simp only [Arg.value, Option.map_eq_some_iff] at h ⊢
    obtain ⟨p, hp, e⟩ := h
    exact ⟨p, aux hp, e⟩

/-- A result whose functions are known and lead to the function of the source. -/
structure Good (cs : List Call) (res : List Pair) (a : Attrs) (n k : Nat) (p : Pair) : Prop where
  init : Old n p.init ∧ ∀ m, p.init ≠ .user m
  apply : Old n p.apply ∧ ∀ m, p.apply ≠ .user m
  source : ∃ s f, Source cs k s ∧ s.value res = some (.fn f) ∧ getAttr a p.init = some (.fn f) ∧ getAttr a p.apply = some (.fn f)

structure Inv (cs : List Call) (res : List Pair) (a : Attrs) : Prop where
  length : res.length = cs.length
  users : ∀ n, getAttr a (.user n) = none
  good : ∀ k p, res[k]? = some p → Good cs res a cs.length k p

/-- What one call does. -/
structure Step (cs : List Call) (res : List Pair) (a : Attrs) (c : Call) (p : Pair) (a' : Attrs) : Prop where
  keeps : ∀ f, Old cs.length f → getAttr a' f = getAttr a f
  new : Good (cs ++ [c]) res a' (cs.length + 1) cs.length p

theorem Source.of_arg {cs : List Call} {c : Call} {x : Arg} (hx : argOf c = x) {k : Nat} (hk : cs[k]? = some c) {res : List Pair} {f : Fn} (hv : x.value res = some (.fn f)) : Source cs k x := by
  cases x with
  | user n => exact .user hk hx
  | initOf j => exact .init hk hx
  | applyOf j => exact .apply hk hx
  | result j =>
    simp only [Arg.value, Option.map_eq_some_iff] at hv
    obtain ⟨_, _, e⟩ := hv
    cases e

theorem last (cs : List Call) (c : Call) : (cs ++ [c])[cs.length]? = some c := by simp

/-- What tying in to an argument gives. -/
theorem tie {cs : List Call} {res : List Pair} {a : Attrs} (h : Inv cs res a) {c : Call} {x : Arg} (hx : argOf c = x) {v : Value} (hv : x.value res = some v) :
    ∃ s f, Source (cs ++ [c]) cs.length s ∧ s.value res = some (.fn f) ∧ (∀ p, v = .pair p → getAttr a p.init = some (.fn f)) ∧
      ∀ i ap, tieIn v i ap a = some ((ap, .fn f) :: (i, .fn f) :: a) := by
  cases v with
  | fn f => exact ⟨x, f, Source.of_arg hx (last cs c) hv, hv, fun p e => (by cases e), fun i ap => rfl⟩
  | pair p =>
    cases x with
    | user n => cases hv
    | initOf j | applyOf j =>
      simp only [Arg.value, Option.map_eq_some_iff] at hv
      obtain ⟨_, _, e⟩ := hv
      cases e
    | result j =>
      simp only [Arg.value, Option.map_eq_some_iff] at hv
      obtain ⟨q, hq, e⟩ := hv
      cases e
      obtain ⟨s, f, hs, hf, hi, -⟩ := (h.good j p hq).source
      exact ⟨s, f, .back (last cs c) hx (hs.mono _), hf, fun q e => (by cases e; exact hi), fun i ap => by rw [tieIn, hi]; rfl⟩

theorem pair_arg {cs : List Call} {res : List Pair} {a : Attrs} (h : Inv cs res a) {x : Arg} {p : Pair} (hv : x.value res = some (.pair p)) : Old cs.length p.init ∧ ∀ m, p.init ≠ .user m := by
  cases x with
  | user n => cases hv
  | initOf j | applyOf j =>
    simp only [Arg.value, Option.map_eq_some_iff] at hv
    obtain ⟨_, _, e⟩ := hv
    cases e
  | result j =>
    simp only [Arg.value, Option.map_eq_some_iff] at hv
    obtain ⟨q, hq, e⟩ := hv
    cases e
    exact (h.good j p hq).init

theorem old_ne {n : Nat} {f : Fn} (h : Old n f) : Fn.init n ≠ f ∧ Fn.apply n ≠ f ∧ Fn.innerInit n ≠ f ∧ Fn.innerApply n ≠ f := by
  refine ⟨?_, ?_, ?_, ?_⟩ <;> rintro rfl <;> exact absurd h (Nat.lt_irrefl n)

theorem step {cs : List Call} {res : List Pair} {a : Attrs} (h : Inv cs res a) {c : Call} {p : Pair} {a' : Attrs} (hc : c.run res cs.length a = some (p, a')) : Step cs res a c p a' := by
  have fresh : ∀ {s f}, Source (cs ++ [c]) cs.length s → s.value res = some (.fn f) → p = ⟨p.withState, .init cs.length, .apply cs.length⟩ →
      getAttr a' (.init cs.length) = some (.fn f) → getAttr a' (.apply cs.length) = some (.fn f) → Good (cs ++ [c]) res a' (cs.length + 1) cs.length p := by
    intro s f hs hf hp hi ha
    rw [hp]
    exact ⟨⟨Nat.lt_succ_self _, fun m => (by intro e; cases e)⟩, ⟨Nat.lt_succ_self _, fun m => (by intro e; cases e)⟩, s, f, hs, hf, hi, ha⟩
  cases c with
  | transform x =>
    simp only [Call.run, Option.bind_eq_some_iff] at hc
    obtain ⟨v, hv, hc⟩ := hc
    obtain ⟨s, f, hs, hf, -, ht⟩ := tie h (c := .transform x) rfl hv
    unfold OriginalFn.transform OriginalFn.transformWithState at hc
    rw [ht] at hc
    simp only [Option.map_some, OriginalFn.withoutState, tieIn, getAttr_cons, reduceCtorEq, if_true, if_false, Option.some.injEq, Prod.mk.injEq] at hc
    obtain ⟨rfl, rfl⟩ := hc
    refine ⟨fun g hg => ?_, fresh hs hf rfl ?_ ?_⟩
    · obtain ⟨h1, h2, h3, h4⟩ := old_ne hg
      simp only [getAttr_cons, if_neg h1, if_neg h2, if_neg h3, if_neg h4]
    · simp [getAttr_cons]
    · simp [getAttr_cons]
  | transformWithState x =>
    simp only [Call.run, Option.bind_eq_some_iff] at hc
    obtain ⟨v, hv, hc⟩ := hc
    obtain ⟨s, f, hs, hf, -, ht⟩ := tie h (c := .transformWithState x) rfl hv
    unfold OriginalFn.transformWithState at hc
    rw [ht] at hc
    simp only [Option.map_some, Option.some.injEq, Prod.mk.injEq] at hc
    obtain ⟨rfl, rfl⟩ := hc
    refine ⟨fun g hg => ?_, fresh hs hf rfl ?_ ?_⟩
    · obtain ⟨h1, h2, h3, h4⟩ := old_ne hg
      simp only [getAttr_cons, if_neg h1, if_neg h2]
    · simp [getAttr_cons]
    · simp [getAttr_cons]
  | withoutState x =>
    simp only [Call.run, Option.bind_eq_some_iff] at hc
    obtain ⟨v, hv, hc⟩ := hc
    obtain ⟨s, f, hs, hf, -, ht⟩ := tie h (c := .withoutState x) rfl hv
    unfold OriginalFn.withoutState at hc
    cases v with
    | fn _ => cases hc
    | pair q =>
      dsimp only at hc
      rw [ht] at hc
      simp only [Option.map_some, Option.some.injEq, Prod.mk.injEq] at hc
      obtain ⟨rfl, rfl⟩ := hc
      refine ⟨fun g hg => ?_, fresh hs hf rfl ?_ ?_⟩
      · obtain ⟨h1, h2, h3, h4⟩ := old_ne hg
        simp only [getAttr_cons, if_neg h1, if_neg h2]
      · simp [getAttr_cons]
      · simp [getAttr_cons]
  | withoutApplyRng x =>
    simp only [Call.run, Option.bind_eq_some_iff] at hc
    obtain ⟨v, hv, hc⟩ := hc
    obtain ⟨s, f, hs, hf, hq, ht⟩ := tie h (c := .withoutApplyRng x) rfl hv
    unfold OriginalFn.withoutApplyRng at hc
    cases v with
    | fn _ => cases hc
    | pair q =>
      dsimp only at hc
      rw [ht] at hc
      simp only [Option.map_some, Option.some.injEq, Prod.mk.injEq] at hc
      obtain ⟨rfl, rfl⟩ := hc
      obtain ⟨ho, hu⟩ := pair_arg h hv
      have hq := hq q rfl
      refine ⟨fun g hg => ?_, ⟨ho.mono (Nat.le_succ _), hu⟩, ⟨Nat.lt_succ_self _, fun m => (by intro e; cases e)⟩, s, f, hs, hf, ?_, ?_⟩
      · obtain ⟨h1, h2, h3, h4⟩ := old_ne hg
        rw [getAttr_cons, if_neg h2, getAttr_cons]
        split
        · next e => rw [← e, hq]
        · rfl
      · show getAttr _ q.init = _
        rw [getAttr_cons, if_neg (old_ne ho).2.1, getAttr_cons, if_pos rfl]
      · simp [getAttr_cons]

theorem inv_step {cs : List Call} {res : List Pair} {a : Attrs} (h : Inv cs res a) {c : Call} {p : Pair} {a' : Attrs} (hs : Step cs res a c p a') : Inv (cs ++ [c]) (res ++ [p]) a' := by
  refine ⟨by simp [h.length], fun n => (by rw [hs.keeps (.user n) trivial, h.users]), fun k q hk => ?_⟩
  rw [List.length_append, List.length_singleton]
  by_cases hl : k < res.length
  · rw [List.getElem?_append_left hl] at hk
    obtain ⟨hi, ha, s, f, h1, h2, h3, h4⟩ := h.good k q hk
    exact ⟨⟨hi.1.mono (Nat.le_succ _), hi.2⟩, ⟨ha.1.mono (Nat.le_succ _), ha.2⟩, s, f, h1.mono _, value_mono h2 _, by rw [hs.keeps _ hi.1, h3], by rw [hs.keeps _ ha.1, h4]⟩
  · have hk' := (List.getElem?_eq_some_iff.1 hk).1
    rw [List.length_append, List.length_singleton] at hk'
    obtain rfl : k = res.length := by omega
    simp only [List.getElem?_concat_length, Option.some.injEq] at hk
    subst hk
    rw [h.length]
    obtain ⟨hi, ha, s, f, h1, h2, h3, h4⟩ := hs.new
    exact ⟨hi, ha, s, f, h1, value_mono h2 _, h3, h4⟩

theorem inv_run : ∀ (cs ds : List Call) (res : List Pair) (a : Attrs) (res' : List Pair) (a' : Attrs), Inv cs res a → runCalls ds res a = some (res', a') →
    Inv (cs ++ ds) res' a' ∧ (∃ r, res' = res ++ r) ∧ ∀ f, Old cs.length f → getAttr a' f = getAttr a f
  | cs, [], res, a, res', a', h, hr => by
    cases hr
    exact ⟨by rwa [List.append_nil], ⟨[], (List.append_nil _).symm⟩, fun _ _ => rfl⟩
  | cs, c :: ds, res, a, res', a', h, hr => by
    rw [runCalls, h.length] at hr
    rcases hc : c.run res cs.length a with _ | ⟨p, a1⟩
    · rw [hc] at hr; cases hr
    · rw [hc] at hr
      have hs := step h hc
      obtain ⟨h1, ⟨r, h2⟩, h3⟩ := inv_run (cs ++ [c]) ds (res ++ [p]) a1 res' a' (inv_step h hs) hr
      refine ⟨by rwa [List.append_assoc, List.singleton_append] at h1, ⟨p :: r, by rw [h2, List.append_assoc, List.singleton_append]⟩, fun f hf => ?_⟩
      rw [h3 f (hf.mono (by simp)), hs.keeps f hf]

theorem inv_nil : Inv [] [] [] := ⟨rfl, fun _ => rfl, fun _ _ h => by cases h⟩

theorem Source.unique {cs : List Call} {k : Nat} {s t : Arg} (h : Source cs k s) (h' : Source cs k t) : s = t := by
  induction h generalizing t with
  | user h e => cases h' <;> simp_all
  | init h e => cases h' <;> simp_all
  | apply h e => cases h' <;> simp_all
  | @back k c j s h e _ ih => cases h' with
    | user h' e' => simp_all
    | init h' e' => simp_all
    | apply h' e' => simp_all
    | @back _ _ j' _ h' e' h2 =>
      rw [h] at h'
      cases h'
      rw [e] at e'
      cases e'
      exact ih h2

/-! ### Claims -/

/-- C186: after any calls of the four functions, `get_original_fn` of a result, of its `init` and of its `apply` is the function that the calls leading to it started from. -/
theorem original_of_result (cs : List Call) (res : List Pair) (a : Attrs) (h : runCalls cs [] [] = some (res, a)) (k : Nat) (p : Pair) (hp : res[k]? = some p) :
    ∃ s f, Source cs k s ∧ (∀ t, Source cs k t → t = s) ∧ s.value res = some (.fn f) ∧
      getOriginal a (.pair p) = some (.fn f) ∧ getOriginal a (.fn p.init) = some (.fn f) ∧ getOriginal a (.fn p.apply) = some (.fn f) := by
  obtain ⟨hi, -, -⟩ := inv_run [] cs [] [] res a inv_nil h
  obtain ⟨-, -, s, f, h1, h2, h3, h4⟩ := hi.good k p hp
  exact ⟨s, f, h1, fun t ht => ht.unique h1, h2, h3, h3, h4⟩

/-- C186: later calls change it for no earlier result, although `without_apply_rng` sets the attribute of a function that exists. -/
theorem original_stays (cs ds : List Call) (res res' : List Pair) (a a' : Attrs) (h : runCalls cs [] [] = some (res, a)) (h' : runCalls ds res a = some (res', a')) (k : Nat) (p : Pair) (hp : res[k]? = some p) :
    getOriginal a' (.pair p) = getOriginal a (.pair p) ∧ getOriginal a' (.fn p.init) = getOriginal a (.fn p.init) ∧ getOriginal a' (.fn p.apply) = getOriginal a (.fn p.apply) := by
  obtain ⟨hi, -, -⟩ := inv_run [] cs [] [] res a inv_nil h
  obtain ⟨-, -, hk⟩ := inv_run ([] ++ cs) ds res a res' a' hi h'
  obtain ⟨h1, h2, -⟩ := hi.good k p hp
  exact ⟨hk _ h1.1, hk _ h1.1, hk _ h2.1⟩

/-- C186: functions of the user never get the attribute. -/
theorem original_of_user (cs : List Call) (res : List Pair) (a : Attrs) (h : runCalls cs [] [] = some (res, a)) (n : Nat) : getOriginal a (.fn (.user n)) = none :=
  (inv_run [] cs [] [] res a inv_nil h).1.users n

/-- C186: no sensible calls fail for want of the attribute. -/
theorem calls_succeed (cs : List Call) (h : Sensible cs) : ∃ res a, runCalls cs [] [] = some (res, a) ∧ res.length = cs.length := by
  have aux : ∀ (ds done : List Call) (res : List Pair) (a : Attrs), Inv done res a → Sensible (done ++ ds) → ∃ res' a', runCalls ds res a = some (res', a') := by
    intro ds
    induction ds with
    | nil => exact fun done res a _ _ => ⟨res, a, rfl⟩
    | cons c ds ih =>
      intro done res a hi hs
      have hc := hs done.length c (by simp)
      rw [← hi.length] at hc
      have look : ∀ j, j < res.length → ∃ p, res[j]? = some p := fun j hj => ⟨_, List.getElem?_eq_getElem hj⟩
      have hv : ∃ v, (argOf c).value res = some v ∧ ((∃ j, argOf c = .result j) → ∃ p, v = .pair p) := by
        rcases ha : argOf c with n | j | j | j
        · exact ⟨_, rfl, fun ⟨_, e⟩ => by cases e⟩
        all_goals
          rw [ha] at hc
          obtain ⟨p, hp⟩ := look j hc.1
          simp only [Arg.value, hp, Option.map_some]
        · exact ⟨_, rfl, fun _ => ⟨p, rfl⟩⟩
        · exact ⟨_, rfl, fun ⟨_, e⟩ => by cases e⟩
        · exact ⟨_, rfl, fun ⟨_, e⟩ => by cases e⟩
      obtain ⟨v, hv, hpair⟩ := hv
      have hr : ∃ p a', c.run res res.length a = some (p, a') := by
        obtain ⟨s, f, -, -, -, ht⟩ := tie hi (c := c) rfl hv
        cases c with
        | transform x =>
          simp only [argOf] at hv
          simp only [Call.run, hv, Option.bind_some, OriginalFn.transform, OriginalFn.transformWithState, ht, Option.map_some, OriginalFn.withoutState]
          simp only [tieIn, getAttr_cons, reduceCtorEq, if_true, if_false, Option.map_some]
          exact ⟨_, _, rfl⟩
        | transformWithState x =>
          simp only [argOf] at hv
          simp only [Call.run, hv, Option.bind_some, OriginalFn.transformWithState, ht, Option.map_some]
          exact ⟨_, _, rfl⟩
        | withoutState x =>
          obtain ⟨j, rfl⟩ := hc.2
          obtain ⟨p, rfl⟩ := hpair ⟨j, rfl⟩
          simp only [argOf] at hv
          simp only [Call.run, hv, Option.bind_some, OriginalFn.withoutState, ht, Option.map_some]
          exact ⟨_, _, rfl⟩
        | withoutApplyRng x =>
          obtain ⟨j, rfl⟩ := hc.2
          obtain ⟨p, rfl⟩ := hpair ⟨j, rfl⟩
          simp only [argOf] at hv
          simp only [Call.run, hv, Option.bind_some, OriginalFn.withoutApplyRng, ht, Option.map_some]
          exact ⟨_, _, rfl⟩
      obtain ⟨p, a', hr⟩ := hr
      rw [runCalls, hr]
      rw [hi.length] at hr
      exact ih (done ++ [c]) (res ++ [p]) a' (inv_step hi (step hi hr)) (by rwa [List.append_assoc, List.singleton_append])
  obtain ⟨res, a, hr⟩ := aux cs [] [] [] inv_nil h
  exact ⟨res, a, hr, (inv_run [] cs [] [] res a inv_nil hr).1.length⟩

/-! ### Cases -/

/-- Two functions; the `init` of a result is transformed in turn. -/
def calls : List Call := [.transform (.user 7), .withoutApplyRng (.result 0), .withoutState (.result 1), .transformWithState (.user 8), .transform (.initOf 1), .withoutApplyRng (.result 4)]

theorem calls_sensible : Sensible calls := by
  intro k c h
  rcases k with _ | _ | _ | _ | _ | _ | k
  case _ => cases h; exact ⟨trivial, trivial⟩
  case _ => cases h; exact ⟨by show _ < _; decide, _, rfl⟩
  case _ => cases h; exact ⟨by show _ < _; decide, _, rfl⟩
  case _ => cases h; exact ⟨trivial, trivial⟩
  case _ => cases h; exact ⟨by show _ < _; decide, trivial⟩
  case _ => cases h; exact ⟨by show _ < _; decide, _, rfl⟩
  case _ => cases h

example : Sensible calls ∧ (runCalls calls [] []).map (fun r => r.1.map fun p => getOriginal r.2 (.pair p)) =
    some [some (.fn (.user 7)), some (.fn (.user 7)), some (.fn (.user 7)), some (.fn (.user 8)), some (.fn (.init 0)), some (.fn (.init 0))] :=
  ⟨calls_sensible, by decide⟩

example : Source calls 2 (.user 7) := .back rfl rfl (.back rfl rfl (.user rfl rfl))

/-- The second part is run after the first. -/
example : ((runCalls (calls.take 1) [] []).bind fun r => runCalls (calls.drop 1) r.1 r.2).isSome ∧ (runCalls (calls.take 1) [] []).isSome := by decide

end Verif.Props.OriginalFn
