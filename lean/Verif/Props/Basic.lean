import Mathlib.Tactic.Linarith
import Mathlib.Tactic.Ring
import Mathlib.Tactic.NormNum
import Verif.Base.Dict
import Verif.Model.Basic
import Verif.Props.Attention

/-!
# Functions and modules of basic.py (C99, C100, C101, C102, C103)
-/

set_option linter.unusedVariables false
set_option linter.unusedSectionVars false

namespace Verif.Props.Basic
open Verif.Shapes (Err)
open Verif.Pool (Arr)
open Verif.Props.Reset (Valid)
open Verif.Props.Conv (bind_ok)
open Verif.Props.Norm (bind_eq bind_err)
open Verif.Props.Attention (IsExp weight stable stable_weight stable_convex)
open Verif.Attention (softmax)
open Verif.Basic

variable {K : Type}

/-! ### Specification -/

/-- Category `c` is the one whose interval of the cumulative probabilities contains `u`; the number 0 belongs to the first one. -/
def Drawn [Field K] [LinearOrder K] (p : Nat → K) (n : Nat) (u : K) (c : Nat) : Prop := c < n ∧ (c = 0 ∨ ∑ j ∈ Finset.range c, p j < u) ∧ u ≤ ∑ j ∈ Finset.range (c + 1), p j

/-- The uniform number for sample `s` of the distribution at `q`: each is used for one sample only. -/
def number (uniform : Key → List Nat → List Nat → K) (rng : Key) (lead : List Nat) (numSamples : Nat) (q : List Nat) (s : Nat) : K :=
  if numSamples = 1 then uniform rng (lead ++ [1]) (q ++ [0]) else uniform rng (numSamples :: lead ++ [1]) (s :: q ++ [0])

/-- Calls the layers one after the other: each gets the value of the one before, only the first one gets the arguments. -/
inductive Chain {m : Type → Type} [Monad m] {V : Type} : List (Layer m V) → V → List V → m V → Prop
  | empty (x : V) (args : List V) : Chain [] x args (pure x)
  | step (layer : Layer m V) (layers : List (Layer m V)) (x : V) (args : List V) (rest : V → m V) (h : ∀ y, Chain layers y [] (rest y)) : Chain (layer :: layers) x args (layer (x :: args) >>= rest)

/-! ### C99, C100: multinomial -/

theorem softmax_row [Field K] [LinearOrder K] (exp : K → K) {x : Arr K} {lead : List Nat} {n : Nat} (hx : x.shape = lead ++ [n]) (hn : 0 < n) :
    ∃ y, softmax exp x = .ok y ∧ y.shape = lead ++ [n] ∧ ∀ q j, y.val (q ++ [j]) = stable exp n (fun j => x.val (q ++ [j])) j := by
  unfold softmax
  rw [hx, List.getLast?_concat]
  dsimp only
  rw [if_neg hn.ne']
  refine ⟨_, rfl, rfl, fun q j => ?_⟩
  show exp (x.val (q ++ [j]) - _) / _ = _
  rw [List.dropLast_concat]
  rfl

theorem argmin_run {x : Arr Bool} {lead : List Nat} {n : Nat} (hx : x.shape = lead ++ [n]) (hn : 0 < n) :
    ∃ y, argmin x = .ok y ∧ y.shape = lead ∧ ∀ q, (∃ j < n, x.val (q ++ [j]) = false) → y.val q < n ∧ x.val (q ++ [y.val q]) = false ∧ ∀ j < y.val q, x.val (q ++ [j]) = true := by
  unfold argmin
  rw [hx, List.getLastD_concat, List.dropLast_concat]
  dsimp only
  rw [if_neg hn.ne']
  refine ⟨_, rfl, rfl, fun q ⟨j, hj, h⟩ => ?_⟩
  dsimp only
  cases e : (List.range n).find? fun j => !x.val (q ++ [j]) with
  | none =>
    have := List.find?_eq_none.mp e j (List.mem_range.mpr hj)
    rw [h] at this
    exact absurd rfl this
  | some c =>
    obtain ⟨h1, h2, h3⟩ := List.find?_range_eq_some.mp e
    refine ⟨List.mem_range.mp h2, ?_, fun j hj => ?_⟩
    · show x.val (q ++ [c]) = false
      simpa using h1
    · simpa using h3 j hj

theorem multinomial_run [Field K] [LinearOrder K] [IsStrictOrderedRing K] {exp : K → K} (h0 : exp 0 = 1) (hp : ∀ x, 0 ≤ exp x) (uniform : Key → List Nat → List Nat → K) (rng : Key) {logits : Arr K}
    {lead : List Nat} {n : Nat} (hx : logits.shape = lead ++ [n]) (hl : lead.length ≤ 1) (hn : 0 < n) (S : Nat) :
    ∃ y, multinomial exp uniform rng logits S = .ok y ∧ y.shape = lead ++ [S] ∧ ∀ q s, Valid lead q → s < S → number uniform rng lead S q s ≤ 1 →
      y.val (q ++ [s]) < n ∧ number uniform rng lead S q s ≤ ∑ j ∈ Finset.range (y.val (q ++ [s]) + 1), stable exp n (fun j => logits.val (q ++ [j])) j
        ∧ ∀ c < y.val (q ++ [s]), ∑ j ∈ Finset.range (c + 1), stable exp n (fun j => logits.val (q ++ [j])) j < number uniform rng lead S q s := by
  obtain ⟨p, p1, p2, p3⟩ := softmax_row exp hx hn
  have hc : ∀ q j, (cumsum p).val (q ++ [j]) = ∑ i ∈ Finset.range (j + 1), stable exp n (fun j => logits.val (q ++ [j])) i := by
    intro q j
    show ∑ i ∈ Finset.range ((q ++ [j]).getLastD 0 + 1), p.val ((q ++ [j]).dropLast ++ [i]) = _
    rw [List.getLastD_concat, List.dropLast_concat]
    exact Finset.sum_congr rfl fun i _ => p3 q i
  have hlast : ∀ q, (cumsum p).val (q ++ [n - 1]) = 1 := by
    intro q
    rw [hc, Nat.sub_add_cancel hn]
    exact (stable_convex h0 hp hn _).2
  have hrank : ¬ (logits.shape.length > 2 ∨ logits.shape = []) := by
    rw [hx, List.length_append]
    rintro (h | h)
    · have h : lead.length + 1 > 2 := h
      omega
    · simp at h
  unfold multinomial
  rw [if_neg hrank, bind_eq p1]
  dsimp only
  have hcs : (cumsum p).shape = lead ++ [n] := p2
  by_cases hS : S = 1
  · subst hS
    rw [if_pos rfl, hx, List.dropLast_concat]
    have hg : (greater ⟨lead ++ [1], uniform rng (lead ++ [1])⟩ (cumsum p)).shape = lead ++ [n] := by
      show (lead ++ [1]).dropLast ++ [(cumsum p).shape.getLastD 0] = _
      rw [hcs, List.dropLast_concat, List.getLastD_concat]
    have hv : ∀ q, q.length = lead.length → ∀ j, (greater ⟨lead ++ [1], uniform rng (lead ++ [1])⟩ (cumsum p)).val (q ++ [j]) = decide ((cumsum p).val (q ++ [j]) < uniform rng (lead ++ [1]) (q ++ [0])) := by
      intro q hq j
      show decide ((cumsum p).val ((q ++ [j]).drop ((q ++ [j]).length - (cumsum p).shape.length)) < uniform rng (lead ++ [1]) ((q ++ [j]).dropLast ++ [0])) = _
      rw [hcs, List.length_append, List.length_append, hq, List.length_singleton, List.length_singleton, Nat.sub_self, List.drop_zero, List.dropLast_concat]
    obtain ⟨y, y1, y2, y3⟩ := argmin_run hg hn
    rw [bind_eq y1]
    refine ⟨_, rfl, by rw [← y2], fun q s hq hs hu => ?_⟩
    have e : number uniform rng lead 1 q s = uniform rng (lead ++ [1]) (q ++ [0]) := if_pos rfl
    rw [e] at hu ⊢
    show y.val (q ++ [s]).dropLast < n ∧ _ ≤ ∑ j ∈ Finset.range (y.val (q ++ [s]).dropLast + 1), _ ∧ ∀ c < y.val (q ++ [s]).dropLast, _
    rw [List.dropLast_concat]
    have hql := hq.length_eq
    obtain ⟨z1, z2, z3⟩ := y3 q ⟨n - 1, by omega, by rw [hv q hql, hlast, decide_eq_false (not_lt.mpr hu)]⟩
    rw [hv q hql] at z2
    refine ⟨z1, ?_, fun c hc' => ?_⟩
    · rw [← hc]
      exact not_lt.mp (of_decide_eq_false z2)
    · rw [← hc]
      have := z3 c hc'
      rw [hv q hql] at this
      exact of_decide_eq_true this
  · rw [if_neg hS, hx, List.dropLast_concat]
    have hg : (greater ⟨S :: lead ++ [1], uniform rng (S :: lead ++ [1])⟩ (cumsum p)).shape = (S :: lead) ++ [n] := by
      show (S :: lead ++ [1]).dropLast ++ [(cumsum p).shape.getLastD 0] = _
      rw [hcs, List.dropLast_concat, List.getLastD_concat]
    have hv : ∀ s q, q.length = lead.length → ∀ j, (greater ⟨S :: lead ++ [1], uniform rng (S :: lead ++ [1])⟩ (cumsum p)).val ((s :: q) ++ [j]) =
        decide ((cumsum p).val (q ++ [j]) < uniform rng (S :: lead ++ [1]) (s :: q ++ [0])) := by
      intro s q hq j
      show decide ((cumsum p).val ((s :: q ++ [j]).drop ((s :: q ++ [j]).length - (cumsum p).shape.length)) < uniform rng (S :: lead ++ [1]) ((s :: q ++ [j]).dropLast ++ [0])) = _
      rw [hcs, List.length_append, List.length_append, List.length_cons, hq, List.length_singleton, List.length_singleton, show lead.length + 1 + 1 - (lead.length + 1) = 1 by omega, List.dropLast_concat]
      rfl
    obtain ⟨y, y1, y2, y3⟩ := argmin_run hg hn
    have hrev : ∀ l : List Nat, l.length ≤ 1 → l.reverse = l := by
      intro l hl
      rcases l with _ | ⟨a, _ | ⟨b, l⟩⟩
      · rfl
      · rfl
      · exact absurd hl (by show ¬ l.length + 1 + 1 ≤ 1; omega)
    rw [bind_eq y1]
    refine ⟨_, rfl, ?_, fun q s hq hs hu => ?_⟩
    · show y.shape.reverse = _
      rw [y2, List.reverse_cons, hrev lead hl]
    have e : number uniform rng lead S q s = uniform rng (S :: lead ++ [1]) (s :: q ++ [0]) := if_neg hS
    rw [e] at hu ⊢
    show y.val (q ++ [s]).reverse < n ∧ _ ≤ ∑ j ∈ Finset.range (y.val (q ++ [s]).reverse + 1), _ ∧ ∀ c < y.val (q ++ [s]).reverse, _
    have hql := hq.length_eq
    rw [List.reverse_append, List.reverse_singleton, hrev q (by rw [hql]; exact hl), List.singleton_append]
    obtain ⟨z1, z2, z3⟩ := y3 (s :: q) ⟨n - 1, by omega, by rw [hv s q hql, hlast, decide_eq_false (not_lt.mpr hu)]⟩
    rw [hv s q hql] at z2
    refine ⟨z1, ?_, fun c hc' => ?_⟩
    · rw [← hc]
      exact not_lt.mp (of_decide_eq_false z2)
    · rw [← hc]
      have := z3 c hc'
      rw [hv s q hql] at this
      exact of_decide_eq_true this

theorem drawn_of [Field K] [LinearOrder K] [IsStrictOrderedRing K] {p : Nat → K} {n c : Nat} {u : K} (h1 : c < n) (h2 : u ≤ ∑ j ∈ Finset.range (c + 1), p j)
    (h3 : ∀ d < c, ∑ j ∈ Finset.range (d + 1), p j < u) : Drawn p n u c := by
  refine ⟨h1, ?_, h2⟩
  cases c with
  | zero => exact .inl rfl
  | succ c => exact .inr (h3 c (Nat.lt_succ_self c))

/-- C99: `multinomial` returns, for logits of shape `[n]` or `[b, n]`, `num_samples` categories for each distribution.  Each sample is the category whose interval of the cumulative softmax
probabilities contains a uniform number of its own, so that a category's chance is the length of the interval, its probability. -/
theorem multinomial_inverse [Field K] [LinearOrder K] [IsStrictOrderedRing K] {exp : K → K} (he : IsExp exp) (uniform : Key → List Nat → List Nat → K) (rng : Key) {logits : Arr K}
    {lead : List Nat} {n : Nat} (hx : logits.shape = lead ++ [n]) (hl : lead.length ≤ 1) (hn : 0 < n) (S : Nat) :
    ∃ y, multinomial exp uniform rng logits S = .ok y ∧ y.shape = lead ++ [S] ∧ ∀ q s, Valid lead q → s < S → number uniform rng lead S q s ≤ 1 →
      Drawn (weight exp n fun j => logits.val (q ++ [j])) n (number uniform rng lead S q s) (y.val (q ++ [s])) := by
  have h0 : exp 0 = 1 := by
    have := he.sub 0 0
    rw [sub_zero, div_self (ne_of_gt (he.pos 0))] at this
    exact this
  obtain ⟨y, y1, y2, y3⟩ := multinomial_run h0 (fun x => (he.pos x).le) uniform rng hx hl hn S
  refine ⟨y, y1, y2, fun q s hq hs hu1 => ?_⟩
  obtain ⟨z1, z2, z3⟩ := y3 q s hq hs hu1
  simp only [stable_weight he] at z2 z3
  exact drawn_of z1 z2 z3

/-- Three categories of equal probability and the uniform number 1/2: the second one is drawn. -/
example : ∃ y, multinomial Real.exp (fun _ _ _ => 1 / 2) (.root 0) ⟨[2, 3], fun _ => 0⟩ 4 = .ok y ∧ y.shape = [2, 4] ∧ y.val [1, 3] = 1 := by
  obtain ⟨y, y1, y2, y3⟩ := multinomial_inverse Verif.Props.Attention.real_exp (fun _ _ _ => 1 / 2) (.root 0) (logits := ⟨[2, 3], fun _ => 0⟩) (lead := [2]) (n := 3) rfl (by decide) (by decide) 4
  refine ⟨y, y1, y2, ?_⟩
  have hw : ∀ j, weight Real.exp 3 (fun _ => 0) j = 1 / 3 := by
    intro j
    unfold weight
    rw [Finset.sum_const, Real.exp_zero]
    norm_num
  obtain ⟨h1, h2, h3⟩ := y3 [1] 3 (.cons (by decide) .nil) (by decide) (by show (1 / 2 : Real) ≤ 1; norm_num)
  have e : number (fun _ _ _ => (1 / 2 : Real)) (.root 0) [2] 4 [1] 3 = 1 / 2 := rfl
  rw [Finset.sum_congr rfl fun j _ => hw j, Finset.sum_const, e, Finset.card_range, nsmul_eq_mul] at h2 h3
  have h1 : y.val [1, 3] < 3 := h1
  show y.val [1, 3] = 1
  have h2 : y.val [1, 3] = 0 ∨ ((y.val [1, 3] : Nat) : Real) * (1 / 3) < 1 / 2 := h2
  have h3 : (1 / 2 : Real) ≤ ((y.val [1, 3] + 1 : Nat) : Real) * (1 / 3) := h3
  have hc : y.val [1, 3] = 0 ∨ y.val [1, 3] = 1 ∨ y.val [1, 3] = 2 := by omega
  rcases hc with hc | hc | hc
  · rw [hc] at h3
    norm_num at h3
  · exact hc
  · rw [hc] at h2
    norm_num at h2

/-- C99: the intervals do not overlap, and their lengths are the probabilities, so a uniform number determines the category. -/
theorem drawn_unique [Field K] [LinearOrder K] [IsStrictOrderedRing K] {p : Nat → K} (hp : ∀ j, 0 ≤ p j) {n : Nat} {u : K} {c c' : Nat} (h : Drawn p n u c) (h' : Drawn p n u c') : c = c' := by
  have key : ∀ {a b : Nat}, Drawn p n u a → Drawn p n u b → ¬ a < b := by
    intro a b ha hb hab
    have : ∑ j ∈ Finset.range (a + 1), p j ≤ ∑ j ∈ Finset.range b, p j := Finset.sum_le_sum_of_subset_of_nonneg (Finset.range_subset_range.mpr hab) fun j _ _ => hp j
    rcases hb.2.1 with e | hb
    · omega
    · linarith [ha.2.2]
  rcases Nat.lt_trichotomy c c' with h1 | h1 | h1
  · exact absurd h1 (key h h')
  · exact h1
  · exact absurd h1 (key h' h)

example : Drawn (fun _ => (1 / 3 : Rat)) 3 (1 / 2) 1 := ⟨by decide, .inr (by norm_num [Finset.sum_range_succ]), by norm_num [Finset.sum_range_succ]⟩

/-- C99: logits of rank 0 or of rank more than 2 are a `ValueError`, and so are logits without categories. -/
theorem multinomial_rejects [Field K] [LinearOrder K] (exp : K → K) (uniform : Key → List Nat → List Nat → K) (rng : Key) (logits : Arr K) (S : Nat)
    (h : logits.shape.length = 0 ∨ 2 < logits.shape.length ∨ logits.shape.getLast? = some 0) : multinomial exp uniform rng logits S = .error .value := by
  unfold multinomial
  by_cases h1 : logits.shape.length > 2 ∨ logits.shape = []
  · rw [if_pos h1]
  · rw [if_neg h1]
    refine bind_err ?_
    rcases h with h | h | h
    · exact absurd (.inr (List.length_eq_zero_iff.mp h)) h1
    · exact absurd (.inl h) h1
    · unfold softmax
      rw [h]
      exact if_pos rfl

example : multinomial Real.exp (fun _ _ _ => 1 / 2) (.root 0) ⟨[2, 3, 4], fun _ => 0⟩ 4 = .error .value := multinomial_rejects _ _ _ _ _ (.inr (.inl (by decide)))

/-- C100: a category whose probability is 0 (its exponential is rounded to 0) is not drawn by a positive uniform number. -/
theorem multinomial_possible_partial [Field K] [LinearOrder K] [IsStrictOrderedRing K] {exp : K → K} (h0 : exp 0 = 1) (hp : ∀ x, 0 ≤ exp x) (uniform : Key → List Nat → List Nat → K) (rng : Key)
    {logits : Arr K} {lead : List Nat} {n : Nat} (hx : logits.shape = lead ++ [n]) (hl : lead.length ≤ 1) (hn : 0 < n) (S : Nat) {y : Arr Nat} (hy : multinomial exp uniform rng logits S = .ok y)
    {q : List Nat} {s : Nat} (hq : Valid lead q) (hs : s < S) (hu0 : 0 < number uniform rng lead S q s) (hu1 : number uniform rng lead S q s ≤ 1) :
    0 < stable exp n (fun j => logits.val (q ++ [j])) (y.val (q ++ [s])) := by
  obtain ⟨y', y1, y2, y3⟩ := multinomial_run h0 hp uniform rng hx hl hn S
  rw [hy] at y1
  cases y1
  obtain ⟨z1, z2, z3⟩ := y3 q s hq hs hu1
  obtain ⟨-, d1, d2⟩ := drawn_of z1 z2 z3
  rw [Finset.sum_range_succ] at d2
  rcases d1 with e | d1
  · rw [e, Finset.sum_range_zero] at d2
    rw [e]
    linarith
  · linarith

/-- An exponential function that is rounded to 0 below -10, and logits 0 and -20: the second category is not drawn. -/
example : ∃ y, multinomial (fun x : Rat => if x ≤ -10 then 0 else 1) (fun _ _ _ => 1) (.root 0) ⟨[2], fun i => if i = [0] then 0 else -20⟩ 1 = .ok y ∧ y.val [0] = 0 := by
  have hp : ∀ x : Rat, 0 ≤ (if x ≤ -10 then (0 : Rat) else 1) := fun x => by split <;> norm_num
  obtain ⟨y, y1, y2, y3⟩ := multinomial_run (exp := fun x : Rat => if x ≤ -10 then 0 else 1) (by norm_num) hp (fun _ _ _ => 1) (.root 0) (logits := ⟨[2], fun i => if i = [0] then 0 else -20⟩) (lead := [])
    (n := 2) rfl (by decide) (by decide) 1
  refine ⟨y, y1, ?_⟩
  have h := multinomial_possible_partial (exp := fun x : Rat => if x ≤ -10 then 0 else 1) (by norm_num) hp (fun _ _ _ => 1) (.root 0) (lead := []) (n := 2) rfl (by decide) (by decide) 1 y1 (q := [])
    (s := 0) .nil (by decide) (by show (0 : Rat) < 1; norm_num) (by show (1 : Rat) ≤ 1; norm_num)
  obtain ⟨h1, -⟩ := y3 [] 0 .nil (by decide) (by show (1 : Rat) ≤ 1; norm_num)
  have h1 : y.val [0] < 2 := h1
  show y.val [0] = 0
  by_contra hne
  have hc : y.val [0] = 1 := by omega
  have h : 0 < stable (fun x : Rat => if x ≤ -10 then 0 else 1) 2 (fun j => if [j] = [0] then (0 : Rat) else -20) (y.val [0]) := h
  rw [hc] at h
  exact absurd h (by decide +kernel)

/-- C100: without that condition the claim fails: the uniform number 0, which `jax.random.uniform` can return, draws the first category, even if its probability is 0. -/
theorem multinomial_zero [Field K] [LinearOrder K] [IsStrictOrderedRing K] {exp : K → K} (h0 : exp 0 = 1) (hp : ∀ x, 0 ≤ exp x) (uniform : Key → List Nat → List Nat → K) (rng : Key)
    {logits : Arr K} {lead : List Nat} {n : Nat} (hx : logits.shape = lead ++ [n]) (hl : lead.length ≤ 1) (hn : 0 < n) (S : Nat) {y : Arr Nat} (hy : multinomial exp uniform rng logits S = .ok y)
    {q : List Nat} {s : Nat} (hq : Valid lead q) (hs : s < S) (hu : number uniform rng lead S q s = 0) : y.val (q ++ [s]) = 0 := by
  obtain ⟨y', y1, y2, y3⟩ := multinomial_run h0 hp uniform rng hx hl hn S
  rw [hy] at y1
  cases y1
  obtain ⟨z1, z2, z3⟩ := y3 q s hq hs (by rw [hu]; exact zero_le_one)
  by_contra hne
  have := z3 0 (by omega)
  rw [hu, Finset.sum_range_one] at this
  exact absurd ((stable_convex h0 hp hn _).1 0) (not_le.mpr this)

/-- The first category has a probability that is rounded to 0, and is drawn nevertheless. -/
example : ∃ y, multinomial (fun x : Rat => if x ≤ -10 then 0 else 1) (fun _ _ _ => 0) (.root 0) ⟨[2], fun i => if i = [0] then -20 else 0⟩ 1 = .ok y ∧ y.val [0] = 0
    ∧ stable (fun x : Rat => if x ≤ -10 then 0 else 1) 2 (fun j => if [j] = [0] then (-20 : Rat) else 0) 0 = 0 := by
  have hp : ∀ x : Rat, 0 ≤ (if x ≤ -10 then (0 : Rat) else 1) := fun x => by split <;> norm_num
  obtain ⟨y, y1, y2, y3⟩ := multinomial_run (exp := fun x : Rat => if x ≤ -10 then 0 else 1) (by norm_num) hp (fun _ _ _ => 0) (.root 0) (logits := ⟨[2], fun i => if i = [0] then -20 else 0⟩) (lead := [])
    (n := 2) rfl (by decide) (by decide) 1
  exact ⟨y, y1, multinomial_zero (exp := fun x : Rat => if x ≤ -10 then 0 else 1) (by norm_num) hp (fun _ _ _ => 0) (.root 0) (lead := []) (n := 2) rfl (by decide) (by decide) 1 y1 (q := []) (s := 0)
    .nil (by decide) rfl, by decide +kernel⟩

/-! ### C101: Sequential -/

section
variable {m : Type → Type} [Monad m] {V : Type}

theorem loop_later (args : List V) (layers : List (Layer m V)) : ∀ (i : Nat) (x : V), loop args (i + 1) layers x = loop [] 0 layers x := by
  induction layers with
  | nil =>
    intro i x
    rfl
  | cons layer layers ih =>
    intro i x
    show (layer [x] >>= fun out => loop args (i + 2) layers out) = (layer [x] >>= fun out => loop [] 1 layers out)
    refine congrArg (layer [x] >>= ·) (funext fun out => ?_)
    rw [ih (i + 1), show loop [] 1 layers out = loop [] 0 layers out from by
      cases layers with
      | nil => rfl
      | cons l ls =>
        show (l [out] >>= fun out => loop [] 2 ls out) = (l [out] >>= fun out => loop [] 1 ls out)
        refine congrArg (l [out] >>= ·) (funext fun out' => ?_)
        clear ih
        suffices h : ∀ (ls : List (Layer m V)) (i j : Nat) (x : V), loop [] (i + 1) ls x = loop [] (j + 1) ls x from h ls 1 0 out'
        intro ls
        induction ls with
        | nil => intro i j x; rfl
        | cons l ls ih =>
          intro i j x
          show (l [x] >>= fun out => loop [] (i + 2) ls out) = (l [x] >>= fun out => loop [] (j + 2) ls out)
          exact congrArg (l [x] >>= ·) (funext fun y => ih (i + 1) (j + 1) y)]

theorem sequential_cons (layer : Layer m V) (layers : List (Layer m V)) (x : V) (args : List V) :
    sequential (layer :: layers) x args = layer (x :: args) >>= fun y => sequential layers y [] := by
  show (layer (x :: args) >>= fun out => loop args 1 layers out) = _
  exact congrArg (layer (x :: args) >>= ·) (funext fun y => loop_later args layers 0 y)

/-- C101: `Sequential` calls its layers in order, the first one with the arguments of the call and every other one with nothing but the value of the one before it; without layers it returns the input. -/
theorem sequential_chain (layers : List (Layer m V)) (x : V) (args : List V) (r : m V) : Chain layers x args r ↔ sequential layers x args = r := by
  constructor
  · intro h
    induction h with
    | empty x args => rfl
    | step layer layers x args rest h ih =>
      rw [sequential_cons]
      exact congrArg (layer (x :: args) >>= ·) (funext ih)
  · rintro rfl
    induction layers generalizing x args with
    | nil => exact .empty x args
    | cons layer layers ih =>
      rw [sequential_cons]
      exact .step layer layers x args _ fun y => ih y []

/-- Two layers that log their arguments: the second one does not get the argument 10. -/
example : Chain (m := StateM (List (List Nat))) [fun a => do modify (· ++ [a]); pure a.sum, fun a => do modify (· ++ [a]); pure (2 * a.sum)] 1 [10]
    (sequential (m := StateM (List (List Nat))) [fun a => do modify (· ++ [a]); pure a.sum, fun a => do modify (· ++ [a]); pure (2 * a.sum)] 1 [10])
    ∧ (sequential (m := StateM (List (List Nat))) [fun a => do modify (· ++ [a]); pure a.sum, fun a => do modify (· ++ [a]); pure (2 * a.sum)] 1 [10]).run [] = (22, [[1, 10], [11]]) :=
  ⟨(sequential_chain _ _ _ _).mpr rfl, rfl⟩

/-- C101: `Sequential` can be split anywhere: running the layers at once is running the first part with the arguments and then the others without; so nesting `Sequential`s makes no difference. -/
theorem sequential_append [LawfulMonad m] (first : List (Layer m V)) (rest : List (Layer m V)) (x : V) (args : List V) (h : first ≠ []) :
    sequential (first ++ rest) x args = sequential first x args >>= fun y => sequential rest y [] := by
  have key : ∀ (first : List (Layer m V)) (y : V), sequential (first ++ rest) y [] = sequential first y [] >>= fun y => sequential rest y [] := by
    intro first
    induction first with
    | nil =>
      intro y
      show sequential rest y [] = (pure y >>= fun y => sequential rest y [])
      rw [pure_bind]
    | cons l ls ih =>
      intro y
      rw [List.cons_append, sequential_cons, sequential_cons, bind_assoc]
      exact congrArg (l [y] >>= ·) (funext ih)
  cases first with
  | nil => exact absurd rfl h
  | cons l ls =>
    rw [List.cons_append, sequential_cons, sequential_cons, bind_assoc]
    exact congrArg (l (x :: args) >>= ·) (funext (key ls))

/-- C101: without layers the arguments are dropped: an empty first part hides them from the layers after it. -/
theorem sequential_empty_first [LawfulMonad m] (layer : Layer m V) (x : V) (args : List V) : (sequential [] x args >>= fun y => sequential [layer] y []) = layer [x] := by
  show (pure x >>= fun y => sequential [layer] y []) = layer [x]
  rw [pure_bind, sequential_cons]
  exact bind_pure _

example : (sequential (m := Id) [] 1 [10] >>= fun y => sequential (m := Id) [fun a => a.sum] y []) = (1 : Nat) ∧ sequential (m := Id) ([] ++ [fun a => a.sum]) 1 [10] = (11 : Nat) := ⟨rfl, rfl⟩

end

example : sequential (m := Id) ([fun a => a.sum] ++ [fun a => 2 * a.sum]) 1 [10] = (sequential (m := Id) [fun a => a.sum] 1 [10] >>= fun y => sequential (m := Id) [fun a => 2 * a.sum] y [] : Id Nat) :=
  sequential_append _ _ _ _ (by simp)

/-! ### C102: expand_apply -/

/-- `x'` is `x` with an additional axis of size 1 in front or at the end. -/
def Expanded (axis : Int) (x x' : Arr K) : Prop :=
  (axis = 0 ∧ x'.shape = 1 :: x.shape ∧ ∀ i, x'.val (0 :: i) = x.val i) ∨ (axis = -1 ∧ x'.shape = x.shape ++ [1] ∧ ∀ i, x'.val (i ++ [0]) = x.val i)

theorem expand_expanded {axis : Int} (h : axis ∈ [0, -1]) (x : Arr K) : Expanded axis x (expandDims axis x) := by
  rcases List.mem_cons.mp h with rfl | h
  · exact .inl ⟨rfl, rfl, fun i => rfl⟩
  · obtain rfl := List.mem_singleton.mp h
    refine .inr ⟨rfl, rfl, fun i => ?_⟩
    show x.val (i ++ [0]).dropLast = _
    rw [List.dropLast_concat]

theorem squeeze_iff {axis : Int} (h : axis ∈ [0, -1]) (x y : Arr K) : squeeze axis x = .ok y ↔ Expanded axis y x := by
  unfold squeeze
  rcases List.mem_cons.mp h with rfl | h
  · rw [if_pos rfl]
    constructor
    · intro e
      split at e
      · rename_i s hs
        cases e
        exact .inl ⟨rfl, hs, fun i => rfl⟩
      · cases e
    · rintro (⟨_, h1, h2⟩ | ⟨h, _⟩)
      · rw [h1]
        obtain ⟨s, v⟩ := y
        exact congrArg Except.ok (congrArg (Arr.mk s) (funext h2))
      · exact absurd h (by decide)
  · obtain rfl := List.mem_singleton.mp h
    rw [if_neg (by decide)]
    constructor
    · intro e
      by_cases hl : x.shape.getLast? = some 1
      · rw [if_pos hl] at e
        cases e
        obtain ⟨s, hs⟩ := List.getLast?_eq_some_iff.mp hl
        exact .inr ⟨rfl, by show x.shape = x.shape.dropLast ++ [1]; rw [hs, List.dropLast_concat], fun i => rfl⟩
      · rw [if_neg hl] at e
        cases e
    · rintro (⟨h, _⟩ | ⟨_, h1, h2⟩)
      · exact absurd h (by decide)
      · rw [h1, List.getLast?_concat, if_pos rfl, List.dropLast_concat]
        obtain ⟨s, v⟩ := y
        exact congrArg Except.ok (congrArg (Arr.mk s) (funext h2))

theorem squeeze_all {axis : Int} (h : axis ∈ [0, -1]) : ∀ (xs ys : List (Arr K)), xs.mapM (squeeze axis) = .ok ys ↔ List.Forall₂ (Expanded axis) ys xs
  | [], ys => by
    constructor
    · intro e
      cases e
      exact .nil
    · intro e
      cases e
      rfl
  | x :: xs, ys => by
    rw [List.mapM_cons]
    constructor
    · intro e
      obtain ⟨y, hy, e⟩ := bind_ok e
      obtain ⟨ys', hys, e⟩ := bind_ok e
      cases e
      exact .cons ((squeeze_iff h x y).mp hy) ((squeeze_all h xs ys').mp hys)
    · intro e
      cases e with
      | cons h1 h2 =>
        rw [bind_eq ((squeeze_iff h _ _).mpr h1), bind_eq ((squeeze_all h _ _).mpr h2)]
        rfl

/-- C102: `expand_apply` calls the function with every array given an additional axis of size 1, in front or at the end; its results are exactly the arrays that, given the same axis, are the
results of the function. -/
theorem expand_apply_slices (f : List (Arr K) → Except Err (List (Arr K))) {axis : Int} (h : axis ∈ [0, -1]) (args : List (Arr K)) :
    ∃ xs, List.Forall₂ (Expanded axis) args xs ∧ ∀ ys, expandApply f axis args = .ok ys ↔ ∃ outs, f xs = .ok outs ∧ List.Forall₂ (Expanded axis) ys outs := by
  refine ⟨args.map (expandDims axis), List.forall₂_map_right_iff.mpr (List.forall₂_same.mpr fun x _ => expand_expanded h x), fun ys => ?_⟩
  unfold expandApply
  rw [if_neg (not_not.mpr h)]
  constructor
  · intro e
    obtain ⟨outs, ho, e⟩ := bind_ok e
    exact ⟨outs, ho, (squeeze_all h outs ys).mp e⟩
  · rintro ⟨outs, ho, e⟩
    rw [bind_eq ho]
    exact (squeeze_all h outs ys).mpr e

/-- A function of an array with a time axis, applied to one step. -/
example : ∃ y, expandApply (fun xs => .ok (xs.map fun x => ⟨x.shape, fun i => x.val i + i.length⟩)) 0 [(⟨[2], fun i => i.sum⟩ : Arr Nat)] = .ok [y] ∧ y.shape = [2] ∧ y.val [1] = 3 :=
  ⟨_, rfl, rfl, rfl⟩

/-- C102: so `expand_apply` of the identity is the identity. -/
theorem expand_apply_identity {axis : Int} (h : axis ∈ [0, -1]) (args : List (Arr K)) : expandApply .ok axis args = .ok args := by
  obtain ⟨xs, h1, h2⟩ := expand_apply_slices .ok h args
  exact (h2 args).mpr ⟨xs, rfl, h1⟩

example : expandApply .ok (-1) [(⟨[2, 3], fun i => i.sum⟩ : Arr Nat)] = .ok [⟨[2, 3], fun i => i.sum⟩] := expand_apply_identity (by decide) _

/-- C102: any other axis is a `ValueError`, and so is a result that has no axis of size 1 there. -/
theorem expand_apply_rejects (f : List (Arr K) → Except Err (List (Arr K))) (axis : Int) (args : List (Arr K)) :
    (axis ≠ 0 → axis ≠ -1 → expandApply f axis args = .error .value)
    ∧ (axis ∈ [0, -1] → ∀ outs, f (args.map (expandDims axis)) = .ok outs → (∃ out ∈ outs, ∀ y, ¬ Expanded axis y out) → expandApply f axis args = .error .value) := by
  constructor
  · intro h1 h2
    unfold expandApply
    rw [if_pos fun h => ?_]
    rcases List.mem_cons.mp h with h | h
    · exact h1 h
    · exact h2 (List.mem_singleton.mp h)
  · intro h outs ho hbad
    unfold expandApply
    rw [if_neg (not_not.mpr h), bind_eq ho]
    clear ho
    have hval : ∀ x : Arr K, ∀ e, squeeze axis x = .error e → e = .value := by
      intro x e he
      unfold squeeze at he
      split at he
      · split at he <;> cases he
        rfl
      · split at he <;> cases he
        rfl
    induction outs with
    | nil =>
      obtain ⟨o, ho, _⟩ := hbad
      cases ho
    | cons o outs ih =>
      rw [List.mapM_cons]
      cases e : squeeze axis o with
      | error err =>
        rw [hval o err e]
        rfl
      | ok y =>
        obtain ⟨o', ho', hn⟩ := hbad
        rcases List.mem_cons.mp ho' with rfl | ho'
        · exact absurd ((squeeze_iff h _ _).mp e) (hn y)
        · show ((outs.mapM (squeeze axis)) >>= _) = _
          rw [bind_err (ih ⟨o', ho', hn⟩)]

example : expandApply .ok 1 [(⟨[2], fun i => i.sum⟩ : Arr Nat)] = .error .value := (expand_apply_rejects _ _ _).1 (by decide) (by decide)

/-! ### C103: one_hot -/

/-- C103: `one_hot` gives an array with one more axis, for the classes; an index in range selects exactly its class, that is, weighting any numbers with it gives the number of the class, and an index out of
range selects none. -/
theorem one_hot_selects [Field K] (x : Arr Int) (n : Nat) :
    (oneHot (K := K) x n).shape = x.shape ++ [n] ∧ ∀ (q : List Nat) (v : Nat → K),
      (∀ c < n, x.val q = (c : Int) → ∑ j ∈ Finset.range n, (oneHot x n).val (q ++ [j]) * v j = v c)
      ∧ ((x.val q < 0 ∨ (n : Int) ≤ x.val q) → ∀ j < n, (oneHot (K := K) x n).val (q ++ [j]) = 0) := by
  have hv : ∀ (q : List Nat) (j : Nat), (oneHot (K := K) x n).val (q ++ [j]) = if x.val q = (j : Int) then 1 else 0 := by
    intro q j
    show (if x.val (q ++ [j]).dropLast = (((q ++ [j]).getLastD 0 : Nat) : Int) then (1 : K) else 0) = _
    rw [List.dropLast_concat, List.getLastD_concat]
  refine ⟨rfl, fun q v => ⟨fun c hc e => ?_, fun h j hj => ?_⟩⟩
  · rw [Finset.sum_eq_single c]
    · rw [hv, if_pos e, one_mul]
    · intro j _ hj
      rw [hv, if_neg (by rw [e]; intro e'; exact hj (by omega)), zero_mul]
    · intro h
      exact absurd (Finset.mem_range.mpr hc) h
  · rw [hv, if_neg (by omega)]

example : (oneHot (K := Rat) ⟨[2], fun i => if i = [0] then 2 else 7⟩ 3).val [0, 2] = 1 ∧ (oneHot (K := Rat) ⟨[2], fun i => if i = [0] then 2 else 7⟩ 3).val [1, 2] = 0 := by decide +kernel

end Verif.Props.Basic
