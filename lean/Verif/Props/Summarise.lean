import Verif.Model.Summarise
import Verif.Props.Submodules

/-!
# Summaries of the modules used (C112, C113)
-/

set_option linter.unusedVariables false

namespace Verif.Props.Summarise
open Verif Verif.Shapes Verif.Summarise
open Verif.Props.Submodules (Selected)

variable {V E : Type}

/-! ### Specification vocabulary -/

/-- What a summary should say about one call: the module, the method, the arguments and the output, the calls that are active (this
one first), and the names of the modules used by methods of this module so far. -/
structure Entry (V : Type) where
  module : Nat
  method : Str
  args : V
  output : V
  active : List (Nat × Str)
  users : List Str

/-- The constructor, and the two methods that the summary itself calls. -/
def Silent (method : Str) : Prop := method = "__init__".toList ∨ method = "params_dict".toList ∨ method = "state_dict".toList

instance (method : Str) : Decidable (Silent method) := inferInstanceAs (Decidable (_ ∨ _ ∨ _))

mutual
/-- A call in a run without summary: which modules have used which, and the calls in the order in which they began, with what a
summary should say; `none` stands for a call that raised. -/
def expectCall (name : Nat → Str) (active : List (Nat × Str)) (used : Nat → List Str) : Call V → (Nat → List Str) × List (Option (Entry V))
  | .mk m method args inner result =>
    let r := expectCalls name ((m, method) :: active) used inner
    let after : Nat → List Str := fun k => if k ≠ m ∧ k ∈ active.map Prod.fst then r.1 k ++ [name m] else r.1 k
    match result with
    | none => (r.1, if Silent method then r.2 else none :: r.2)
    | some out => (after, if Silent method then r.2 else some ⟨m, method, args, out, (m, method) :: active, r.1 m⟩ :: r.2)
/-- Calls one after the other. -/
def expectCalls (name : Nat → Str) (active : List (Nat × Str)) (used : Nat → List Str) : List (Call V) → (Nat → List Str) × List (Option (Entry V))
  | [] => (used, [])
  | c :: cs =>
    let r := expectCall name active used c
    let t := expectCalls name active r.1 cs
    (t.1, r.2 ++ t.2)
end

/-- What a summary should say about the calls of a function. -/
def expected (name : Nat → Str) (calls : List (Call V)) : List (Option (Entry V)) := (expectCalls name [] (fun _ => []) calls).2

/-- `a` disturbs `k`: a method of `k` was called, directly or not, by a method of the other module `a`; or a call of `a` that raised
was made, directly or not, by a method of the other module `k`.  `active` are the modules active outside the call. -/
inductive Disturbs : List Nat → Call V → Nat → Nat → Prop
  | outer {active m method args inner result a} : a ∈ active → a ≠ m → Disturbs active (.mk m method args inner result) a m
  | raised {active m method args inner k} : k ∈ active → k ≠ m → Disturbs active (.mk m method args inner none) m k
  | inner {active m method args inner result c a k} : c ∈ inner → Disturbs (m :: active) c a k →
      Disturbs active (.mk m method args inner result) a k

/-- The record says what it should about the call. -/
def Says : Option (Invocation V) → Option (Entry V) → Prop
  | none, none => True
  | some r, some e => r.details.module = e.module ∧ r.details.method = e.method ∧ r.args = e.args ∧ r.output = e.output ∧
      r.callStack.map (fun d => (d.module, d.method)) = e.active
  | _, _ => False

/-- The record holds the parameters of the module and of submodules that are all those that were used, and perhaps some that
disturb the module. -/
def Holds (env : Fixed) (A : Nat → Nat → Prop) : Option (Invocation V) → Option (Entry V) → Prop
  | some r, some e => ∃ subs, r.details.params = Frame.paramsOrStateDict (env.name e.module) subs env.params ∧ (∀ n ∈ e.users, n ∈ subs) ∧
      ∀ n ∈ subs, n ∈ e.users ∨ ∃ a, A a e.module ∧ n = env.name a
  | none, none => True
  | _, _ => False

/-! ### The invariant -/

/-- `a` is above `k` on the stack. -/
def Over (stack : List (Nat × Str)) (a k : Nat) : Prop := ∃ s₁ s₂, stack = s₁ ++ s₂ ∧ a ∈ s₁.map Prod.fst ∧ k ∈ s₂.map Prod.fst ∧ a ≠ k

theorem over_cons {x : Nat × Str} {stack : List (Nat × Str)} {a k : Nat} :
    Over (x :: stack) a k ↔ Over stack a k ∨ (a = x.1 ∧ k ∈ stack.map Prod.fst ∧ a ≠ k) := by
  constructor
  · rintro ⟨s₁, s₂, e, h1, h2, h3⟩
    cases s₁ with
    | nil => simp at h1
    | cons y s₁ =>
      rw [List.cons_append, List.cons.injEq] at e
      obtain ⟨rfl, rfl⟩ := e
      rw [List.map_cons, List.mem_cons] at h1
      rcases h1 with rfl | h1
      · exact .inr ⟨rfl, by rw [List.map_append]; exact List.mem_append_right _ h2, h3⟩
      · exact .inl ⟨s₁, s₂, rfl, h1, h2, h3⟩
  · rintro (⟨s₁, s₂, rfl, h1, h2, h3⟩ | ⟨rfl, h2, h3⟩)
    · exact ⟨x :: s₁, s₂, rfl, List.mem_cons_of_mem _ h1, h2, h3⟩
    · exact ⟨[x], stack, rfl, by simp, h2, h3⟩

theorem over_of_mem {stack : List (Nat × Str)} {a k : Nat} (ha : a ∈ stack.map Prod.fst) (hk : k ∈ stack.map Prod.fst) (h : a ≠ k) :
    Over stack a k ∨ Over stack k a := by
  induction stack with
  | nil => simp at ha
  | cons x stack ih =>
    rw [List.map_cons, List.mem_cons] at ha hk
    rw [over_cons, over_cons]
    rcases ha with ha | ha <;> rcases hk with hk | hk
    · exact absurd (ha.trans hk.symm) h
    · exact .inl (.inr ⟨ha, hk, h⟩)
    · exact .inr (.inr ⟨hk, ha, fun e => h e.symm⟩)
    · rcases ih ha hk with h' | h'
      · exact .inl (.inl h')
      · exact .inr (.inl h')

/-- The recorded submodules are those of a run without summary, apart from modules that disturb, and from modules that are active. -/
def Inv (env : Fixed) (A : Nat → Nat → Prop) (stack : Stack) (subs subs₀ : Subs) : Prop := ∀ k n,
  (n ∈ subs₀ k → n ∈ subs k) ∧ (n ∈ subs k → n ∈ subs₀ k ∨ (∃ a, A a k ∧ n = env.name a) ∨ ∃ a, Over stack a k ∧ n = env.name a)

theorem mem_notify {stack : Stack} {self : Nat} {name : Str} {subs : Subs} {k : Nat} {n : Str} :
    n ∈ notify stack self name subs k ↔ n ∈ subs k ∨ (k ≠ self ∧ k ∈ stack.map Prod.fst ∧ n = name) := by
  unfold notify
  by_cases h : k ≠ self ∧ k ∈ stack.map Prod.fst
  · rw [if_pos h, List.mem_cons]
    constructor
    · rintro (h' | h')
      · exact .inr ⟨h.1, h.2, h'⟩
      · exact .inl h'
    · rintro (h' | h')
      · exact .inr h'
      · exact .inl h'.2.2
  · rw [if_neg h]
    exact ⟨.inl, fun h' => h'.elim id fun h' => absurd ⟨h'.1, h'.2.1⟩ h⟩

theorem mem_details {env : Fixed} {stack : Stack} {m : Nat} {method : Str} {subs : Subs} {k : Nat} {n : Str} :
    n ∈ (detailsOf env stack m method subs).2 k ↔ n ∈ subs k ∨ (k ≠ m ∧ k ∈ stack.map Prod.fst ∧ n = env.name m) := by
  unfold detailsOf
  dsimp only
  rw [mem_notify, mem_notify, List.map_cons, List.map_cons, List.mem_cons]
  constructor
  · rintro ((h | ⟨h1, h2 | h2, h3⟩) | ⟨h1, h2 | h2, h3⟩)
    · exact .inl h
    · exact absurd h2 h1
    · exact .inr ⟨h1, h2, h3⟩
    · exact absurd h2 h1
    · exact .inr ⟨h1, h2, h3⟩
  · rintro (h | ⟨h1, h2, h3⟩)
    · exact .inl (.inl h)
    · exact .inl (.inr ⟨h1, .inr h2, h3⟩)

theorem callStack_spec (env : Fixed) (stack : Stack) : ∀ (todo : Stack) (subs : Subs),
    (getCallStack env stack todo subs).1.map (fun d => (d.module, d.method)) = todo ∧
    ∀ k n, n ∈ (getCallStack env stack todo subs).2 k ↔
      n ∈ subs k ∨ ∃ a ∈ todo.map Prod.fst, k ≠ a ∧ k ∈ stack.map Prod.fst ∧ n = env.name a
  | [], subs => ⟨rfl, fun k n => by simp [getCallStack]⟩
  | (m, method) :: todo, subs => by
    have ih := callStack_spec env stack todo (detailsOf env stack m method subs).2
    constructor
    · show (m, method) :: _ = _
      rw [ih.1]
    · intro k n
      refine (ih.2 k n).trans ?_
      rw [mem_details, List.map_cons]
      constructor
      · rintro ((h | h) | ⟨a, ha, h⟩)
        · exact .inl h
        · exact .inr ⟨m, List.mem_cons_self, h⟩
        · exact .inr ⟨a, List.mem_cons_of_mem _ ha, h⟩
      · rintro (h | ⟨a, ha, h⟩)
        · exact .inl (.inl h)
        · rcases List.mem_cons.mp ha with rfl | ha
          · exact .inl (.inr h)
          · exact .inr ⟨a, ha, h⟩

theorem silent_iff {method : Str} : method ∈ ignoredMethods ↔ Silent method := by
  unfold ignoredMethods Silent
  simp only [List.mem_cons, List.not_mem_nil, or_false]

theorem set_append {α : Type} (a b : List α) (x y : α) : (a ++ x :: b).set a.length y = a ++ y :: b := by
  induction a with
  | nil => rfl
  | cons z a ih => rw [List.cons_append, List.length_cons, List.set_cons_succ, ih, List.cons_append]

theorem inv_push {env : Fixed} {A : Nat → Nat → Prop} {stack : Stack} {subs subs₀ : Subs} (x : Nat × Str) (h : Inv env A stack subs subs₀) :
    Inv env A (x :: stack) subs subs₀ := fun k n => ⟨(h k n).1, fun hn => by
  rcases (h k n).2 hn with h' | h' | ⟨a, h1, h2⟩
  · exact .inl h'
  · exact .inr (.inl h')
  · exact .inr (.inr ⟨a, over_cons.mpr (.inl h1), h2⟩)⟩

theorem inv_exit {env : Fixed} {A : Nat → Nat → Prop} {stack : Stack} {subs subs₀ : Subs} {m : Nat} {method : Str}
    (h : Inv env A ((m, method) :: stack) subs subs₀) : Inv env A stack (notify ((m, method) :: stack) m (env.name m) subs)
      (fun k => if k ≠ m ∧ k ∈ stack.map Prod.fst then subs₀ k ++ [env.name m] else subs₀ k) := by
  intro k n
  rw [mem_notify]
  have e : n ∈ (if k ≠ m ∧ k ∈ stack.map Prod.fst then subs₀ k ++ [env.name m] else subs₀ k) ↔
      n ∈ subs₀ k ∨ ((k ≠ m ∧ k ∈ stack.map Prod.fst) ∧ n = env.name m) := by
    by_cases hc : k ≠ m ∧ k ∈ stack.map Prod.fst
    · rw [if_pos hc, List.mem_append, List.mem_singleton]
      exact ⟨fun h => h.imp id fun h => ⟨hc, h⟩, fun h => h.imp id fun h => h.2⟩
    · rw [if_neg hc]
      exact ⟨.inl, fun h => h.elim id fun h => absurd h.1 hc⟩
  rw [e]
  constructor
  · rintro (h' | ⟨⟨h1, h2⟩, h3⟩)
    · exact .inl ((h k n).1 h')
    · exact .inr ⟨h1, List.mem_cons_of_mem _ h2, h3⟩
  · rintro (h' | ⟨h1, h2, h3⟩)
    · rcases (h k n).2 h' with h' | h' | ⟨a, ha, h3⟩
      · exact .inl (.inl h')
      · exact .inr (.inl h')
      · rcases over_cons.mp ha with ha | ⟨rfl, hk, hne⟩
        · exact .inr (.inr ⟨a, ha, h3⟩)
        · exact .inl (.inr ⟨⟨fun e => hne e.symm, hk⟩, h3⟩)
    · rcases List.mem_cons.mp h2 with h2 | h2
      · exact absurd h2 h1
      · exact .inl (.inr ⟨⟨h1, h2⟩, h3⟩)

theorem inv_raise {env : Fixed} {A : Nat → Nat → Prop} {stack : Stack} {subs subs₀ : Subs} {m : Nat} {method : Str}
    (h : Inv env A ((m, method) :: stack) subs subs₀) (hA : ∀ k ∈ stack.map Prod.fst, k ≠ m → A m k) : Inv env A stack subs subs₀ := by
  intro k n
  refine ⟨(h k n).1, fun h' => ?_⟩
  rcases (h k n).2 h' with h' | h' | ⟨a, ha, h3⟩
  · exact .inl h'
  · exact .inr (.inl h')
  · rcases over_cons.mp ha with ha | ⟨rfl, hk, hne⟩
    · exact .inr (.inr ⟨a, ha, h3⟩)
    · exact .inr (.inl ⟨_, hA k hk (fun e => hne e.symm), h3⟩)

/-- Every module on the stack is disturbed by those below it. -/
def Below (A : Nat → Nat → Prop) (stack : Stack) : Prop := ∀ a k, Over stack k a → A a k

theorem inv_record {env : Fixed} {A : Nat → Nat → Prop} {stack : Stack} {subs subs₀ : Subs} {m : Nat} {method : Str} (hm : m ∈ stack.map Prod.fst)
    (hb : Below A stack) (h : Inv env A stack subs subs₀) :
    Inv env A stack (getCallStack env stack stack (detailsOf env stack m method subs).2).2 subs₀ := by
  intro k n
  rw [(callStack_spec env stack stack _).2, mem_details]
  constructor
  · intro h'
    exact .inl (.inl ((h k n).1 h'))
  · have key : ∀ a ∈ stack.map Prod.fst, k ≠ a → k ∈ stack.map Prod.fst → n = env.name a →
        n ∈ subs₀ k ∨ (∃ a, A a k ∧ n = env.name a) ∨ ∃ a, Over stack a k ∧ n = env.name a := by
      intro a ha hne hk hn
      rcases over_of_mem ha hk (fun e => hne e.symm) with h' | h'
      · exact .inr (.inr ⟨a, h', hn⟩)
      · exact .inr (.inl ⟨a, hb a k h', hn⟩)
    rintro ((h' | ⟨h1, h2, h3⟩) | ⟨a, ha, h1, h2, h3⟩)
    · exact (h k n).2 h'
    · exact key m hm h1 h2 h3
    · exact key a ha h1 h2 h3

theorem below_push {A : Nat → Nat → Prop} {stack : Stack} {m : Nat} {method : Str} (hb : Below A stack)
    (hA : ∀ a ∈ stack.map Prod.fst, a ≠ m → A a m) : Below A ((m, method) :: stack) := by
  intro a k h
  rcases over_cons.mp h with h | ⟨rfl, h1, h2⟩
  · exact hb a k h
  · exact hA a h1 (fun e => h2 e.symm)

/-- The result of a run. -/
def Good (env : Fixed) (A : Nat → Nat → Prop) (stack : Stack) (st : State V) (after : State V) (exp : Subs × List (Option (Entry V))) : Prop :=
  ∃ es, after.used = st.used ++ es ∧ List.Forall₂ (fun r e => Says r e ∧ Holds env A r e) es exp.2 ∧ Inv env A stack after.subs exp.1

mutual
theorem call_good (env : Fixed) (A : Nat → Nat → Prop) : ∀ (c : Call V) (stack : Stack) (st : State V) (subs₀ : Subs),
    (∀ a k, Disturbs (stack.map Prod.fst) c a k → A a k) → Below A stack → Inv env A stack st.subs subs₀ →
    Good env A stack st (runCall env stack st c) (expectCall env.name stack subs₀ c)
  | .mk m method args inner result, stack, st, subs₀, hA, hb, hi => by
    have hA1 : ∀ a ∈ stack.map Prod.fst, a ≠ m → A a m := fun a ha hne => hA a m (.outer ha hne)
    have hb' : Below A ((m, method) :: stack) := below_push hb hA1
    have hin : ∀ c ∈ inner, ∀ a k, Disturbs (((m, method) :: stack).map Prod.fst) c a k → A a k := fun c hc a k h => hA a k (.inner hc h)
    by_cases hs : method ∈ ignoredMethods
    · have hs' := silent_iff.mp hs
      obtain ⟨es, h1, h2, h3⟩ := calls_good env A inner ((m, method) :: stack) st subs₀ hin hb' (inv_push _ hi)
      unfold runCall expectCall
      dsimp only
      rw [if_pos hs]
      cases result with
      | none =>
        dsimp only
        rw [if_pos hs']
        exact ⟨es, h1, h2, inv_raise h3 fun k hk hne => hA m k (.raised hk hne)⟩
      | some out =>
        dsimp only
        rw [if_pos hs']
        exact ⟨es, h1, h2, inv_exit h3⟩
    · have hs' : ¬ Silent method := fun h => hs (silent_iff.mpr h)
      obtain ⟨es, h1, h2, h3⟩ := calls_good env A inner ((m, method) :: stack) { st with used := st.used ++ [none] } subs₀ hin hb' (inv_push _ hi)
      unfold runCall expectCall
      dsimp only
      rw [if_neg hs]
      cases result with
      | none =>
        dsimp only
        rw [if_neg hs']
        refine ⟨none :: es, ?_, .cons ⟨trivial, trivial⟩ h2, inv_raise h3 fun k hk hne => hA m k (.raised hk hne)⟩
        rw [h1]
        exact List.append_assoc _ _ _
      | some out =>
        dsimp only
        rw [if_neg hs']
        generalize hr : runCalls env ((m, method) :: stack) { st with used := st.used ++ [none] } inner = st' at h1 h3
        refine ⟨some ⟨(detailsOf env ((m, method) :: stack) m method st'.subs).1, args, out,
          (getCallStack env ((m, method) :: stack) ((m, method) :: stack) (detailsOf env ((m, method) :: stack) m method st'.subs).2).1⟩ :: es,
          ?_, .cons ⟨⟨rfl, rfl, rfl, rfl, ?_⟩, ?_⟩ h2, inv_exit (inv_record ?_ hb' h3)⟩
        · rw [h1, show (st.used ++ [none]) ++ es = st.used ++ none :: es from List.append_assoc _ _ _]
          exact set_append _ _ _ _
        · exact (callStack_spec env _ _ _).1
        · refine ⟨_, rfl, fun n hn => (h3 m n).1 hn, fun n hn => ?_⟩
          rcases (h3 m n).2 hn with h' | h' | ⟨a, ha, h'⟩
          · exact .inl h'
          · exact .inr h'
          · refine .inr ⟨a, ?_, h'⟩
            rcases over_cons.mp ha with ha | ⟨rfl, _, hne⟩
            · obtain ⟨s₁, s₂, e, h1, _, hne⟩ := ha
              exact hA1 a (by rw [e, List.map_append]; exact List.mem_append_left _ h1) hne
            · exact absurd rfl hne
        · exact List.mem_cons_self
theorem calls_good (env : Fixed) (A : Nat → Nat → Prop) : ∀ (cs : List (Call V)) (stack : Stack) (st : State V) (subs₀ : Subs),
    (∀ c ∈ cs, ∀ a k, Disturbs (stack.map Prod.fst) c a k → A a k) → Below A stack → Inv env A stack st.subs subs₀ →
    Good env A stack st (runCalls env stack st cs) (expectCalls env.name stack subs₀ cs)
  | [], stack, st, subs₀, hA, hb, hi => by
    unfold runCalls expectCalls
    exact ⟨[], (List.append_nil _).symm, .nil, hi⟩
  | c :: cs, stack, st, subs₀, hA, hb, hi => by
    obtain ⟨es, h1, h2, h3⟩ := call_good env A c stack st subs₀ (hA c List.mem_cons_self) hb hi
    obtain ⟨fs, g1, g2, g3⟩ := calls_good env A cs stack _ _ (fun c hc => hA c (List.mem_cons_of_mem _ hc)) hb h3
    unfold runCalls expectCalls
    refine ⟨es ++ fs, ?_, ?_, g3⟩
    · rw [g1, h1, List.append_assoc]
    · exact List.rel_append h2 g2
end

theorem inv_start (env : Fixed) (A : Nat → Nat → Prop) : Inv env A [] (fun _ => []) (fun _ => []) := fun k n => ⟨id, .inl⟩

theorem summary_good {env : Fixed} {init apply : Except E Unit} {calls : List (Call V)} {used : List (Option (Invocation V))}
    (h : evalSummary env init calls apply = .ok used) :
    List.Forall₂ (fun r e => Says r e ∧ Holds env (fun a k => ∃ c ∈ calls, Disturbs [] c a k) r e) used (expected env.name calls) := by
  unfold evalSummary at h
  cases init with
  | error e => cases h
  | ok u =>
    cases apply with
    | error e => cases h
    | ok u =>
      dsimp only at h
      obtain ⟨es, h1, h2, _⟩ := calls_good env (fun a k => ∃ c ∈ calls, Disturbs [] c a k) calls [] ⟨[], fun _ => []⟩ (fun _ => [])
        (fun c hc a k h => ⟨c, hc, h⟩) (fun a k ⟨s₁, s₂, e, h1, _⟩ => by
          rw [(List.append_eq_nil_iff.mp e.symm).1] at h1
          cases h1) (inv_start env _)
      rw [Except.ok.injEq] at h
      rw [← h, h1, List.nil_append]
      exact h2

theorem forall₂_get {α β : Type} {R : α → β → Prop} {as : List α} {bs : List β} (h : List.Forall₂ R as bs) :
    ∀ (i : Nat) (a : α) (b : β), as[i]? = some a → bs[i]? = some b → R a b := by
  induction h with
  | nil => intro i a b ha; simp at ha
  | cons hr _ ih =>
    intro i a b ha hb
    cases i with
    | zero => simp only [List.getElem?_cons_zero, Option.some.injEq] at ha hb; subst ha hb; exact hr
    | succ i => rw [List.getElem?_cons_succ] at ha hb; exact ih i a b ha hb

/-! ### What is recorded (C112) -/

/-- C112 a summary has one record per call of a method, in the order in which the calls began, with the module, the method, the arguments, the
output and the active calls; a call that raised has the record `None`.  Constructors and calls of `params_dict` and `state_dict` are left out. -/
theorem summary_calls {env : Fixed} {init apply : Except E Unit} {calls : List (Call V)} {used : List (Option (Invocation V))}
    (h : evalSummary env init calls apply = .ok used) : List.Forall₂ Says used (expected env.name calls) :=
  (summary_good h).imp fun _ _ h => h.1

/-- C112 there is a summary if and only if the function raises neither in `init` nor in `apply`. -/
theorem summary_iff {env : Fixed} {init apply : Except E Unit} {calls : List (Call V)} :
    (∃ used, evalSummary env init calls apply = .ok used) ↔ init = .ok () ∧ apply = .ok () := by
  unfold evalSummary
  cases init with
  | error e => simp
  | ok u => cases apply with
    | error e => simp
    | ok u => simp

/-- A call that is not left out raised, somewhere. -/
inductive Fails : Call V → Prop
  | here {m method args inner} : ¬ Silent method → Fails (.mk m method args inner none)
  | inside {m method args inner result c} : c ∈ inner → Fails c → Fails (.mk m method args inner result)

mutual
theorem fails_call (name : Nat → Str) : ∀ (c : Call V) (active : List (Nat × Str)) (used : Nat → List Str),
    none ∈ (expectCall name active used c).2 ↔ Fails c
  | .mk m method args inner result, active, used => by
    have ih := fails_calls name inner ((m, method) :: active) used
    have step : (∃ c ∈ inner, Fails c) → Fails (.mk m method args inner result) := fun ⟨c, hc, h⟩ => .inside hc h
    unfold expectCall
    dsimp only
    by_cases hs : Silent method
    · have back : Fails (.mk m method args inner result) → ∃ c ∈ inner, Fails c := fun h => by
        cases h with
        | here h => exact absurd hs h
        | inside hc h => exact ⟨_, hc, h⟩
      cases result with
      | none => dsimp only; rw [if_pos hs, ih]; exact ⟨step, back⟩
      | some out => dsimp only; rw [if_pos hs, ih]; exact ⟨step, back⟩
    · cases result with
      | none => dsimp only; rw [if_neg hs]; exact ⟨fun _ => .here hs, fun _ => List.mem_cons_self⟩
      | some out =>
        dsimp only
        rw [if_neg hs, List.mem_cons, ih]
        constructor
        · rintro (h | h)
          · cases h
          · exact step h
        · intro h
          cases h with
          | inside hc h => exact .inr ⟨_, hc, h⟩
theorem fails_calls (name : Nat → Str) : ∀ (cs : List (Call V)) (active : List (Nat × Str)) (used : Nat → List Str),
    none ∈ (expectCalls name active used cs).2 ↔ ∃ c ∈ cs, Fails c
  | [], active, used => by unfold expectCalls; simp
  | c :: cs, active, used => by
    unfold expectCalls
    dsimp only
    rw [List.mem_append, fails_call name c, fails_calls name cs]
    constructor
    · rintro (h | ⟨d, hd, h⟩)
      · exact ⟨c, List.mem_cons_self, h⟩
      · exact ⟨d, List.mem_cons_of_mem _ hd, h⟩
    · rintro ⟨d, hd, h⟩
      rcases List.mem_cons.mp hd with rfl | hd
      · exact .inl h
      · exact .inr ⟨d, hd, h⟩
end

theorem none_mem {es : List (Option (Invocation V))} {xs : List (Option (Entry V))} (h : List.Forall₂ Says es xs) : none ∈ es ↔ none ∈ xs := by
  induction h with
  | nil => simp
  | @cons r e _ _ hr _ ih =>
    rw [List.mem_cons, List.mem_cons, ih]
    cases r <;> cases e
    · simp
    · exact absurd hr id
    · exact absurd hr id
    · simp

/-- C112 exactly when a call raised, and the function caught the exception, is there a gap in the summary: `None` instead of a record. -/
theorem gap_iff {env : Fixed} {init apply : Except E Unit} {calls : List (Call V)} {used : List (Option (Invocation V))}
    (h : evalSummary env init calls apply = .ok used) : none ∈ used ↔ ∃ c ∈ calls, Fails c :=
  (none_mem (summary_calls h)).trans (fails_calls env.name calls [] _)

/-- C112 when no call of a method raises, the summary is a list of records, one per call, that say what they should.  Missing from the full
statement: functions that catch an exception of a method, for which it fails (`caught_leaves_gap`), and a call stack without the call
itself, as documented (`call_stack_documented`). -/
theorem records_partial {env : Fixed} {init apply : Except E Unit} {calls : List (Call V)} {used : List (Option (Invocation V))}
    (h : evalSummary env init calls apply = .ok used) (hf : ¬ ∃ c ∈ calls, Fails c) :
    ∃ rs es, used = rs.map some ∧ expected env.name calls = es.map some ∧ List.Forall₂ (fun r e => r.details.module = e.module ∧
      r.details.method = e.method ∧ r.args = e.args ∧ r.output = e.output ∧ r.callStack.map (fun d => (d.module, d.method)) = e.active) rs es := by
  have hn : none ∉ used := fun hn => hf ((gap_iff h).mp hn)
  have hs := summary_calls h
  clear h
  generalize expected env.name calls = xs at hs
  induction hs with
  | nil => exact ⟨[], [], rfl, rfl, .nil⟩
  | @cons r e _ _ hr _ ih =>
    obtain ⟨rs, es, h1, h2, h3⟩ := ih fun hm => hn (List.mem_cons_of_mem _ hm)
    cases r with
    | none => exact absurd List.mem_cons_self hn
    | some r =>
      cases e with
      | none => exact absurd hr id
      | some e => exact ⟨r :: rs, e :: es, by rw [h1]; rfl, by rw [h2]; rfl, .cons hr h3⟩

/-! ### The parameters recorded (C113) -/

theorem dict_congr {β : Type} (n : Str) (s s' : List Str) : ∀ (d : Dict Str (Dict Str β)) (out : Dict Str β),
    (∀ p ∈ d, Frame.belongs n s p.1 = Frame.belongs n s' p.1 ∨ p.2 = []) →
    (d.filter fun p => Frame.belongs n s p.1).foldl (fun out p => p.2.foldl (fun out q => Dict.set out (Frame.fqName p.1 q.1) q.2) out) out =
      (d.filter fun p => Frame.belongs n s' p.1).foldl (fun out p => p.2.foldl (fun out q => Dict.set out (Frame.fqName p.1 q.1) q.2) out) out
  | [], out, h => rfl
  | p :: d, out, h => by
    have ih := fun out => dict_congr n s s' d out fun q hq => h q (List.mem_cons_of_mem _ hq)
    rw [List.filter_cons, List.filter_cons]
    rcases h p List.mem_cons_self with h | h
    · rw [h]
      cases Frame.belongs n s' p.1
      · exact ih out
      · exact ih _
    · have h0 : ∀ (l : List (Str × Dict Str β)) (b : Bool), (if b then p :: l else l).foldl
          (fun out p => p.2.foldl (fun out q => Dict.set out (Frame.fqName p.1 q.1) q.2) out) out =
          l.foldl (fun out p => p.2.foldl (fun out q => Dict.set out (Frame.fqName p.1 q.1) q.2) out) out := by
        intro l b
        cases b
        · rfl
        · show List.foldl _ (p.2.foldl _ out) l = _
          rw [h]; rfl
      rw [h0, h0]
      exact ih out

/-- C113 the parameters a record holds are those `params_dict()` returns without a summary, when no module that disturbs the module owns parameters
itself.  Missing from the full statement: the case in which one does, where it fails (`params_of_caller`). -/
theorem params_exact_partial {env : Fixed} {init apply : Except E Unit} {calls : List (Call V)} {used : List (Option (Invocation V))}
    (h : evalSummary env init calls apply = .ok used) {i : Nat} {r : Invocation V} {e : Entry V} (hr : used[i]? = some (some r))
    (he : (expected env.name calls)[i]? = some (some e))
    (hown : ∀ a, (∃ c ∈ calls, Disturbs [] c a e.module) → ∀ b, (env.name a, b) ∈ env.params → b = []) :
    r.details.params = Frame.paramsOrStateDict (env.name e.module) e.users env.params := by
  obtain ⟨_, subs, h1, h2, h3⟩ := forall₂_get (summary_good h) i _ _ hr he
  rw [h1]
  refine dict_congr _ _ _ _ _ fun p hp => ?_
  by_cases hs : p.1 ∈ subs ∧ p.1 ∉ e.users
  · refine .inr ?_
    rcases h3 p.1 hs.1 with h' | ⟨a, ha, h'⟩
    · exact absurd h' hs.2
    · exact hown a ha p.2 (by rw [← h']; exact hp)
  · refine .inl ?_
    have : p.1 ∈ subs ↔ p.1 ∈ e.users := ⟨fun h => Decidable.byContradiction fun h' => hs ⟨h, h'⟩, h2 _⟩
    rw [Bool.eq_iff_iff, Submodules.belongs_iff, Submodules.belongs_iff]
    unfold Selected
    rw [this]

theorem keys_ofItems {β : Type} (l : List (Str × β)) (x : Str) (h : x ∈ l.map Prod.fst) : x ∈ (Dict.ofItems l).map Prod.fst := by
  have key : ∀ (l : List (Str × β)) (out : Dict Str β), (x ∈ out.keys ∨ x ∈ l.map Prod.fst) →
      x ∈ (l.foldl (fun d p => d.set p.1 p.2) out).keys := by
    intro l
    induction l with
    | nil => intro out h; exact h.elim id fun h => by cases h
    | cons y l ih =>
      intro out h
      rw [List.foldl_cons]
      refine ih _ ?_
      rcases h with h | h
      · exact .inl ((Dict.keys_prefix_set out _ _).subset h)
      · rw [List.map_cons, List.mem_cons] at h
        rcases h with rfl | h
        · exact .inl (by rw [Dict.mem_keys_iff, Dict.get?_set_self]; rfl)
        · exact .inr h
  exact key l [] (.inr h)

/-- C113 in every case a record holds at least one value for every parameter of the module, of modules below its name, and of the modules it
used: nothing is missing. -/
theorem params_complete {env : Fixed} {init apply : Except E Unit} {calls : List (Call V)} {used : List (Option (Invocation V))}
    (h : evalSummary env init calls apply = .ok used) {i : Nat} {r : Invocation V} {e : Entry V} (hr : used[i]? = some (some r))
    (he : (expected env.name calls)[i]? = some (some e)) {b n : Str} {d : Dict Str ArraySpec} {x : ArraySpec} (hd : (b, d) ∈ env.params)
    (hx : (n, x) ∈ d) (hs : Selected (env.name e.module) e.users b) : b ++ '/' :: n ∈ r.details.params.map Prod.fst := by
  obtain ⟨_, subs, h1, h2, h3⟩ := forall₂_get (summary_good h) i _ _ hr he
  rw [h1, Submodules.dict_eq]
  have hm : (b ++ '/' :: n, x) ∈ Submodules.flat (env.name e.module) subs env.params :=
    Submodules.mem_flat.mpr ⟨(b, d), hd, hs.imp id (Or.imp id (h2 b)), (n, x), hx, rfl⟩
  exact keys_ofItems _ _ (List.mem_map.mpr ⟨_, hm, rfl⟩)

/-- C113 in every case a record holds only parameters of the module, of modules below its name, of the modules it used, and of modules that
disturb it. -/
theorem params_sound {env : Fixed} {init apply : Except E Unit} {calls : List (Call V)} {used : List (Option (Invocation V))}
    (h : evalSummary env init calls apply = .ok used) {i : Nat} {r : Invocation V} {e : Entry V} (hr : used[i]? = some (some r))
    (he : (expected env.name calls)[i]? = some (some e)) {k : Str} {x : ArraySpec} (hk : (k, x) ∈ r.details.params) :
    ∃ b d n, (b, d) ∈ env.params ∧ (n, x) ∈ d ∧ k = b ++ '/' :: n ∧
      (Selected (env.name e.module) e.users b ∨ ∃ a, (∃ c ∈ calls, Disturbs [] c a e.module) ∧ b = env.name a) := by
  obtain ⟨_, subs, h1, h2, h3⟩ := forall₂_get (summary_good h) i _ _ hr he
  rw [h1, Submodules.dict_eq] at hk
  obtain ⟨p, hp, hs, q, hq, e'⟩ := Submodules.mem_flat.mp (Dict.mem_ofItems hk)
  rw [Prod.mk.injEq] at e'
  refine ⟨p.1, p.2, q.1, hp, by rw [e'.2]; exact hq, e'.1, ?_⟩
  rcases hs with hs | hs | hs
  · exact .inl (.inl hs)
  · exact .inl (.inr (.inl hs))
  · rcases h3 _ hs with h' | h'
    · exact .inl (.inr (.inr h'))
    · exact .inr h'

/-! ### Cases -/

/-- Module 0 is "p", 1 is "p/c" and 2 is "p/c/g"; "p" and "p/c/g" own a parameter each. -/
def env₃ : Fixed where
  name := fun k => if k = 0 then "p".toList else if k = 1 then "p/c".toList else "p/c/g".toList
  params := [("p".toList, [("w".toList, ⟨[2], "float32".toList, 4⟩)]), ("p/c/g".toList, [("w".toList, ⟨[3], "float32".toList, 4⟩)])]

/-- The method `__call__`. -/
def callName : Str := "__call__".toList

/-- "p" calls "p/c", which calls "p/c/g". -/
def nested : List (Call Nat) := [.mk 0 callName 10 [.mk 1 callName 11 [.mk 2 callName 12 [] (some 22)] (some 21)] (some 20)]

/-- "p" creates "p/c" and calls it; the call raises, "p" catches the exception and calls "p/c/g". -/
def caught : List (Call Nat) :=
  [.mk 0 callName 10 [.mk 1 "__init__".toList 0 [] (some 0), .mk 1 callName 11 [] none, .mk 2 callName 12 [] (some 22)] (some 20)]

/-- The records without parameters. -/
def brief (r : Option (Invocation Nat)) : Option (Nat × Nat × Nat × List Nat) := r.map fun r => (r.details.module, r.args, r.output, r.callStack.map (·.module))

/-- The summary of calls. -/
def usedBy (calls : List (Call Nat)) : List (Option (Invocation Nat)) := (runCalls env₃ [] ⟨[], fun _ => []⟩ calls).used

/-- A summary of three nested calls: in the order in which they began, with the active calls, the call itself first. -/
example : evalSummary (E := Unit) env₃ (.ok ()) nested (.ok ()) = .ok (usedBy nested) ∧
    (usedBy nested).map brief = [some (0, 10, 20, [0]), some (1, 11, 21, [1, 0]), some (2, 12, 22, [2, 1, 0])] := ⟨rfl, by decide +kernel⟩

/-- What the summary should say. -/
example : ((expected env₃.name nested).map fun e => e.map fun e => (e.output, e.active.map Prod.fst, e.users.map String.ofList)) =
    [some (20, [0], ["p/c/g", "p/c"]), some (21, [1, 0], ["p/c/g"]), some (22, [2, 1, 0], [])] := by decide +kernel

/-- C112 fails as documented, in which the call stack of `C`, called by `B`, called by `A`, is `[B, A]`: it is `[C, B, A]`. -/
theorem call_stack_documented : ∃ r, (usedBy nested)[2]? = some (some r) ∧ r.callStack.map (·.module) = [2, 1, 0] ∧ r.callStack.map (·.module) ≠ [1, 0] := by
  have h : ((usedBy nested)[2]?.bind id).isSome = true ∧ ∀ r ∈ (usedBy nested)[2]?.bind id, r.callStack.map (·.module) = [2, 1, 0] := by
    decide +kernel
  cases e : (usedBy nested)[2]? with
  | none => rw [e] at h; exact absurd h.1 (by simp)
  | some o =>
    cases o with
    | none => rw [e] at h; exact absurd h.1 (by simp)
    | some r =>
      rw [e] at h
      have := h.2 r rfl
      exact ⟨r, rfl, this, by rw [this]; decide⟩

/-- C112 fails when the function catches the exception of a method: the summary has `None` for the call. -/
theorem caught_leaves_gap : evalSummary (E := Unit) env₃ (.ok ()) caught (.ok ()) = .ok (usedBy caught) ∧
    (usedBy caught).map brief = [some (0, 10, 20, [0]), none, some (2, 12, 22, [2, 0])] := ⟨rfl, by decide +kernel⟩

/-- `gap_iff` on this case: the call of "p/c" raised. -/
example : none ∈ usedBy caught ∧ ∃ c ∈ caught, Fails c :=
  have h : ∃ c ∈ caught, Fails c := ⟨_, List.mem_cons_self, .inside (List.mem_cons_of_mem _ List.mem_cons_self) (.here (by decide))⟩
  ⟨(gap_iff caught_leaves_gap.1).mpr h, h⟩

/-- C113 fails for modules called by a module that owns parameters: the record of "p/c" has the parameter of "p", which called it, and so
`tabulate` shows five instead of three numbers for "p/c". -/
theorem params_of_caller : ((usedBy nested)[1]?.bind id).map (fun r => (r.details.params.map fun kv => (String.ofList kv.1, kv.2.shape), treeSize r.details.params)) =
      some ([("p/w", [2]), ("p/c/g/w", [3])], 5) ∧
    (((expected env₃.name nested)[1]?.bind id).map fun e => (Frame.paramsOrStateDict (env₃.name e.module) e.users env₃.params).map fun kv => String.ofList kv.1) =
      some ["p/c/g/w"] := ⟨by decide +kernel, by decide +kernel⟩

/-- "p/c" calls "p/c/g" in a function that is no module. -/
def flatCalls : List (Call Nat) := [.mk 1 callName 11 [.mk 2 callName 12 [] (some 22)] (some 21)]

/-- `params_exact_partial` applies to "p/c" when no module calls it, and its record has the parameter of "p/c/g" only. -/
example : (∀ a, (∃ c ∈ flatCalls, Disturbs [] c a 1) → ∀ b, (env₃.name a, b) ∈ env₃.params → b = []) ∧
    ((usedBy flatCalls)[0]?.bind id).map (fun r => (r.details.module, r.details.params.map fun kv => String.ofList kv.1)) = some (1, ["p/c/g/w"]) := by
  refine ⟨?_, by decide +kernel⟩
  rintro a ⟨c, hc, h⟩
  rw [show c = .mk 1 callName 11 [.mk 2 callName 12 [] (some 22)] (some 21) from List.mem_singleton.mp hc] at h
  cases h with
  | outer h => cases h
  | inner hc h =>
    rw [List.mem_singleton] at hc
    subst hc
    cases h with
    | inner hc h => cases hc

end Verif.Props.Summarise
