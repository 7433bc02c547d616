import Verif.Model.MethodHooks
import Mathlib.Logic.Basic

/-!
# Method hooks (C179, C180)
-/

set_option linter.unusedVariables false

namespace Verif.Props.MethodHooks
open Verif.MethodHooks

variable {σ E V : Type}

/-! ### Specification -/

/-- Every hook that was entered is left once, after those entered later, with the same methods running; hooks that failed to enter are not left. -/
inductive Balanced : List Event → Prop where
  | nil : Balanced []
  | failed (i m) {t} : Balanced t → Balanced (.failed i m :: t)
  | pair (i m) {s t} : Balanced s → Balanced t → Balanced (.enter i m :: (s ++ .exit i m :: t))

theorem Balanced.append {s t : List Event} (hs : Balanced s) (ht : Balanced t) : Balanced (s ++ t) := by
  induction hs with
  | nil => exact ht
  | failed i m _ ih => exact .failed i m ih
  | pair i m h1 _ _ ih =>
    rw [List.cons_append, List.append_assoc, List.cons_append]
    exact .pair i m h1 ih

theorem exitAll_spec (method : String) : ∀ (hooks : List (Nat × Hook σ E)) (exc : Option (Exn E)) (w : World σ),
    (exitAll method hooks exc w).2.trace = w.trace ++ hooks.map (fun p => .exit p.1 w.methods) ∧ (exitAll method hooks exc w).2.methods = w.methods := by
  intro hooks
  induction hooks with
  | nil => intro exc w; exact ⟨(List.append_nil _).symm, rfl⟩
  | cons p hooks ih =>
    intro exc w
    obtain ⟨i, h⟩ := p
    unfold exitAll
    obtain ⟨h1, h2⟩ := ih (match (h.exit method exc w.state).1 with | .keep => exc | .suppress => none | .raise e => some e) { w with state := (h.exit method exc w.state).2, trace := w.trace ++ [.exit i w.methods] }
    refine ⟨h1.trans ?_, h2⟩
    simp

theorem enterAll_spec (method : String) : ∀ (hooks entered : List (Nat × Hook σ E)) (w : World σ), ∃ done : List (Nat × Hook σ E),
    (enterAll method hooks entered w).2.1 = done.reverse ++ entered ∧ (enterAll method hooks entered w).2.2.methods = w.methods ∧
    (((enterAll method hooks entered w).1 = none ∧ done = hooks ∧ (enterAll method hooks entered w).2.2.trace = w.trace ++ done.map (fun p => .enter p.1 w.methods)) ∨
      ∃ i h rest e, (enterAll method hooks entered w).1 = some e ∧ hooks = done ++ (i, h) :: rest ∧ (enterAll method hooks entered w).2.2.trace = w.trace ++ done.map (fun p => .enter p.1 w.methods) ++ [.failed i w.methods]) := by
  intro hooks
  induction hooks with
  | nil => intro entered w; exact ⟨[], rfl, rfl, .inl ⟨rfl, rfl, by simp [enterAll]⟩⟩
  | cons p hooks ih =>
    intro entered w
    obtain ⟨i, h⟩ := p
    unfold enterAll
    rcases he : h.enter method w.state with ⟨e | e, s⟩
    · obtain ⟨done, h1, h2, h3⟩ := ih ((i, h) :: entered) { w with state := s, trace := w.trace ++ [.enter i w.methods] }
      refine ⟨(i, h) :: done, ?_, h2, ?_⟩
      · rw [List.reverse_cons, List.append_assoc]
        exact h1
      · rcases h3 with ⟨a, b, c⟩ | ⟨i', h', rest, e, a, b, c⟩
        · refine .inl ⟨a, by rw [b], c.trans ?_⟩
          simp
        · refine .inr ⟨i', h', rest, e, a, by rw [b]; rfl, c.trans ?_⟩
          simp
    · exact ⟨[], rfl, rfl, .inr ⟨i, h, hooks, e, rfl, rfl, by simp⟩⟩

/-- What is around: entering hooks, something balanced, leaving them in the opposite order. -/
theorem balanced_around (methods : List String) : ∀ (hooks : List (Nat × Hook σ E)) {t : List Event}, Balanced t →
    Balanced (hooks.map (fun p => Event.enter p.1 methods) ++ t ++ hooks.reverse.map (fun p => .exit p.1 methods)) := by
  intro hooks
  induction hooks with
  | nil => intro t h; simpa using h
  | cons p hooks ih =>
    intro t h
    have := Balanced.pair p.1 methods (ih h) .nil
    simpa using this

/-- A body of a method that only adds balanced events and restores the stack of methods. -/
def Tidy (body : World σ → Except (Exn E) V × World σ) : Prop := ∀ w, (∃ t, (body w).2.trace = w.trace ++ t ∧ Balanced t) ∧ (body w).2.methods = w.methods

theorem tidy_call (hooks : List (Nat × Hook σ E)) (method : String) {body : World σ → Except (Exn E) V × World σ} (hb : Tidy body) : Tidy (callMethod hooks method body) := by
  intro w
  have key : ∀ w : World σ, (∃ t, (withHooks hooks method body w).2.trace = w.trace ++ t ∧ Balanced t) ∧ (withHooks hooks method body w).2.methods = w.methods := by
    intro w
    obtain ⟨done, h1, h2, h3⟩ := enterAll_spec method hooks [] w
    unfold withHooks
    rcases hr : enterAll method hooks [] w with ⟨exc, entered, w1⟩
    rw [hr] at h1 h2 h3
    dsimp only at h1 h2 h3
    rw [List.append_nil] at h1
    rcases h3 with ⟨rfl, rfl, h3⟩ | ⟨i, h, rest, e, rfl, hh, h3⟩
    · dsimp only
      obtain ⟨⟨t, h4, h5⟩, h6⟩ := hb w1
      rcases hbody : body w1 with ⟨r, w2⟩
      rw [hbody] at h4 h6
      dsimp only at h4 h6
      have fin : ∀ exc, (∃ t, (exitAll method entered exc w2).2.trace = w.trace ++ t ∧ Balanced t) ∧ (exitAll method entered exc w2).2.methods = w.methods := by
        intro exc
        obtain ⟨h7, h8⟩ := exitAll_spec method entered exc w2
        refine ⟨⟨_, ?_, balanced_around w.methods done h5⟩, h8.trans (h6.trans h2)⟩
        rw [h7, h4, h3, h1, h6, h2]
        simp
      rcases r with e | v
      · dsimp only
        have := fin (some e)
        rcases hx : exitAll method entered (some e) w2 with ⟨e' | e', w3⟩
        · rw [hx] at this; exact this
        · rw [hx] at this; exact this
      · dsimp only
        have := fin none
        rcases hx : exitAll method entered none w2 with ⟨e' | e', w3⟩
        · rw [hx] at this; exact this
        · rw [hx] at this; exact this
    · dsimp only
      have fin : (∃ t, (exitAll method entered (some e) w1).2.trace = w.trace ++ t ∧ Balanced t) ∧ (exitAll method entered (some e) w1).2.methods = w.methods := by
        obtain ⟨h7, h8⟩ := exitAll_spec method entered (some e) w1
        refine ⟨⟨_, ?_, balanced_around w.methods done (.failed i w.methods .nil)⟩, h8.trans h2⟩
        rw [h7, h3, h1, h2]
        simp
      rcases hx : exitAll method entered (some e) w1 with ⟨e' | e', w3⟩
      · rw [hx] at fin; exact fin
      · rw [hx] at fin; exact fin
  obtain ⟨h1, h2⟩ := key { w with methods := method :: w.methods }
  unfold callMethod
  refine ⟨h1, ?_⟩
  dsimp only
  rw [h2]
  rfl

/-- C179 in every program, whatever hooks, methods and programs raise or suppress: each hook that was entered is left exactly once, in the opposite order, while the same methods run, and afterwards the stack of methods is as before. -/
theorem hooks_balanced (p : Prog σ E V) : ∀ hooks : List (Nat × Hook σ E), Tidy (p.run hooks) := by
  induction p with
  | ret v => intro hooks w; exact ⟨⟨[], (List.append_nil _).symm, .nil⟩, rfl⟩
  | raise e => intro hooks w; exact ⟨⟨[], (List.append_nil _).symm, .nil⟩, rfl⟩
  | act f => intro hooks w; exact ⟨⟨[], (List.append_nil _).symm, .nil⟩, rfl⟩
  | bind p k ihp ihk =>
    intro hooks w
    obtain ⟨⟨t, h1, h2⟩, h3⟩ := ihp hooks w
    unfold Prog.run
    rcases hr : p.run hooks w with ⟨e | v, w1⟩
    · rw [hr] at h1 h3
      exact ⟨⟨t, h1, h2⟩, h3⟩
    · rw [hr] at h1 h3
      dsimp only at h1 h3 ⊢
      obtain ⟨⟨t', h1', h2'⟩, h3'⟩ := ihk v hooks w1
      exact ⟨⟨t ++ t', by rw [h1', h1, List.append_assoc], h2.append h2'⟩, h3'.trans h3⟩
  | tryCatch p k ihp ihk =>
    intro hooks w
    obtain ⟨⟨t, h1, h2⟩, h3⟩ := ihp hooks w
    unfold Prog.run
    rcases hr : p.run hooks w with ⟨e | v, w1⟩
    · rw [hr] at h1 h3
      dsimp only at h1 h3 ⊢
      obtain ⟨⟨t', h1', h2'⟩, h3'⟩ := ihk e hooks w1
      exact ⟨⟨t ++ t', by rw [h1', h1, List.append_assoc], h2.append h2'⟩, h3'.trans h3⟩
    · rw [hr] at h1 h3
      exact ⟨⟨t, h1, h2⟩, h3⟩
  | call method p ih => intro hooks; exact tidy_call hooks method (ih hooks)
  | hooked i h p ih => intro hooks; exact ih ((i, h) :: hooks)

/-- C179 a method returns a value only if its body returned that value, whatever the hooks do. -/
theorem call_returns {hooks : List (Nat × Hook σ E)} {method : String} {body : World σ → Except (Exn E) V × World σ} {w w' : World σ} {v : V} (h : callMethod hooks method body w = (.ok v, w')) :
    ∃ w1 w2, body w1 = (.ok v, w2) ∧ w1.methods = method :: w.methods := by
  unfold callMethod at h
  obtain ⟨h, -⟩ := Prod.mk.inj h
  obtain ⟨done, -, h2, -⟩ := enterAll_spec method hooks [] { w with methods := method :: w.methods }
  unfold withHooks at h
  rcases hr : enterAll method hooks [] { w with methods := method :: w.methods } with ⟨e | e, entered, w1⟩
  · rw [hr] at h h2
    dsimp only at h h2
    rcases hb : body w1 with ⟨e | v', w2⟩
    · rw [hb] at h
      dsimp only at h
      rcases hx : exitAll method entered (some e) w2 with ⟨e' | e', w3⟩ <;> rw [hx] at h <;> cases h
    · rw [hb] at h
      dsimp only at h
      rcases hx : exitAll method entered none w2 with ⟨e' | e', w3⟩ <;> rw [hx] at h <;> cases h
      exact ⟨w1, w2, hb, h2⟩
  · rw [hr] at h
    dsimp only at h
    rcases hx : exitAll method entered (some e) w1 with ⟨e' | e', w3⟩ <;> rw [hx] at h <;> cases h

/-! ### C180: hooks that only watch -/

/-- A hook that never raises and never suppresses. -/
def Calm (h : Hook σ E) : Prop := (∀ m s, (h.enter m s).1 = none) ∧ ∀ m e s, (h.exit m e s).1 = .keep

theorem enterAll_calm (method : String) : ∀ (hooks entered : List (Nat × Hook σ E)) (w : World σ), (∀ p ∈ hooks, Calm p.2) → (enterAll method hooks entered w).1 = none := by
  intro hooks
  induction hooks with
  | nil => intro _ _ _; rfl
  | cons p hooks ih =>
    intro entered w hc
    obtain ⟨i, h⟩ := p
    unfold enterAll
    have := (hc _ List.mem_cons_self).1 method w.state
    rcases he : h.enter method w.state with ⟨e | e, s⟩
    · exact ih _ _ fun p hp => hc p (List.mem_cons_of_mem _ hp)
    · dsimp only at this
      rw [he] at this
      cases this

theorem exitAll_calm (method : String) : ∀ (hooks : List (Nat × Hook σ E)) (exc : Option (Exn E)) (w : World σ), (∀ p ∈ hooks, Calm p.2) → (exitAll method hooks exc w).1 = exc := by
  intro hooks
  induction hooks with
  | nil => intro _ _ _; rfl
  | cons p hooks ih =>
    intro exc w hc
    obtain ⟨i, h⟩ := p
    unfold exitAll
    dsimp only
    rw [(hc _ List.mem_cons_self).2 method exc w.state]
    exact ih _ _ fun p hp => hc p (List.mem_cons_of_mem _ hp)

theorem enterAll_state (method : String) : ∀ (hooks entered : List (Nat × Hook σ E)) (w : World σ), (∀ p ∈ hooks, Calm p.2) → (enterAll method hooks entered w).2.2.state = hooks.foldl (fun s p => (p.2.enter method s).2) w.state := by
  intro hooks
  induction hooks with
  | nil => intro _ _ _; rfl
  | cons p hooks ih =>
    intro entered w hc
    obtain ⟨i, h⟩ := p
    unfold enterAll
    have := (hc _ List.mem_cons_self).1 method w.state
    rw [List.foldl_cons]
    rcases he : h.enter method w.state with ⟨e | e, s⟩
    · exact ih _ _ fun p hp => hc p (List.mem_cons_of_mem _ hp)
    · dsimp only at this
      rw [he] at this
      cases this

theorem exitAll_state (method : String) : ∀ (hooks : List (Nat × Hook σ E)) (exc : Option (Exn E)) (w : World σ), (∀ p ∈ hooks, Calm p.2) →
    (exitAll method hooks exc w).2.state = hooks.foldl (fun s p => (p.2.exit method exc s).2) w.state := by
  intro hooks
  induction hooks with
  | nil => intro _ _ _; rfl
  | cons p hooks ih =>
    intro exc w hc
    obtain ⟨i, h⟩ := p
    unfold exitAll
    dsimp only
    rw [(hc _ List.mem_cons_self).2 method exc w.state]
    exact ih _ _ fun p hp => hc p (List.mem_cons_of_mem _ hp)

/-- The exception of a result. -/
def raised : Except (Exn E) V → Option (Exn E)
  | .ok _ => none
  | .error e => some e

/-- C180 under calm hooks a method does what its body does: it enters all hooks, the last registered first, runs the body, and leaves the hooks, the first registered first, each seeing the exception of the body if there is one; it
returns or raises what the body does. -/
theorem call_calm {hooks : List (Nat × Hook σ E)} (hc : ∀ p ∈ hooks, Calm p.2) (method : String) (body : World σ → Except (Exn E) V × World σ) (w : World σ) :
    let start : World σ := ⟨hooks.foldl (fun s p => (p.2.enter method s).2) w.state, method :: w.methods, w.trace ++ hooks.map fun p => .enter p.1 (method :: w.methods)⟩
    callMethod hooks method body w = ((body start).1,
      ⟨hooks.reverse.foldl (fun s p => (p.2.exit method (raised (body start).1) s).2) (body start).2.state, (body start).2.methods.drop 1, (body start).2.trace ++ hooks.reverse.map fun p => .exit p.1 (body start).2.methods⟩) := by
  obtain ⟨done, h1, h2, h3⟩ := enterAll_spec method hooks [] { w with methods := method :: w.methods }
  have hn := enterAll_calm method hooks [] { w with methods := method :: w.methods } hc
  have hs := enterAll_state method hooks [] { w with methods := method :: w.methods } hc
  unfold callMethod withHooks
  rcases hr : enterAll method hooks [] { w with methods := method :: w.methods } with ⟨exc, entered, w1⟩
  rw [hr] at h1 h2 h3 hn hs
  dsimp only at h1 h2 h3 hn hs
  subst hn
  rcases h3 with ⟨-, rfl, h3⟩ | ⟨i, h, rest, e, h3, -, -⟩
  rotate_left
  · cases h3
  rw [List.append_nil] at h1
  obtain ⟨s1, m1, t1⟩ := w1
  dsimp only at h2 h3 hs
  subst h1 h2 h3 hs
  have hc' : ∀ p ∈ done.reverse, Calm p.2 := fun p hp => hc p (List.mem_reverse.1 hp)
  dsimp only
  generalize body _ = r
  obtain ⟨r, w2⟩ := r
  have key : ∀ exc, exitAll method done.reverse exc w2 = (exc, ⟨done.reverse.foldl (fun s p => (p.2.exit method exc s).2) w2.state, w2.methods, w2.trace ++ done.reverse.map fun p => .exit p.1 w2.methods⟩) := by
    intro exc
    have a := exitAll_calm method done.reverse exc w2 hc'
    have b := exitAll_state method done.reverse exc w2 hc'
    obtain ⟨c, d⟩ := exitAll_spec method done.reverse exc w2
    rcases hx : exitAll method done.reverse exc w2 with ⟨exc, ⟨s3, m3, t3⟩⟩
    rw [hx] at a b c d
    dsimp only at a b c d
    subst a b c d
    rfl
  rcases r with e | v
  · dsimp only
    rw [key]
    rfl
  · dsimp only
    rw [key]
    rfl

/-- A hook that changes nothing the program sees. -/
def Passive (h : Hook σ E) : Prop := Calm h ∧ (∀ m s, (h.enter m s).2 = s) ∧ ∀ m e s, (h.exit m e s).2 = s

/-- The program registers passive hooks only. -/
inductive Watched : Prog σ E V → Prop where
  | ret v : Watched (.ret v)
  | raise e : Watched (.raise e)
  | act f : Watched (.act f)
  | bind {p k} : Watched p → (∀ v, Watched (k v)) → Watched (.bind p k)
  | tryCatch {p h} : Watched p → (∀ e, Watched (h e)) → Watched (.tryCatch p h)
  | call method {p} : Watched p → Watched (.call method p)
  | hooked i {h p} : Passive h → Watched p → Watched (.hooked i h p)

/-- What the program does itself: its result and the state. -/
def plain : Prog σ E V → σ → Except (Exn E) V × σ
  | .ret v, s => (.ok v, s)
  | .raise e, s => (.error e, s)
  | .act f, s => f s
  | .bind p k, s =>
    match plain p s with
    | (.ok v, s) => plain (k v) s
    | (.error e, s) => (.error e, s)
  | .tryCatch p h, s =>
    match plain p s with
    | (.ok v, s) => (.ok v, s)
    | (.error e, s) => plain (h e) s
  | .call _ p, s => plain p s
  | .hooked _ _ p, s => plain p s

/-- C180 hooks that only watch are invisible: in every program each result and state is that without hooks. -/
theorem watch_invisible {p : Prog σ E V} (hp : Watched p) : ∀ {hooks : List (Nat × Hook σ E)} (w : World σ), (∀ q ∈ hooks, Passive q.2) → (p.run hooks w).1 = (plain p w.state).1 ∧ (p.run hooks w).2.state = (plain p w.state).2 := by
  induction hp with
  | ret v => intro hooks w _; exact ⟨rfl, rfl⟩
  | raise e => intro hooks w _; exact ⟨rfl, rfl⟩
  | act f => intro hooks w _; exact ⟨rfl, rfl⟩
  | bind _ _ ihp ihk =>
    rename_i p k _ _
    intro hooks w hh
    obtain ⟨h1, h2⟩ := ihp w hh
    unfold Prog.run plain
    rcases hr : p.run hooks w with ⟨e | v, w1⟩ <;> rcases hq : plain p w.state with ⟨e' | v', s⟩ <;> rw [hr, hq] at h1 <;> rw [hr, hq] at h2 <;> dsimp only at h1 h2 ⊢ <;> cases h1 <;> subst h2
    · exact ⟨rfl, rfl⟩
    · exact ihk v w1 hh
  | tryCatch _ _ ihp ihk =>
    rename_i p k _ _
    intro hooks w hh
    obtain ⟨h1, h2⟩ := ihp w hh
    unfold Prog.run plain
    rcases hr : p.run hooks w with ⟨e | v, w1⟩ <;> rcases hq : plain p w.state with ⟨e' | v', s⟩ <;> rw [hr, hq] at h1 <;> rw [hr, hq] at h2 <;> dsimp only at h1 h2 ⊢ <;> cases h1 <;> subst h2
    · exact ihk e w1 hh
    · exact ⟨rfl, rfl⟩
  | call method _ ih =>
    rename_i p _
    intro hooks w hh
    unfold Prog.run plain
    rw [call_calm (fun q hq => (hh q hq).1)]
    have e1 : ∀ (l : List (Nat × Hook σ E)) (s : σ), (∀ q ∈ l, Passive q.2) → l.foldl (fun s q => (q.2.enter method s).2) s = s := by
      intro l
      induction l with
      | nil => intro _ _; rfl
      | cons q l ih => intro s h; rw [List.foldl_cons, (h q List.mem_cons_self).2.1, ih _ fun q hq => h q (List.mem_cons_of_mem _ hq)]
    have e2 : ∀ exc (l : List (Nat × Hook σ E)) (s : σ), (∀ q ∈ l, Passive q.2) → l.foldl (fun s q => (q.2.exit method exc s).2) s = s := by
      intro exc l
      induction l with
      | nil => intro _ _; rfl
      | cons q l ih => intro s h; rw [List.foldl_cons, (h q List.mem_cons_self).2.2, ih _ fun q hq => h q (List.mem_cons_of_mem _ hq)]
    dsimp only
    rw [e2 _ _ _ fun q hq => hh q (List.mem_reverse.1 hq), e1 _ _ hh]
    exact ih _ hh
  | hooked i h _ ih =>
    intro hooks w hh
    refine ih w fun q hq => ?_
    rcases List.mem_cons.1 hq with rfl | hq
    · exact h
    · exact hh q hq

/-! ### Witnesses and examples -/

/-- A hook that only watches. -/
def watch : Hook Nat String := ⟨fun _ s => (none, s), fun _ _ s => (.keep, s)⟩

/-- A hook that suppresses every exception, as `contextlib.suppress(Exception)` does. -/
def quiet : Hook Nat String := ⟨fun _ s => (none, s), fun _ _ s => (.suppress, s)⟩

/-- A hook that fails to enter. -/
def broken : Hook Nat String := ⟨fun _ s => (some (.user "broken"), s), fun _ _ s => (.keep, s)⟩

example : Passive watch := ⟨⟨fun _ _ => rfl, fun _ _ _ => rfl⟩, fun _ _ => rfl, fun _ _ _ => rfl⟩

/-- C179 a hook cannot make a method that raises return: if it suppresses the exception, the method raises `UnboundLocalError`. -/
theorem suppressed_unbound {hooks : List (Nat × Hook σ E)} {method : String} {body : World σ → Except (Exn E) V × World σ} {w : World σ} (hb : ∀ w, ∃ e, (body w).1 = .error e) : ∃ e, (callMethod hooks method body w).1 = .error e := by
  rcases h : callMethod hooks method body w with ⟨e | v, w'⟩
  · exact ⟨e, rfl⟩
  · obtain ⟨w1, w2, h, -⟩ := call_returns h
    obtain ⟨e, he⟩ := hb w1
    rw [h] at he
    cases he

example : ((Prog.hooked 0 quiet (.call "__call__" (.raise (.user "oops") : Prog Nat String Nat))).run [] ⟨0, [], []⟩).1 = .error .unbound := rfl

example : ((Prog.hooked 0 quiet (.hooked 1 watch (.call "__call__" (.ret 3 : Prog Nat String Nat)))).run [] ⟨0, [], []⟩) = (.ok 3, ⟨0, [], [.enter 1 ["__call__"], .enter 0 ["__call__"], .exit 0 ["__call__"], .exit 1 ["__call__"]]⟩) := rfl

/-- A hook that cannot be entered: those entered before it are left, and if one of them suppresses the exception, the method is not run and the context manager reports that it did not yield. -/
example : ((Prog.hooked 0 broken (.hooked 1 quiet (.call "f" (.ret 3 : Prog Nat String Nat)))).run [] ⟨0, [], []⟩) = (.error .noYield, ⟨0, [], [.enter 1 ["f"], .failed 0 ["f"], .exit 1 ["f"]]⟩) := rfl

/-- Methods that call methods, one of which raises. -/
def nested : Prog Nat String Nat :=
  .hooked 0 watch (.call "outer" (.bind (.tryCatch (.call "inner" (.raise (.user "oops"))) fun _ => .ret 1) fun n => .hooked 1 watch (.call "other" (.ret (n + 1)))))

example : Watched nested :=
  .hooked 0 ⟨⟨fun _ _ => rfl, fun _ _ _ => rfl⟩, fun _ _ => rfl, fun _ _ _ => rfl⟩ (.call _ (.bind (.tryCatch (.call _ (.raise _)) fun _ => .ret 1) fun n => .hooked 1 ⟨⟨fun _ _ => rfl, fun _ _ _ => rfl⟩, fun _ _ => rfl, fun _ _ _ => rfl⟩ (.call _ (.ret _))))

example : nested.run [] ⟨0, [], []⟩ = (.ok 2, ⟨0, [], [.enter 0 ["outer"], .enter 0 ["inner", "outer"], .exit 0 ["inner", "outer"], .enter 1 ["other", "outer"], .enter 0 ["other", "outer"], .exit 0 ["other", "outer"],
    .exit 1 ["other", "outer"], .exit 0 ["outer"]]⟩) := rfl

example : ∀ w : World Nat, ∃ e, ((.raise (.user "oops") : Prog Nat String Nat).run [] w).1 = .error e := fun _ => ⟨_, rfl⟩

end Verif.Props.MethodHooks
