import Verif.Model.Hooks

/-!
# Hooks run in order (C19); calling `next` twice (C20)
-/

namespace Verif.Props.Hooks
open Verif.Hooks

variable {σ A B : Type}

/-! ## Specification -/

/-- The calls made with `n` hooks registered: the hooks from the oldest on without gaps or repetitions, then only the
function at the end, and that only when all hooks were called. -/
def InOrder (n : Nat) (calls : List (Call A)) : Prop :=
  ∃ (args lasts : List A), args.length ≤ n ∧ (lasts ≠ [] → args.length = n) ∧
    calls = (List.range args.length).zipWith Call.hook args ++ lasts.map Call.last

/-- A hook as a function of what comes after it. -/
def middleware (h : Body σ A B) (next : A → M σ B) : M σ B :=
  match h with
  | .done r => fun s => (r, s)
  | .act f k => fun s => middleware (k s) next (f s)
  | .next a k => fun s => middleware (k (next a s).1) next (next a s).2

/-- The composition of the hooks in order, around the function at the end. -/
def composed (last : A → M σ B) : List (Hook σ A B) → A → M σ B
  | [] => last
  | h :: hs => fun a => middleware (h a) (composed last hs)

/-- The body calls `next` never. -/
def NoNext : Body σ A B → Prop
  | .done _ => True
  | .act _ k => ∀ s, NoNext (k s)
  | .next _ _ => False

/-- The body calls `next` at most once, whatever happens. -/
def AtMostOnce : Body σ A B → Prop
  | .done _ => True
  | .act _ k => ∀ s, AtMostOnce (k s)
  | .next _ k => ∀ r, NoNext (k r)

/-- The body calls `next` exactly once, whatever happens. -/
def Once : Body σ A B → Prop
  | .done _ => False
  | .act _ k => ∀ s, Once (k s)
  | .next _ k => ∀ r, NoNext (k r)

theorem Once.atMostOnce : ∀ {b : Body σ A B}, Once b → AtMostOnce b
  | .done _, h => h.elim
  | .act _ _, h => fun s => (h s).atMostOnce
  | .next _ _, h => h

theorem NoNext.atMostOnce : ∀ {b : Body σ A B}, NoNext b → AtMostOnce b
  | .done _, _ => trivial
  | .act _ _, h => fun s => (h s).atMostOnce
  | .next _ _, h => h.elim

/-! ## Order -/

/-- The hooks left are the ones not called yet, in order. -/
def Inv (hooks : List (Hook σ A B)) (c : Chain σ A B) : Prop :=
  ∃ (args lasts : List A), c.queue = ((List.range hooks.length).zip hooks).drop args.length ∧ args.length ≤ hooks.length ∧
    (lasts ≠ [] → c.queue = []) ∧ c.calls = (List.range args.length).zipWith Call.hook args ++ lasts.map Call.last

theorem Inv.body {hooks : List (Hook σ A B)} {call : A → Chain σ A B → Except Exc B × Chain σ A B}
    (hcall : ∀ a c, Inv hooks c → Inv hooks (call a c).2) : ∀ (b : Body σ A B) (c : Chain σ A B), Inv hooks c → Inv hooks (runBody call b c).2
  | .done _, _, h => h
  | .act _ k, c, h => Inv.body hcall (k c.world) _ h
  | .next a k, c, h => Inv.body hcall (k (call a c).1) _ (hcall a c h)

theorem zipWith_snoc (args : List A) (a : A) :
    (List.range (args ++ [a]).length).zipWith Call.hook (args ++ [a]) = (List.range args.length).zipWith Call.hook args ++ [.hook args.length a] := by
  rw [List.length_append, List.length_singleton, List.range_succ, List.zipWith_append (by simp)]
  rfl

theorem Inv.call {hooks : List (Hook σ A B)} (last : A → M σ B) : ∀ (n : Nat) (a : A) (c : Chain σ A B), Inv hooks c → Inv hooks (callNext last n a c).2 := by
  intro n
  induction n with
  | zero =>
    intro a c h
    unfold callNext
    split
    · rename_i hq
      obtain ⟨args, lasts, h1, h2, h3, h4⟩ := h
      exact ⟨args, lasts ++ [a], h1, h2, fun _ => hq, by simp [h4]⟩
    · exact h
    · contradiction
  | succ n ih =>
    intro a c h
    unfold callNext
    split
    · rename_i hq
      obtain ⟨args, lasts, h1, h2, h3, h4⟩ := h
      exact ⟨args, lasts ++ [a], h1, h2, fun _ => hq, by simp [h4]⟩
    · contradiction
    · rename_i m n' i g q hm hq
      cases hm
      refine Inv.body ih _ _ ?_
      obtain ⟨args, lasts, h1, h2, h3, h4⟩ := h
      have hl : lasts = [] := by
        by_cases hl : lasts = []
        · exact hl
        · rw [h3 hl] at hq; cases hq
      subst hl
      rw [h1] at hq
      have hlt : args.length < ((List.range hooks.length).zip hooks).length := by
        rcases Nat.lt_or_ge args.length ((List.range hooks.length).zip hooks).length with h | h
        · exact h
        · rw [List.drop_eq_nil_of_le h] at hq; cases hq
      rw [List.drop_eq_getElem_cons hlt] at hq
      injection hq with e1 e2
      have ei : i = args.length := by
        have := congrArg Prod.fst e1
        simpa using this.symm
      subst ei
      refine ⟨args ++ [a], [], ?_, ?_, fun h => (h rfl).elim, ?_⟩
      · rw [List.length_append, List.length_singleton]; exact e2.symm
      · simp at hlt; simp; omega
      · rw [zipWith_snoc]; simp [h4]

/-- C19 one call invokes the hooks in the order they were registered, each at most once, and the initializer, stored value or original method
only after all of them; whatever the hooks do. -/
theorem hooks_in_order (hooks : List (Hook σ A B)) (last : A → M σ B) (a : A) (w : σ) : InOrder hooks.length (runChain hooks last a w).2.1 := by
  unfold runChain
  split
  · rename_i h
    rw [List.isEmpty_iff] at h
    subst h
    exact ⟨[], [a], by simp, by simp, by simp⟩
  · obtain ⟨args, lasts, h1, h2, h3, h4⟩ := Inv.call (hooks := hooks) last hooks.length a
      ⟨(List.range hooks.length).zip hooks, [], w⟩ ⟨[], [], by simp, by simp, by simp, by simp⟩
    refine ⟨args, lasts, h2, fun h => ?_, h4⟩
    have := h3 h
    rw [h1, List.drop_eq_nil_iff] at this
    simp at this
    omega

/-! ## Composition -/

theorem runBody_noNext (call : A → Chain σ A B → Except Exc B × Chain σ A B) (next : A → M σ B) :
    ∀ (b : Body σ A B), NoNext b → ∀ c : Chain σ A B, ((runBody call b c).1, (runBody call b c).2.world) = middleware b next c.world
  | .done _, _, _ => rfl
  | .act f k, h, c => runBody_noNext call next (k c.world) (h c.world) { c with world := f c.world }
  | .next _ _, h, _ => h.elim

theorem runBody_atMostOnce (call : A → Chain σ A B → Except Exc B × Chain σ A B) (next : A → M σ B) (q : List (Nat × Hook σ A B))
    (hc : ∀ a (c : Chain σ A B), c.queue = q → ((call a c).1, (call a c).2.world) = next a c.world) :
    ∀ (b : Body σ A B), AtMostOnce b → ∀ c : Chain σ A B, c.queue = q → ((runBody call b c).1, (runBody call b c).2.world) = middleware b next c.world
  | .done _, _, _, _ => rfl
  | .act f k, h, c, hq => runBody_atMostOnce call next q hc (k c.world) (h c.world) { c with world := f c.world } hq
  | .next a k, h, c, hq => by
    have e := hc a c hq
    show ((runBody call (k (call a c).1) (call a c).2).1, (runBody call (k (call a c).1) (call a c).2).2.world) = middleware (k (next a c.world).1) next (next a c.world).2
    rw [runBody_noNext call next _ (h _) _, ← e]

theorem callNext_composed (last : A → M σ B) : ∀ (q : List (Nat × Hook σ A B)), (∀ p ∈ q, ∀ a, AtMostOnce (p.2 a)) →
    ∀ n, q.length ≤ n → ∀ a (c : Chain σ A B), c.queue = q →
    ((callNext last n a c).1, (callNext last n a c).2.world) = composed last (q.map Prod.snd) a c.world := by
  intro q
  induction q with
  | nil =>
    intro _ n _ a c hq
    unfold callNext
    rw [hq]
    cases n <;> rfl
  | cons p q ih =>
    intro hl n hn a c hq
    obtain ⟨i, h⟩ := p
    cases n with
    | zero => simp at hn
    | succ n =>
      unfold callNext
      rw [hq]
      exact runBody_atMostOnce (callNext last n) (composed last (q.map Prod.snd)) q
        (fun a c hc => ih (fun p hp => hl p (List.mem_cons_of_mem _ hp)) n (by simpa using hn) a c hc) (h a)
        (hl (i, h) (by simp) a) _ rfl

/-- C19 when every hook calls next at most once, the chain is the composition of the hooks in the order they were registered. -/
theorem chain_is_composition (hooks : List (Hook σ A B)) (last : A → M σ B) (hl : ∀ h ∈ hooks, ∀ a, AtMostOnce (h a)) (a : A) (w : σ) :
    ((runChain hooks last a w).1, (runChain hooks last a w).2.2) = composed last hooks a w := by
  unfold runChain
  split
  · rename_i h
    rw [List.isEmpty_iff] at h
    subst h
    rfl
  · have hz : ((List.range hooks.length).zip hooks).map Prod.snd = hooks := by
      rw [List.map_snd_zip]; simp
    have := callNext_composed last ((List.range hooks.length).zip hooks)
      (fun p hp a => hl p.2 (by rw [← hz]; exact List.mem_map_of_mem hp) a) hooks.length (by simp) a ⟨(List.range hooks.length).zip hooks, [], w⟩ rfl
    rw [hz] at this
    exact this

/-- Bodies that call `next` exactly once leave the chain with all remaining hooks called. -/
theorem once_calls_all (last : A → M σ B) : ∀ (q : List (Nat × Hook σ A B)), (∀ p ∈ q, ∀ a, Once (p.2 a)) →
    ∀ n, q.length ≤ n → ∀ a (c : Chain σ A B), c.queue = q → (callNext last n a c).2.queue = [] ∧
      ∃ args x, args.length = q.length ∧ (callNext last n a c).2.calls = c.calls ++ (q.zipWith (fun p => Call.hook p.1) args ++ [Call.last x]) := by
  intro q
  induction q with
  | nil =>
    intro _ n _ a c hq
    unfold callNext
    rw [hq]
    cases n <;> exact ⟨rfl, [], a, rfl, rfl⟩
  | cons p q ih =>
    intro hl n hn a c hq
    obtain ⟨i, h⟩ := p
    cases n with
    | zero => simp at hn
    | succ n =>
      have noNext : ∀ (b : Body σ A B), NoNext b → ∀ c : Chain σ A B, (runBody (callNext last n) b c).2.queue = c.queue ∧
          (runBody (callNext last n) b c).2.calls = c.calls := by
        intro b
        induction b with
        | done r => intro _ c; exact ⟨rfl, rfl⟩
        | act f k ihk => intro hb c; exact ihk c.world (hb c.world) { c with world := f c.world }
        | next a k _ => intro hb; exact hb.elim
      have once : ∀ (b : Body σ A B), Once b → ∀ c : Chain σ A B, c.queue = q → (runBody (callNext last n) b c).2.queue = [] ∧
          ∃ args x, args.length = q.length ∧ (runBody (callNext last n) b c).2.calls = c.calls ++ (q.zipWith (fun p => Call.hook p.1) args ++ [Call.last x]) := by
        intro b
        induction b with
        | done r => intro hb; exact hb.elim
        | act f k ihk => intro hb c hc; exact ihk c.world (hb c.world) { c with world := f c.world } hc
        | next a k _ =>
          intro hb c hc
          have e := ih (fun p hp => hl p (List.mem_cons_of_mem _ hp)) n (by simpa using hn) a c hc
          have e2 := noNext (k (callNext last n a c).1) (hb _) (callNext last n a c).2
          show (runBody (callNext last n) (k (callNext last n a c).1) (callNext last n a c).2).2.queue = [] ∧ ∃ args x, _ ∧
            (runBody (callNext last n) (k (callNext last n a c).1) (callNext last n a c).2).2.calls = _
          rw [e2.1, e2.2]
          exact e
      unfold callNext
      rw [hq]
      obtain ⟨e1, args, x, e2, e3⟩ := once (h a) (hl (i, h) (by simp) a) { c with queue := q, calls := c.calls ++ [.hook i a] } rfl
      exact ⟨e1, a :: args, x, by simp [e2], by simpa using e3⟩

/-- C19 when every hook calls next exactly once, every hook is invoked exactly once and then the function at the end exactly once. -/
theorem all_hooks_run (hooks : List (Hook σ A B)) (last : A → M σ B) (hl : ∀ h ∈ hooks, ∀ a, Once (h a)) (a : A) (w : σ) :
    ∃ (args : List A) (x : A), args.length = hooks.length ∧
      (runChain hooks last a w).2.1 = (List.range hooks.length).zipWith Call.hook args ++ [.last x] := by
  unfold runChain
  split
  · rename_i h
    rw [List.isEmpty_iff] at h
    subst h
    exact ⟨[], a, rfl, rfl⟩
  · have hz : ((List.range hooks.length).zip hooks).map Prod.snd = hooks := by
      rw [List.map_snd_zip]; simp
    obtain ⟨_, args, x, h1, h2⟩ := once_calls_all last ((List.range hooks.length).zip hooks)
      (fun p hp a => hl p.2 (by rw [← hz]; exact List.mem_map_of_mem hp) a) hooks.length (by simp) a ⟨(List.range hooks.length).zip hooks, [], w⟩ rfl
    refine ⟨args, x, by simpa using h1, ?_⟩
    have hz2 : ((List.range hooks.length).zip hooks).map Prod.fst = List.range hooks.length := by
      rw [List.map_fst_zip]; simp
    simp only [List.nil_append] at h2
    show (callNext last hooks.length a ⟨(List.range hooks.length).zip hooks, [], w⟩).2.calls = _
    rw [h2, ← List.zipWith_map_left (f := Prod.fst), hz2]

example : (∀ a : Nat, Once (σ := Nat) (B := Nat) (.act (· + 1) fun s => .next (a + s) fun r => .done r)) ∧
    ∃ a : Nat, ¬ AtMostOnce (σ := Nat) (B := Nat) (.next a fun _ => .next a fun r => .done r) :=
  ⟨fun _ _ _ => trivial, 0, fun h => h (.ok 0)⟩

/-- Three hooks: one passing on, one calling `next` twice, one passing on. -/
def three : List (Hook Nat Nat Nat) :=
  [fun a => .next (a + 1) fun r => .done r, fun a => .next a fun _ => .next (10 * a) fun r => .done r, fun a => .next (a + 2) fun r => .done r]

example : runChain three (fun a s => (.ok a, s + 1)) 5 0 = (.ok 60, [.hook 0 5, .hook 1 6, .hook 2 6, .last 8, .last 60], 2) := by rfl

/-! ## The chains of the interpreter -/

/-- C19 the creators of the interpreter run in the order they were registered, composed around the initializer. -/
theorem creators_chain (ctx : GetterContext) (cs : List Creator) (shape : List Nat) (dtype : DType) (init : Initializer) (s : Loc) :
    Frame.runCreators ctx cs shape dtype init s =
      ((runChain (cs.map (ofCreator ctx)) (fun a => Frame.runInit (a.init a.shape a.dtype)) ⟨shape, dtype, init⟩ s).1,
       (runChain (cs.map (ofCreator ctx)) (fun a => Frame.runInit (a.init a.shape a.dtype)) ⟨shape, dtype, init⟩ s).2.2) := by
  rw [chain_is_composition]
  · induction cs generalizing shape dtype init with
    | nil => rfl
    | cons c cs ih =>
      simp only [List.map_cons, composed, Frame.runCreators, ofCreator]
      cases c ctx shape dtype init with
      | done a => rfl
      | raise e => rfl
      | next sh dt i post =>
        simp only [middleware, M.bind]
        rw [ih]
        rcases composed _ _ _ s with ⟨_ | _, s'⟩ <;> rfl
  · intro h hh a
    obtain ⟨c, _, rfl⟩ := List.mem_map.1 hh
    simp only [ofCreator]
    cases c ctx a.shape a.dtype a.init <;> first | trivial | exact fun r => trivial

/-- C19 the getters of the interpreter run in the order they were registered, the stored value going through all of them. -/
theorem getters_chain (ctx : GetterContext) (gs : List Getter) (a : Arr) :
    Frame.runGetters ctx gs a = (runChain (gs.map (ofGetter ctx)) (fun a => M.pure a) a ()).1 := by
  have h := chain_is_composition (gs.map (ofGetter ctx)) (fun a => M.pure a) (fun h hh b => by
    obtain ⟨g, _, rfl⟩ := List.mem_map.1 hh
    simp only [ofGetter]
    cases g ctx b <;> first | trivial | exact fun r => trivial) a ()
  rw [show (runChain (gs.map (ofGetter ctx)) (fun a => M.pure a) a ()).1 = _ from congrArg (fun p : Except Exc Arr × Unit => p.1) h]
  clear h
  induction gs generalizing a with
  | nil => rfl
  | cons g gs ih =>
    simp only [List.map_cons, composed, Frame.runGetters, ofGetter]
    cases g ctx a with
    | done r => rfl
    | raise e => rfl
    | next a' post =>
      simp only [middleware]
      rw [ih]

/-- C19 the interceptors of the interpreter run in the order they were registered, composed around the original method. -/
theorem interceptors_chain {σ : Type} (self : ModId) (method : Str) (body : Val → M σ Val) (is : List Interceptor) (a : Val) (s : σ) :
    runInterceptors self method body is a s =
      ((runChain (is.map (ofInterceptor self method body)) body a s).1, (runChain (is.map (ofInterceptor self method body)) body a s).2.2) := by
  rw [chain_is_composition]
  · induction is generalizing a with
    | nil => rfl
    | cons i is ih =>
      simp only [List.map_cons, composed, runInterceptors, ofInterceptor]
      cases i self method a with
      | done v => rfl
      | raise e => rfl
      | next a' post =>
        simp only [middleware, M.bind]
        rw [ih]
        rcases composed _ _ _ s with ⟨_ | _, s'⟩ <;> rfl
      | orig a' post =>
        simp only [middleware, M.bind]
        rcases body a' s with ⟨_ | _, s'⟩ <;> rfl
  · intro h hh b
    obtain ⟨i, _, rfl⟩ := List.mem_map.1 hh
    simp only [ofInterceptor]
    cases i self method b <;> first | trivial | exact fun r => trivial

/-! ## Calling `next` twice -/

theorem callNext_empty (last : A → M σ B) (n : Nat) (a : A) (c : Chain σ A B) (hq : c.queue = []) :
    callNext last n a c = ((last a c.world).1, ⟨[], c.calls ++ [.last a], (last a c.world).2⟩) := by
  obtain ⟨q, calls, w⟩ := c
  subst hq
  cases n <;> rfl

theorem runBody_empty (last : A → M σ B) (n : Nat) : ∀ (b : Body σ A B) (c : Chain σ A B), c.queue = [] →
    ((runBody (callNext last n) b c).1, (runBody (callNext last n) b c).2.world) = middleware b last c.world
  | .done _, _, _ => rfl
  | .act f k, c, hq => runBody_empty last n (k c.world) { c with world := f c.world } hq
  | .next a k, c, hq => by
    show ((runBody (callNext last n) (k (callNext last n a c).1) (callNext last n a c).2).1,
      (runBody (callNext last n) (k (callNext last n a c).1) (callNext last n a c).2).2.world) = middleware (k (last a c.world).1) last (last a c.world).2
    rw [callNext_empty last n a c hq]
    exact runBody_empty last n _ _ rfl

/-- C20 when only the hook registered last calls `next` more than once, every one of its calls goes through everything that follows it, and
the chain is the composition of the hooks.  Missing from the full property: hooks with others after them, where it fails
(`second_next_skips_rest`, `next_twice_differs`). -/
theorem next_twice_partial (hooks : List (Hook σ A B)) (h : Hook σ A B) (last : A → M σ B) (hl : ∀ h ∈ hooks, ∀ a, AtMostOnce (h a)) (a : A) (w : σ) :
    ((runChain (hooks ++ [h]) last a w).1, (runChain (hooks ++ [h]) last a w).2.2) = composed last (hooks ++ [h]) a w := by
  have key : ∀ (q : List (Nat × Hook σ A B)) (i : Nat), (∀ p ∈ q, ∀ a, AtMostOnce (p.2 a)) → ∀ n, q.length + 1 ≤ n → ∀ a (c : Chain σ A B), c.queue = q ++ [(i, h)] →
      ((callNext last n a c).1, (callNext last n a c).2.world) = composed last (q.map Prod.snd ++ [h]) a c.world := by
    intro q i
    induction q with
    | nil =>
      intro _ n hn a c hq
      cases n with
      | zero => simp at hn
      | succ n =>
        unfold callNext
        rw [hq]
        exact runBody_empty last n (h a) _ rfl
    | cons p q ih =>
      intro hl n hn a c hq
      obtain ⟨j, g⟩ := p
      cases n with
      | zero => simp at hn
      | succ n =>
        unfold callNext
        rw [hq]
        exact runBody_atMostOnce (callNext last n) (composed last (q.map Prod.snd ++ [h])) (q ++ [(i, h)])
          (fun a c hc => ih (fun p hp => hl p (List.mem_cons_of_mem _ hp)) n (by simpa using hn) a c hc) (g a)
          (hl (j, g) (by simp) a) _ rfl
  have hz : (List.range (hooks ++ [h]).length).zip (hooks ++ [h]) = (List.range hooks.length).zip hooks ++ [(hooks.length, h)] := by
    rw [List.length_append, List.length_singleton, List.range_succ, List.zip_append (by simp)]
    rfl
  have hm : ((List.range hooks.length).zip hooks).map Prod.snd = hooks := by rw [List.map_snd_zip]; simp
  unfold runChain
  rw [if_neg (by simp), hz]
  have := key ((List.range hooks.length).zip hooks) hooks.length
    (fun p hp a => hl p.2 (by rw [← hm]; exact List.mem_map_of_mem hp) a) (hooks ++ [h]).length (by simp) a
    ⟨(List.range hooks.length).zip hooks ++ [(hooks.length, h)], [], w⟩ rfl
  rw [hm] at this
  exact this

example : ∀ h ∈ ([fun a => .next (a + 1) fun r => .done r] : List (Hook Nat Nat Nat)), ∀ a, AtMostOnce (h a) := by
  intro h hh a
  simp only [List.mem_singleton] at hh
  subst hh
  exact fun r => trivial

/-- C20 what happens instead: when a hook calls `next` twice and the hooks after it pass on, the first call goes through them and the second goes
straight to the initializer, stored value or original method. -/
theorem second_next_skips_rest (hooks : List (Hook σ A B)) (last : A → M σ B) (hl : ∀ h ∈ hooks, ∀ a, Once (h a)) (f : A → A × A)
    (g : Except Exc B → Except Exc B → Except Exc B) (a : A) (w : σ) :
    let r := runChain ((fun x => .next (f x).1 fun r1 => .next (f x).2 fun r2 => .done (g r1 r2)) :: hooks) last a w
    let r1 := composed last hooks (f a).1 w
    let r2 := last (f a).2 r1.2
    r.1 = g r1.1 r2.1 ∧ r.2.2 = r2.2 := by
  have hz : ∀ k : Nat, ((List.range' k hooks.length).zip hooks).map Prod.snd = hooks := by
    intro k; rw [List.map_snd_zip]; simp
  have hq : (List.range (hooks.length + 1)).zip ((fun x => Body.next (f x).1 fun r1 => .next (f x).2 fun r2 => .done (g r1 r2)) :: hooks) =
      (0, fun x => Body.next (f x).1 fun r1 => .next (f x).2 fun r2 => .done (g r1 r2)) :: (List.range' 1 hooks.length).zip hooks := by
    rw [List.range_eq_range', List.range'_succ, List.zip_cons_cons]
  have hmem : ∀ p ∈ (List.range' 1 hooks.length).zip hooks, ∀ a, Once (p.2 a) := fun p hp a =>
    hl p.2 (by rw [← hz 1]; exact List.mem_map_of_mem hp) a
  unfold runChain
  simp only [List.isEmpty_cons, Bool.false_eq_true, if_false, List.length_cons]
  rw [hq]
  unfold callNext
  simp only [runBody]
  generalize hc : (Chain.mk ((List.range' 1 hooks.length).zip hooks) ([] ++ [Call.hook 0 a]) w : Chain σ A B) = c
  have hcq : c.queue = (List.range' 1 hooks.length).zip hooks := by rw [← hc]
  have hcw : c.world = w := by rw [← hc]
  have e1 := callNext_composed last _ (fun p hp a => (hmem p hp a).atMostOnce) hooks.length (by simp) (f a).1 c hcq
  have e2 := (once_calls_all last _ hmem hooks.length (by simp) (f a).1 c hcq).1
  rw [hz, hcw] at e1
  rw [← e1]
  generalize callNext last hooks.length (f a).1 c = r at e2
  rw [callNext_empty last _ _ _ e2]
  exact ⟨rfl, rfl⟩

/-- C20 is violated: a hook calling `next` twice with the same argument, with one deterministic hook after it, gets different results. -/
theorem next_twice_differs : ∃ (first second : Hook Unit Nat Nat) (last : Nat → M Unit Nat),
    (∀ a, first a = .next a fun r1 => .next a fun r2 => .done (if r1.toOption = r2.toOption then .ok 1 else .ok 0)) ∧
    (∀ a, Once (second a)) ∧ (∀ a, last a () = (.ok a, ())) ∧ (runChain [first, second] last 3 ()).1 = .ok 0 :=
  ⟨_, fun a => .next (a + 1) fun r => .done r, fun a => M.pure a, fun _ => rfl, fun _ _ => trivial, fun _ => rfl, rfl⟩

end Verif.Props.Hooks
