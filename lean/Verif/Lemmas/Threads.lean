import Verif.Model.Threads

/-!
# Small steps and big steps

Running the small steps of a program without interruption is running the program on the stack machine.
-/

set_option linter.unusedVariables false

namespace Verif
open Names Frame

namespace Thr
variable {α β : Type}

/-- What a small step does: the flag stays as it is. -/
def keep (f : M World α) : M World α := fun w => ((f w).1, { (f w).2 with namedCall := w.namedCall })

/-- Running without interruption. -/
def run : Thr α → M World α
  | .done r => fun w => (r, w)
  | .atom f k => fun w => run (k (keep f w).1) (keep f w).2

theorem run_named : ∀ (t : Thr α) (w : World), (t.run w).2.namedCall = w.namedCall
  | .done _, _ => rfl
  | .atom f k, w => run_named (k (keep f w).1) (keep f w).2

theorem world_named {w : World} {b : Bool} (h : w.namedCall = b) : { w with namedCall := b } = w := by
  subst h
  rfl

theorem keep_eq {f : M World α} (h : ∀ w, (f w).2.namedCall = w.namedCall) : keep f = f := by
  funext w
  exact Prod.ext rfl (world_named (h w))

theorem run_after : ∀ (t : Thr α) (k : Except Exc α → Thr β) (w : World), (t.after k).run w = (k (t.run w).1).run (t.run w).2
  | .done _, _, _ => rfl
  | .atom f j, k, w => run_after (j (keep f w).1) k (keep f w).2

theorem run_bind (t : Thr α) (f : α → Thr β) : (t >>~ f).run = t.run >>- fun a => (f a).run := by
  funext w
  unfold bind M.bind
  rw [run_after]
  rcases t.run w with ⟨_ | a, w'⟩ <;> rfl

theorem run_tryCatch (t : Thr α) (h : Exc → Thr α) : (t.tryCatch h).run = M.tryCatch t.run fun e => (h e).run := by
  funext w
  unfold tryCatch M.tryCatch
  rw [run_after]
  rcases t.run w with ⟨_ | a, w'⟩ <;> rfl

theorem run_pure (a : α) : (pure a).run = M.pure a := rfl
theorem run_throw (e : Exc) : (throw e : Thr α).run = M.throw e := rfl
theorem run_lift (f : M World α) : (lift f).run = keep f := rfl

theorem top_named (f : FOp α) (w : World) : (World.top f w).2.namedCall = w.namedCall := by
  unfold World.top
  split
  · rfl
  · split <;> rfl

theorem run_top (f : FOp α) : (top f).run = stackMach.top f := keep_eq (top_named f)

theorem run_save : save.run = M.get := rfl

theorem keep_popFrame (n : Nat) (a : Except Exc α) : keep (popFrame n a) = popFrame n a := keep_eq fun w => by
  unfold popFrame
  split
  · split <;> rfl
  · rfl

theorem keep_popModule (ms : ModId × Str) (a : Except Exc α) : keep (popModule ms a) = popModule ms a := keep_eq fun w => by
  unfold popModule
  split
  · rfl
  · split
    · split <;> rfl
    · rfl

theorem keep_popRng (n : Nat) (a : Except Exc α) : keep (popRng n a) = popRng n a := keep_eq fun w => by
  unfold popRng
  split
  · rfl
  · split
    · split <;> rfl
    · rfl

theorem keep_popCtx (n : Nat) (log : List Key) (a : Except Exc α) : keep (popCtx n log a) = popCtx n log a := keep_eq fun w => by
  unfold popCtx
  split
  · split
    · split <;> rfl
    · rfl
  · rfl

theorem run_temp (st : IState) (m : Thr α) : (temp st m).run = stackMach.temp st m.run := by
  funext w
  obtain ⟨frames, hooks, nc, heap, log⟩ := w
  unfold temp
  rw [run_bind, run_lift]
  cases frames with
  | nil => rfl
  | cons F rest =>
    show (m.after fun a => lift (popFrame (rest.length + 1) a)).run ⟨World.evolve F st :: F :: rest, hooks, nc, heap, log⟩ = _
    rw [run_after, run_lift, keep_popFrame]
    rfl

theorem run_inModule (ms : ModId × Str) (m : Thr α) : (inModule ms m).run = stackMach.inModule ms m.run := by
  funext w
  obtain ⟨frames, hooks, nc, heap, log⟩ := w
  unfold inModule
  rw [run_bind, run_lift]
  cases frames with
  | nil => rfl
  | cons F rest =>
    show (m.after fun a => lift (popModule ms a)).run ⟨{ F with moduleStack := ms :: F.moduleStack, scopeStack := Scope.empty :: F.scopeStack } :: rest, hooks, nc, heap, log⟩ = _
    rw [run_after, run_lift, keep_popModule]
    rfl

theorem run_inRng (q : PRNGSeq) (m : Thr α) : (inRng q m).run = stackMach.inRng q m.run := by
  funext w
  obtain ⟨frames, hooks, nc, heap, log⟩ := w
  unfold inRng
  rw [run_bind, run_lift]
  cases frames with
  | nil => rfl
  | cons F rest =>
    show (m.after fun a => lift (popRng F.rngStack.length a)).run ⟨{ F with rngStack := some q :: F.rngStack } :: rest, hooks, nc, heap, log⟩ = _
    rw [run_after, run_lift, keep_popRng]
    rfl

theorem run_inHook (h : HookPush) (m : Thr α) : (inHook h m).run = stackMach.inHook h m.run := by
  funext w
  unfold inHook
  rw [run_bind, run_lift]
  show (m.after fun a => lift fun w => (a, { w with hooks := World.popHook w.hooks h })).run { w with hooks := World.pushHook w.hooks h } = _
  rw [run_after, run_lift]
  rfl

theorem run_inCtx (c : Ctx) (m : Thr α) : (inCtx c m).run = stackMach.inCtx c m.run := by
  funext w
  obtain ⟨frames, hooks, nc, heap, log⟩ := w
  unfold inCtx
  rw [run_bind, run_lift]
  show (m.after fun a => lift (popCtx frames.length log a)).run ⟨World.frameOf c :: frames, hooks, nc, heap, []⟩ = _
  rw [run_after, run_lift, keep_popCtx]
  rfl

/-! ### The functions -/

theorem run_runInterceptors (self : ModId) (method : Str) (body : Val → Thr Val) : ∀ is args, (runInterceptors self method body is args).run = Verif.runInterceptors self method (fun a => (body a).run) is args
  | [], args => rfl
  | i :: is, args => by
    unfold runInterceptors Verif.runInterceptors
    cases i self method args with
    | done v => rfl
    | raise e => rfl
    | next a post =>
      dsimp only
      rw [run_bind, run_runInterceptors]
      rfl
    | orig a post =>
      dsimp only
      rw [run_bind]
      rfl

theorem run_jit (m : Thr Val) : (jit m).run = jitM stackMach m.run := by
  unfold jit jitM
  simp only [run_bind, run_top, run_temp, run_pure]

theorem run_wrapMethod (self : ModId) (method : Str) (args : Val) (body : Val → Thr Val) : (wrapMethod self method args body).run = Verif.wrapMethod stackMach self method args fun a => (body a).run := by
  unfold wrapMethod Verif.wrapMethod
  rw [run_inModule, run_bind, run_top]
  congr 2
  funext r
  rw [run_bind]
  simp only [run_bind, run_top, run_pure]
  congr 1
  split
  · rw [run_jit, run_runInterceptors]
  · rw [run_runInterceptors]

theorem run_construct (args : Val) (ctor : ModId → Val → Thr Val) : (construct args ctor).run = Verif.construct stackMach args fun id a => (ctor id a).run := by
  unfold construct Verif.construct
  simp only [run_bind, run_top, run_wrapMethod, run_pure]

theorem run_nameScopeCtor : ∀ ns, (nameScopeCtor ns).run = Verif.nameScopeCtor stackMach ns
  | [] => rfl
  | [n] => by
    unfold nameScopeCtor Verif.nameScopeCtor
    rw [run_construct]
    simp only [run_top]
  | n :: n' :: ns => by
    unfold nameScopeCtor Verif.nameScopeCtor
    simp only [run_bind, run_construct, run_top, run_inModule, run_nameScopeCtor (n' :: ns)]

theorem run_nameScope (name : Str) (m : Thr Val) : (nameScope name m).run = nameScopeM stackMach name m.run := by
  unfold nameScope nameScopeM
  rw [run_bind, run_top]
  congr 1
  funext _
  split
  · rfl
  · simp only [run_bind, run_nameScopeCtor, run_inModule]

theorem run_branch (st : IState) (m : Thr Val) : (branch st m).run = branchM stackMach st m.run := by
  unfold branch branchM
  simp only [run_bind, run_top, run_temp, run_pure]

theorem run_restore (s w : World) (h : w.namedCall = s.namedCall) : (restore s).run w = (.ok (), s) := by
  show (Except.ok (), { s with namedCall := w.namedCall }) = _
  rw [h]

theorem run_runBranches (st : IState) : ∀ (ms : List (Thr Val)) (s : World), (runBranches st ms).run s =
    match Verif.runBranches stackMach st (ms.map run) s with
    | .ok rs => (.ok rs, s)
    | .error (e, s') => (.error e, s')
  | [], s => rfl
  | m :: ms, s => by
    rw [List.map_cons]
    unfold runBranches Verif.runBranches
    rw [run_bind, run_save]
    show ((branch st m >>~ _).run s) = _
    rw [run_bind, run_branch]
    unfold M.bind
    have hn : (branchM stackMach st m.run s).2.namedCall = s.namedCall := by rw [← run_branch]; exact run_named _ _
    rcases hb : branchM stackMach st m.run s with ⟨_ | r, s'⟩
    · rfl
    · rw [hb] at hn
      dsimp only at hn ⊢
      rw [run_bind, run_save]
      show ((restore s >>~ _).run s') = _
      rw [run_bind]
      unfold M.bind
      rw [run_restore s s' hn]
      dsimp only
      rw [run_bind]
      unfold M.bind
      rw [run_runBranches st ms s]
      rcases Verif.runBranches stackMach st (ms.map run) s with ⟨e, s''⟩ | rs
      · rfl
      · rfl

theorem runBranches_named {st : IState} : ∀ {ms : List (Thr Val)} {s : World} {rs : List ((Val × IState) × World)}, Verif.runBranches stackMach st (ms.map run) s = .ok rs → ∀ r ∈ rs, r.2.namedCall = s.namedCall
  | [], s, rs, h => by
    cases h
    intro r hr
    cases hr
  | m :: ms, s, rs, h => by
    rw [List.map_cons] at h
    unfold Verif.runBranches at h
    have hn : (branchM stackMach st m.run s).2.namedCall = s.namedCall := by rw [← run_branch]; exact run_named _ _
    rcases hb : branchM stackMach st m.run s with ⟨_ | r, s'⟩
    · rw [hb] at h
      cases h
    · rw [hb] at h hn
      dsimp only at h hn
      split at h
      · cases h
      · rename_i rs' hrs
        cases h
        intro q hq
        cases hq with
        | head => exact hn
        | tail _ hq => exact runBranches_named hrs q hq

theorem run_switchFrom (i : Nat) (ms : List (Thr Val)) (st : IState) : (switchFrom i ms st).run = Verif.switchFrom stackMach i (ms.map run) st := by
  funext s
  unfold switchFrom Verif.switchFrom
  rw [run_bind]
  unfold M.bind
  rw [run_runBranches]
  rcases hb : Verif.runBranches stackMach st (ms.map run) s with ⟨e, s'⟩ | rs
  · rfl
  · dsimp only
    rcases hi : rs[i]? with _ | ⟨⟨v, st'⟩, s'⟩
    · rfl
    · dsimp only
      split
      · have hn := runBranches_named hb _ (List.mem_of_getElem? hi)
        rw [run_bind]
        unfold M.bind
        rw [run_restore s' s hn.symm]
        dsimp only
        rw [run_bind, run_top]
        rfl
      · rfl

theorem run_switch (i : Nat) (ms : List (Thr Val)) : (switch i ms).run = switchM stackMach i (ms.map run) := by
  unfold switch switchM
  simp only [run_bind, run_top, run_switchFrom]

theorem run_asPair (v : Val) : (asPair v).run = Verif.asPair v := by
  cases v <;> rfl

theorem run_ite {c : Prop} [Decidable c] (a b : Thr α) : (if c then a else b).run = if c then a.run else b.run := by
  split <;> rfl

theorem run_scanStep (f : Val → Val → Thr Val) (c x : Val) (st : IState) : (scanStep f c x st).run = Verif.scanStep stackMach (fun c x => (f c x).run) c x st := by
  unfold scanStep Verif.scanStep
  simp only [run_bind, run_top, run_temp, run_pure, run_asPair, run_ite, run_throw]

theorem run_scanLoop {step : Val → Val → IState → Thr (Val × Val × IState)} {step' : Val → Val → IState → M World (Val × Val × IState)} (h : ∀ c x st, (step c x st).run = step' c x st) :
    ∀ xs c st, (scanLoop step xs c st).run = Verif.scanLoop step' xs c st
  | [], c, st => rfl
  | x :: xs, c, st => by
    unfold scanLoop Verif.scanLoop
    simp only [run_bind, run_pure, h, run_scanLoop h xs]

theorem run_scanTail (f : Val → Val → Thr Val) (c : Val) (xs : List Val) (rev : Bool) : (scanTail f c xs rev).run = Verif.scanTail stackMach (fun c x => (f c x).run) c xs rev := by
  unfold scanTail Verif.scanTail
  simp only [run_bind, run_top, run_pure, run_scanLoop (run_scanStep f)]

theorem run_scan (f : Val → Val → Thr Val) (init zero : Val) (xs : List Val) (rev : Bool) : (scan f init zero xs rev).run = scanM stackMach (fun c x => (f c x).run) init zero xs rev := by
  unfold scan scanM
  rw [run_bind, run_top]
  congr 1
  funext frozen
  rw [run_ite]
  split
  · simp only [run_bind, run_scanTail, run_pure]
  · cases (if rev = true then xs.getLast? else xs.head?) with
    | none => simp only [run_bind, run_asPair, run_pure]
    | some x0 => simp only [run_bind, run_asPair, run_pure, run_ite, run_scanTail]

theorem run_foriStep (body : Int → Val → Thr Val) (i : Int) (v : Val) (st : IState) : (foriStep body i v st).run = Verif.foriStep stackMach (fun i v => (body i v).run) i v st := by
  unfold foriStep Verif.foriStep
  simp only [run_bind, run_branch, run_ite, run_pure, run_throw]

theorem run_foriLoop {step : Int → Val → IState → Thr (Val × IState)} {step' : Int → Val → IState → M World (Val × IState)} (h : ∀ c x st, (step c x st).run = step' c x st) :
    ∀ n i v st, (foriLoop step n i v st).run = Verif.foriLoop step' n i v st
  | 0, i, v, st => rfl
  | n + 1, i, v, st => by
    unfold foriLoop Verif.foriLoop
    simp only [run_bind, h, run_foriLoop h n]

theorem run_foriTail (lo up : Int) (body : Int → Val → Thr Val) (init : Val) : (foriTail lo up body init).run = Verif.foriTail stackMach lo up (fun i v => (body i v).run) init := by
  unfold foriTail Verif.foriTail
  simp only [run_bind, run_top, run_pure, run_foriLoop (run_foriStep body)]

theorem run_fori (lo up : Int) (body : Int → Val → Thr Val) (init : Val) : (fori lo up body init).run = foriM stackMach lo up (fun i v => (body i v).run) init := by
  unfold fori foriM
  simp only [run_bind, run_top, run_ite, run_foriTail, run_pure]

theorem run_whileCond (c : Val → Thr Val) (v : Val) : (whileCond c v).run = Verif.whileCond stackMach (fun v => (c v).run) v := by
  unfold whileCond Verif.whileCond
  simp only [run_bind, run_top, run_ite, run_throw]
  congr 1
  funext before
  congr 1
  funext r
  congr 1
  funext after
  congr 1
  cases r <;> rfl

theorem run_whileBody (body : Val → Thr Val) (v : Val) (st : IState) : (whileBody body v st).run = Verif.whileBody stackMach (fun v => (body v).run) v st := by
  unfold whileBody Verif.whileBody
  simp only [run_bind, run_top, run_temp, run_ite, run_throw, run_pure]

theorem run_whileLoop {c : Val → Thr Bool} {c' : Val → M World Bool} {body : Val → IState → Thr (Val × IState)} {body' : Val → IState → M World (Val × IState)} (hc : ∀ v, (c v).run = c' v) (hb : ∀ v st, (body v st).run = body' v st)
    (s0 : World) : ∀ n v st (s : World), s.namedCall = s0.namedCall → (whileLoop c body s0 n v st).run s = Verif.whileLoopM c' body' s0 n v st s
  | 0, v, st, s, h => rfl
  | n + 1, v, st, s, h => by
    unfold whileLoop Verif.whileLoopM
    rw [run_bind, run_save]
    show ((restore s0 >>~ _).run s) = _
    rw [run_bind]
    unfold M.bind
    rw [run_restore s0 s h]
    dsimp only
    rw [run_bind, hc]
    unfold M.bind
    have hn : (c' v s0).2.namedCall = s0.namedCall := by rw [← hc]; exact run_named _ _
    rcases hcv : c' v s0 with ⟨_ | b, s1⟩
    · rfl
    · rw [hcv] at hn
      dsimp only at hn ⊢
      rw [run_bind]
      unfold M.bind
      rw [run_restore s s1 (hn.trans h.symm)]
      dsimp only
      cases b with
      | false => rfl
      | true =>
        rw [if_pos rfl, run_bind, hb]
        unfold M.bind
        have hm : (body' v st s).2.namedCall = s.namedCall := by rw [← hb]; exact run_named _ _
        rcases hbv : body' v st s with ⟨_ | r, s2⟩
        · rfl
        · rw [hbv] at hm
          exact run_whileLoop hc hb s0 n r.1 r.2 s2 (hm.trans h)

theorem run_whileFrom (fuel : Nat) (c body : Val → Thr Val) (init : Val) (st : IState) : (whileFrom fuel c body init st).run = Verif.whileFrom stackMach fuel (fun v => (c v).run) (fun v => (body v).run) init st := by
  funext s
  unfold whileFrom Verif.whileFrom
  rw [run_bind, run_save]
  show ((whileCond c init >>~ _).run s) = _
  rw [run_bind, run_whileCond]
  unfold M.bind
  have hn : (Verif.whileCond stackMach (fun v => (c v).run) init s).2.namedCall = s.namedCall := by rw [← run_whileCond]; exact run_named _ _
  rcases hcv : Verif.whileCond stackMach (fun v => (c v).run) init s with ⟨_ | b, s1⟩
  · rfl
  · rw [hcv] at hn
    dsimp only at hn ⊢
    rw [run_bind]
    unfold M.bind
    rw [run_whileLoop (run_whileCond c) (run_whileBody body) s fuel init st s1 hn]
    simp only [run_bind, run_top, run_pure]
    rfl

theorem run_while (fuel : Nat) (c body : Val → Thr Val) (init : Val) : (while_ fuel c body init).run = whileM stackMach fuel (fun v => (c v).run) (fun v => (body v).run) init := by
  unfold while_ whileM
  simp only [run_bind, run_top, run_whileFrom]

theorem run_vmapBody (st : IState) (m : Thr Val) : (vmapBody st m).run = Verif.vmapBody stackMach st m.run := by
  unfold vmapBody Verif.vmapBody
  simp only [run_bind, run_top, run_temp, run_pure]

theorem run_vmapRest (st : IState) (d : Diff) (f : Val → Thr Val) (s : World) : ∀ (xs : List Val) (w : World), w.namedCall = s.namedCall →
    ((vmapRest st d f s xs).run w).2.namedCall = s.namedCall ∧ match Verif.vmapRest stackMach st d (fun v => (f v).run) s xs with
    | .ok vs => ((vmapRest st d f s xs).run w).1 = .ok vs
    | .error (e, s') => (vmapRest st d f s xs).run w = (.error e, s')
  | [], w, h => ⟨h, rfl⟩
  | x :: xs, w, h => by
    refine ⟨(run_named _ _).trans h, ?_⟩
    unfold vmapRest Verif.vmapRest
    have e1 : (restore s >>~ fun _ => vmapBody st (f x) >>~ fun r => if r.2.noTrace = d.noTrace then vmapRest st d f s xs >>~ fun vs => pure (r.1 :: vs) else throw .structureMismatch).run w =
        (Verif.vmapBody stackMach st (f x).run >>- fun r => if r.2.noTrace = d.noTrace then (vmapRest st d f s xs).run >>- fun vs => M.pure (r.1 :: vs) else M.throw .structureMismatch) s := by
      rw [run_bind]
      unfold M.bind
      rw [run_restore s w h]
      dsimp only
      rw [run_bind, run_vmapBody]
      unfold M.bind
      simp only [run_ite, run_bind, run_pure, run_throw]
      rfl
    rw [e1]
    unfold M.bind
    have hn : (Verif.vmapBody stackMach st (f x).run s).2.namedCall = s.namedCall := by rw [← run_vmapBody]; exact run_named _ _
    rcases hb : Verif.vmapBody stackMach st (f x).run s with ⟨_ | ⟨v, d'⟩, s1⟩
    · rfl
    · rw [hb] at hn
      dsimp only at hn ⊢
      by_cases hd : d'.noTrace = d.noTrace
      · rw [if_pos hd, if_pos hd]
        have ih := (run_vmapRest st d f s xs s1 hn).2
        rcases hr : Verif.vmapRest stackMach st d (fun v => (f v).run) s xs with ⟨e, s2⟩ | vs
        · rw [hr] at ih
          dsimp only at ih ⊢
          rw [ih]
        · rw [hr] at ih
          dsimp only at ih ⊢
          rcases hx : (vmapRest st d f s xs).run s1 with ⟨r, s2⟩
          rw [hx] at ih
          dsimp only at ih
          subst ih
          rfl
      · rw [if_neg hd, if_neg hd]
        rfl

theorem run_vmapFrom (f : Val → Thr Val) (x : Val) (xs : List Val) (st : IState) : (vmapFrom f x xs st).run = Verif.vmapFrom stackMach (fun v => (f v).run) x xs st := by
  funext s
  unfold vmapFrom Verif.vmapFrom
  rw [run_bind, run_save]
  show ((vmapBody st (f x) >>~ _).run s) = _
  rw [run_bind, run_vmapBody]
  unfold M.bind
  have hn : (Verif.vmapBody stackMach st (f x).run s).2.namedCall = s.namedCall := by rw [← run_vmapBody]; exact run_named _ _
  rcases hb : Verif.vmapBody stackMach st (f x).run s with ⟨_ | ⟨v, d⟩, s1⟩
  · rfl
  · rw [hb] at hn
    dsimp only at hn ⊢
    rw [run_bind, run_save]
    show ((vmapRest st d f s xs >>~ _).run s1) = _
    rw [run_bind]
    unfold M.bind
    obtain ⟨h1, h2⟩ := run_vmapRest st d f s xs s1 hn
    rcases hr : Verif.vmapRest stackMach st d (fun v => (f v).run) s xs with ⟨e, s2⟩ | vs
    · rw [hr] at h2
      dsimp only at h2 ⊢
      rw [h2]
    · rw [hr] at h2
      dsimp only at h2 ⊢
      rcases hx : (vmapRest st d f s xs).run s1 with ⟨r, s2⟩
      rw [hx] at h1 h2
      dsimp only at h1 h2
      subst h2
      dsimp only
      rw [run_bind]
      unfold M.bind
      rw [run_restore s1 s2 (h1.trans hn.symm)]
      dsimp only
      rw [run_bind, run_top]
      rfl

theorem run_vmap (f : Val → Thr Val) (x : Val) (xs : List Val) : (vmap f x xs).run = vmapM stackMach (fun v => (f v).run) x xs := by
  unfold vmap vmapM
  simp only [run_bind, run_top, run_vmapFrom]

theorem run_evalShape (m : Thr Val) : (evalShape m).run = evalShapeM stackMach m.run := by
  unfold evalShape evalShapeM
  simp only [run_bind, run_top, run_temp, run_pure]

theorem run_init (rng : RngArg) (m : Thr Val) : (init rng m).run = initM stackMach rng m.run := by
  unfold init initM
  cases rng.toSeq with
  | error e => rfl
  | ok r =>
    dsimp only
    rw [run_bind, run_inCtx]
    congr 1
    funext q
    rcases q with ⟨_ | v, c⟩ <;> rfl

theorem run_apply (params state : Option PDict) (rng : RngArg) (m : Thr Val) : (apply params state rng m).run = applyM stackMach params state rng m.run := by
  unfold apply applyM
  cases rng.toSeq with
  | error e => rfl
  | ok r =>
    dsimp only
    rw [run_bind, run_inCtx]
    congr 1
    funext q
    rcases q with ⟨_ | v, c⟩ <;> rfl

end Thr

/-- Running the small steps of a program is running the program. -/
theorem thr_run : ∀ p : Prog, p.thr.run = p.run stackMach
  | .ret v => rfl
  | .raise e => rfl
  | .bind p k => by
    simp only [Prog.thr, Prog.run, Thr.run_bind, thr_run p, fun v => thr_run (k v)]
  | .tryCatch p h => by
    simp only [Prog.thr, Prog.run, Thr.run_tryCatch, thr_run p, fun v => thr_run (h v)]
  | .op o => Thr.run_top _
  | .withRng r p => by
    simp only [Prog.thr, Prog.run, Thr.run_bind, Thr.run_top]
    congr 1
    funext _
    cases r.seq with
    | error e => rfl
    | ok q => exact (Thr.run_inRng q _).trans (by rw [thr_run p])
  | .withHook h p => by
    simp only [Prog.thr, Prog.run, Thr.run_bind, Thr.run_top, Thr.run_inHook, thr_run p]
  | .newModule args ctor => by
    simp only [Prog.thr, Prog.run, Thr.run_bind, Thr.run_construct, Thr.run_pure, fun id a => thr_run (ctor id a)]
  | .callMethod self method args body => by
    simp only [Prog.thr, Prog.run, Thr.run_wrapMethod, fun a => thr_run (body a)]
  | .nameScope name p => by
    simp only [Prog.thr, Prog.run, Thr.run_nameScope, thr_run p]
  | .jit p => by
    simp only [Prog.thr, Prog.run, Thr.run_jit, thr_run p]
  | .cond b t f => by
    simp only [Prog.thr, Prog.run, Thr.run_switch, List.map_cons, List.map_nil, thr_run t, thr_run f]
  | .switch i n br => by
    simp only [Prog.thr, Prog.run, Thr.run_switch, List.map_map]
    congr 1
    exact List.map_congr_left fun j _ => thr_run (br j)
  | .scan f init zero xs rev => by
    simp only [Prog.thr, Prog.run, Thr.run_scan, fun c x => thr_run (f c x)]
  | .fori lo up body init => by
    simp only [Prog.thr, Prog.run, Thr.run_fori, fun i v => thr_run (body i v)]
  | .whileLoop fuel c body init => by
    simp only [Prog.thr, Prog.run, Thr.run_while, fun v => thr_run (c v), fun v => thr_run (body v)]
  | .vmap f x xs => by
    simp only [Prog.thr, Prog.run, Thr.run_vmap, fun v => thr_run (f v)]
  | .evalShape p => by
    simp only [Prog.thr, Prog.run, Thr.run_evalShape, thr_run p]
  | .initT rng p => by
    simp only [Prog.thr, Prog.run, Thr.run_init, thr_run p]
  | .applyT params state rng p => by
    simp only [Prog.thr, Prog.run, Thr.run_apply, thr_run p]

end Verif
