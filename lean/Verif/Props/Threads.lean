import Verif.Base.Dict
import Verif.Lemmas.Threads

/-!
# Threads (C38)
-/

set_option linter.unusedVariables false

namespace Verif.Props.Threads
open Verif

/-! ### Specification -/

/-- The system with thread `t` alone. -/
def alone (S : System) (t : Nat) : System := ⟨fun u => if u = t then S.scripts t else .finished (.ok .unit), S.process⟩

/-- The thread never calls `profiler_name_scopes`, however its code ends. -/
def Quiet : Script → Prop
  | .finished _ => True
  | .code _ k => ∀ r, Quiet (k r)
  | .profilerNameScopes _ _ => False

/-! ### Lemmas -/

theorem tls_get_set {α : Type} (s : TLS α) (t : Nat) (l : List α) : (s.set t l).get t = l := by
  unfold TLS.get TLS.set
  rw [Dict.get?_set_self]
  rfl

theorem tls_get_set_ne {α : Type} (s : TLS α) {t u : Nat} (l : List α) (h : t ≠ u) : (s.set t l).get u = s.get u := by
  unfold TLS.get TLS.set
  rw [Dict.get?_set_ne _ _ h]

theorem view_put (P : Process) (t : Nat) (w : World) : (P.put t w).view t = { w with namedCall := P.namedCall } := by
  unfold Process.view Process.put
  simp only [tls_get_set]

theorem view_put_ne (P : Process) {t u : Nat} (w : World) (h : t ≠ u) : (P.put t w).view u = P.view u := by
  unfold Process.view Process.put
  simp only [tls_get_set_ne _ _ h]

theorem quiet_step {t : Nat} {s : Script} (P : Process) (h : Quiet s) : Quiet (s.step t P).1 := by
  unfold Script.step
  split
  · trivial
  · exact h _
  · exact h
  · exact h.elim

theorem view_step_ne {t u : Nat} {s : Script} (P : Process) (h : Quiet s) (hne : t ≠ u) : (s.step t P).2.view u = P.view u := by
  unfold Script.step
  split
  · rfl
  · rfl
  · exact view_put_ne P _ hne
  · exact h.elim

theorem named_step {t : Nat} {s : Script} (P : Process) (h : Quiet s) : (s.step t P).2.namedCall = P.namedCall := by
  unfold Script.step
  split
  · rfl
  · rfl
  · rfl
  · exact h.elim

/-- A step depends on what the thread sees only. -/
theorem step_view (t : Nat) (s : Script) {P Q : Process} (h : P.view t = Q.view t) : (s.step t P).1 = (s.step t Q).1 ∧ (s.step t P).2.view t = (s.step t Q).2.view t := by
  have hn : P.namedCall = Q.namedCall := congrArg World.namedCall h
  unfold Script.step
  split
  · exact ⟨rfl, h⟩
  · exact ⟨rfl, h⟩
  · dsimp only
    rw [view_put, view_put, h, hn]
    exact ⟨rfl, rfl⟩
  · rename_i b k
    refine ⟨by rw [hn], ?_⟩
    show ({ P.view t with namedCall := b } : World) = { Q.view t with namedCall := b }
    rw [h]

theorem scripts_step (S : System) (t u : Nat) : (S.step t).scripts u = if u = t then ((S.scripts t).step t S.process).1 else S.scripts u := rfl

/-! ### C38 -/

/-- C38 For every number of threads and every schedule, if no other thread calls `profiler_name_scopes`: each thread is at every moment where it would be, and sees what it would see, if it had run alone for as many steps.  Missing
from the full property (and false of the code): threads that call `profiler_name_scopes`, see `named_call_leaks`; the global hook of `optimize_rng_use` is the subject of C39. -/
theorem threads_independent_partial (S : System) (t : Nat) (hq : ∀ u, u ≠ t → Quiet (S.scripts u)) (schedule : List Nat) :
    (S.run schedule).scripts t = ((alone S t).run (schedule.filter (· = t))).scripts t ∧ (S.run schedule).process.view t = ((alone S t).run (schedule.filter (· = t))).process.view t := by
  have key : ∀ (schedule : List Nat) (S A : System), (∀ u, u ≠ t → Quiet (S.scripts u)) → S.scripts t = A.scripts t → S.process.view t = A.process.view t →
      (S.run schedule).scripts t = (A.run (schedule.filter (· = t))).scripts t ∧ (S.run schedule).process.view t = (A.run (schedule.filter (· = t))).process.view t := by
    intro schedule
    induction schedule with
    | nil => exact fun S A _ h1 h2 => ⟨h1, h2⟩
    | cons u us ih =>
      intro S A hq h1 h2
      have hq' : ∀ v, v ≠ t → Quiet ((S.step u).scripts v) := by
        intro v hv
        rw [scripts_step]
        split
        · rename_i e
          subst e
          exact quiet_step _ (hq v hv)
        · exact hq v hv
      by_cases hu : u = t
      · subst hu
        rw [List.filter_cons_of_pos (by simp)]
        obtain ⟨e1, e2⟩ := step_view u (S.scripts u) h2
        refine ih (S.step u) (A.step u) hq' ?_ ?_
        · rw [scripts_step, scripts_step, if_pos rfl, if_pos rfl, e1, h1]
        · show ((S.scripts u).step u S.process).2.view u = ((A.scripts u).step u A.process).2.view u
          rw [e2, h1]
      · rw [List.filter_cons_of_neg (by simpa using hu)]
        refine ih (S.step u) A hq' ?_ ?_
        · rw [scripts_step, if_neg (Ne.symm hu)]
          exact h1
        · show ((S.scripts u).step u S.process).2.view t = _
          rw [view_step_ne _ (hq u hu) hu]
          exact h2
  exact key schedule S (alone S t) hq (if_pos rfl).symm rfl

/-- Code reaches its end, alone. -/
theorem code_runs (t : Nat) : ∀ (c : Thr Val) (k : Except Exc Val → Script) (A : System), A.scripts t = .code c k →
    ∃ n, (A.run (List.replicate n t)).scripts t = k (c.run (A.process.view t)).1 ∧ (A.run (List.replicate n t)).process.view t = (c.run (A.process.view t)).2
  | .done r, k, A, h => by
    refine ⟨1, ?_, ?_⟩
    · show (A.step t).scripts t = _
      rw [scripts_step, if_pos rfl, h]
      rfl
    · show ((A.scripts t).step t A.process).2.view t = _
      rw [h]
      rfl
  | .atom f j, k, A, h => by
    have hs : (A.step t).scripts t = .code (j (f (A.process.view t)).1) k := by
      rw [scripts_step, if_pos rfl, h]
      rfl
    obtain ⟨n, h1, h2⟩ := code_runs t (j (f (A.process.view t)).1) k (A.step t) hs
    have hv : (A.step t).process.view t = (Thr.keep f (A.process.view t)).2 := by
      show ((A.scripts t).step t A.process).2.view t = _
      rw [h]
      show (A.process.put t _).view t = _
      rw [view_put]
      rfl
    rw [hv] at h1 h2
    exact ⟨n + 1, h1, h2⟩

/-- C38 In particular a thread that runs a program of the model gets, after enough of its own steps and whatever the others do in between, the result that the program has on its own, and the same view. -/
theorem thread_result_partial (S : System) (t : Nat) (hq : ∀ u, u ≠ t → Quiet (S.scripts u)) (p : Prog) (k : Except Exc Val → Script) (hp : S.scripts t = .code p.thr k) :
    ∃ n, ∀ schedule : List Nat, schedule.count t = n → (S.run schedule).scripts t = k (p.run stackMach (S.process.view t)).1 ∧ (S.run schedule).process.view t = (p.run stackMach (S.process.view t)).2 := by
  obtain ⟨n, h1, h2⟩ := code_runs t p.thr k (alone S t) ((if_pos rfl).trans hp)
  refine ⟨n, fun schedule hc => ?_⟩
  obtain ⟨e1, e2⟩ := threads_independent_partial S t hq schedule
  have : schedule.filter (· = t) = List.replicate n t := by
    rw [← hc, List.count_eq_length_filter]
    refine List.eq_replicate_of_mem fun x hx => ?_
    exact of_decide_eq_true (List.mem_filter.mp hx).2
  rw [e1, e2, this, h1, h2, thr_run]
  exact ⟨rfl, rfl⟩

/-- A method call that draws a key and raises; the exception is caught, and another key is drawn and returned. -/
def retrying : Prog :=
  .bind (.newModule .unit fun id _ => .op (.superInit id none "M".toList)) fun m =>
  match m with
  | .mod id => .tryCatch (.callMethod id Names.sCall .unit fun _ => .bind (.op .nextKey) fun _ => .raise .indexError) fun _ => .op .nextKey
  | v => .ret v

def applying (seed : Int) (p : Prog) : Prog := .applyT none none (.seed seed) p

/-- Two threads, each running a transformed function, one that fails with an exception half way. -/
def twoThreads : System :=
  ⟨fun u => if u = 0 then .code (applying 1 (.bind (.op .nextKey) fun _ => .op .nextKey)).thr .finished else if u = 1 then .code (applying 2 (.bind (.op .nextKey) fun _ => .raise .indexError)).thr .finished else .finished (.ok .unit), .initial⟩

/-- The result of a thread that has finished. -/
def resultOf : Script → Option (Except Exc Val)
  | .finished r => some r
  | _ => none

example : ∀ u, u ≠ 0 → Quiet (twoThreads.scripts u) := by
  intro u hu
  unfold twoThreads
  dsimp only
  rw [if_neg hu]
  split
  · exact fun _ => trivial
  · trivial

example : resultOf ((twoThreads.run [0, 1, 1, 0, 0, 1, 1, 1, 0, 0]).scripts 0) = some (.ok (.pair (.key (.child (.child (.root 1) 2 0) 2 1)) (.bundle []))) ∧
    resultOf ((twoThreads.run [0, 1, 1, 0, 0, 1, 1, 1, 0, 0]).scripts 1) = some (.error .indexError) ∧
    resultOf ((twoThreads.run [0, 1, 1, 0, 0, 1, 1, 1]).scripts 0) = none := by decide +kernel

/-- Thread 0 runs `retrying`, thread 1 calls `profiler_name_scopes(True)`. -/
def withProfiler : System :=
  ⟨fun u => if u = 0 then .code (applying 1 retrying).thr .finished else if u = 1 then .profilerNameScopes true fun _ => .finished (.ok .unit) else .finished (.ok .unit), .initial⟩

/-- C38 does not hold for threads that call `profiler_name_scopes`: the setting is global, and with it every `__call__` of every thread runs inside `hk.named_call`, where keys drawn before an exception are handed out again (compare
`Verif.Props.Rng.caught_key_reused`).  So thread 0 gets another key than alone if thread 1 takes its step first. -/
theorem named_call_leaks : resultOf (((alone withProfiler 0).run (List.replicate 30 0)).scripts 0) = some (.ok (.pair (.key (.child (.child (.root 1) 2 0) 2 1)) (.bundle []))) ∧
    resultOf ((withProfiler.run (1 :: List.replicate 30 0)).scripts 0) = some (.ok (.pair (.key (.child (.root 1) 2 1)) (.bundle []))) := by decide +kernel

/-- C38 What a thread leaves behind is seen by no other thread: the view of thread `t` changes only by steps of `t`, for every thread `u ≠ t` that does not call `profiler_name_scopes`. -/
theorem others_invisible (S : System) (t u : Nat) (h : u ≠ t) (hq : Quiet (S.scripts u)) : (S.step u).process.view t = S.process.view t := view_step_ne _ hq h

example : Quiet (twoThreads.scripts 1) := fun _ => trivial

end Verif.Props.Threads
