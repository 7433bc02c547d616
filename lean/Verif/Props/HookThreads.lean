import Verif.Props.OptimizeRng

/-!
# The global RNG hook under several threads (C39)
-/

set_option linter.unusedVariables false

namespace Verif.Props.HookThreads
open Verif Hook Optimize
open Verif.Props.OptimizeRng (bumps_length bumps_get)

/-! ### Specification -/

mutual
/-- Calls of `next_rng_key` in a piece of code. -/
def requests : Code → Nat
  | .request => 1
  | .region body => requestsIn body
def requestsIn : List Code → Nat
  | [] => 0
  | c :: cs => requests c + requestsIn cs
end

mutual
/-- The counts a thread should obtain, in the order in which its regions end: the thread's own requests in each. -/
def reports : Code → List Nat
  | .request => []
  | .region body => reportsIn body ++ [requestsIn body]
def reportsIn : List Code → List Nat
  | [] => []
  | c :: cs => reports c ++ reportsIn cs
end

/-- Threads about to run their code. -/
def begin (code : Nat → List Code) : Sys := ⟨fun t => ⟨actsList (code t), [], []⟩, ⟨[], []⟩⟩

/-- Nothing left to do. -/
def Finished (S : Sys) : Prop := ∀ t, (S.threads t).todo = []

/-- While a thread is counting, no other thread takes a step. -/
def Exclusive (S : Sys) : List Nat → Prop
  | [] => True
  | u :: us => (∀ t, t ≠ u → (S.threads t).regions = []) ∧ Exclusive (S.step u) us

/-! ### One thread -/

/-- For `n` steps of the thread alone it is in some region, and then `P` holds. -/
def Through : Nat → Thread → Shared → (Thread → Shared → Prop) → Prop
  | 0, t, g, P => P t g
  | n + 1, t, g, P => t.regions ≠ [] ∧ Through n (t.step g).1 (t.step g).2 P

theorem Through.append {P Q : Thread → Shared → Prop} : ∀ {n : Nat} {t : Thread} {g : Shared}, Through n t g P → (∀ t' g', P t' g' → ∃ m, Through m t' g' Q) → ∃ m, Through m t g Q
  | 0, t, g, h, h' => h' t g h
  | n + 1, t, g, h, h' => by
    obtain ⟨m, hm⟩ := Through.append h.2 h'
    exact ⟨m + 1, h.1, hm⟩

/-- The wrappers are different and have their cells. -/
def Valid (g : Shared) : Prop := g.hook.Nodup ∧ ∀ c ∈ g.hook, c < g.counts.length

/-- The hook is the same, and all its wrappers have counted `n` more. -/
def Added (g g' : Shared) (n : Nat) : Prop :=
  g'.hook = g.hook ∧ g.counts.length ≤ g'.counts.length ∧ ∀ c < g.counts.length, g'.counts.getD c 0 = g.counts.getD c 0 + if c ∈ g.hook then n else 0

theorem Added.trans {a b c : Shared} {n m : Nat} (h : Added a b n) (h' : Added b c m) : Added a c (n + m) := by
  refine ⟨h'.1.trans h.1, Nat.le_trans h.2.1 h'.2.1, fun d hd => ?_⟩
  rw [h'.2.2 d (Nat.lt_of_lt_of_le hd h.2.1), h.2.2 d hd, h.1]
  split <;> omega

theorem Added.valid {a b : Shared} {n : Nat} (h : Added a b n) (hv : Valid a) : Valid b :=
  ⟨h.1 ▸ hv.1, fun c hc => Nat.lt_of_lt_of_le (hv.2 c (h.1 ▸ hc)) h.2.1⟩

mutual
/-- A piece of code inside a region. -/
theorem inside (c : Code) (rest : List Act) (rs : List (Nat × List Nat)) (hrs : rs ≠ []) (cnt : List Nat) (g : Shared) (hv : Valid g) :
    ∃ n, Through n ⟨c.acts ++ rest, rs, cnt⟩ g fun t' g' => t' = ⟨rest, rs, cnt ++ reports c⟩ ∧ Added g g' (requests c) :=
  match c with
  | .request => by
    refine ⟨1, hrs, ?_⟩
    refine ⟨?_, ?_⟩
    · show (⟨rest, rs, cnt⟩ : Thread) = _
      rw [show reports .request = [] from rfl, List.append_nil]
    · refine ⟨rfl, ?_, fun c hc => ?_⟩
      · exact Nat.le_of_eq (bumps_length _ _).symm
      · exact bumps_get _ _ _ hv.1 hv.2
  | .region body => by
    obtain ⟨n, hn⟩ := region body rest rs cnt g hv
    exact ⟨n + 1, hrs, hn⟩

/-- A region, after its first step. -/
theorem region (body : List Code) (rest : List Act) (rs : List (Nat × List Nat)) (cnt : List Nat) (g : Shared) (hv : Valid g) :
    ∃ n, Through n (Thread.step ⟨(Code.region body).acts ++ rest, rs, cnt⟩ g).1 (Thread.step ⟨(Code.region body).acts ++ rest, rs, cnt⟩ g).2
      fun t' g' => t' = ⟨rest, rs, cnt ++ reports (.region body)⟩ ∧ Added g g' (requests (.region body)) := by
  have hv2 : Valid ⟨g.counts.length :: g.hook, g.counts ++ [0]⟩ := by
    refine ⟨List.nodup_cons.2 ⟨fun h => Nat.lt_irrefl _ (hv.2 _ h), hv.1⟩, fun c hc => ?_⟩
    show c < (g.counts ++ [0]).length
    rw [List.length_append]
    rcases List.mem_cons.1 hc with e | h
    · rw [e]; exact Nat.lt_succ_self _
    · exact Nat.lt_succ_of_lt (hv.2 c h)
  obtain ⟨n, hn⟩ := insideList body (.restore :: rest) ((g.counts.length, g.hook) :: rs) (List.cons_ne_nil _ _) cnt ⟨g.counts.length :: g.hook, g.counts ++ [0]⟩ hv2
  have hacts : (Code.region body).acts ++ rest = .save :: .install :: (actsList body ++ .restore :: rest) := by
    rw [Code.acts]
    simp
  rw [hacts]
  show ∃ n, Through n ⟨.install :: (actsList body ++ .restore :: rest), (g.counts.length, g.hook) :: rs, cnt⟩ ⟨g.hook, g.counts ++ [0]⟩ _
  refine Through.append (n := n + 1) (P := fun t' g' => t' = ⟨.restore :: rest, (g.counts.length, g.hook) :: rs, cnt ++ reportsIn body⟩ ∧ Added ⟨g.counts.length :: g.hook, g.counts ++ [0]⟩ g' (requestsIn body))
    ⟨List.cons_ne_nil _ _, hn⟩ ?_
  rintro t' g' ⟨rfl, ha⟩
  refine ⟨1, List.cons_ne_nil _ _, ?_⟩
  have hown : g'.counts.getD g.counts.length 0 = requestsIn body := by
    have := ha.2.2 g.counts.length (by simp)
    rw [if_pos (by simp)] at this
    simpa using this
  refine ⟨?_, rfl, ?_, ?_⟩
  · show (⟨rest, rs, cnt ++ reportsIn body ++ [g'.counts.getD g.counts.length 0]⟩ : Thread) = _
    rw [hown, reports, List.append_assoc]
  · have := ha.2.1
    simp only [List.length_append] at this
    show g.counts.length ≤ g'.counts.length
    omega
  · intro c hc
    show g'.counts.getD c 0 = _
    have := ha.2.2 c (by simp only [List.length_append]; omega)
    rw [this]
    have e1 : (g.counts ++ [0]).getD c 0 = g.counts.getD c 0 := by
      simp only [List.getD_eq_getElem?_getD]
      rw [List.getElem?_append_left hc]
    dsimp only
    rw [e1]
    have hne : c ≠ g.counts.length := by omega
    by_cases hm : c ∈ g.hook
    · rw [if_pos (List.mem_cons_of_mem _ hm), if_pos hm, requests]
    · rw [if_neg (fun h => (List.mem_cons.1 h).elim hne hm), if_neg hm]

/-- Code in sequence inside a region. -/
theorem insideList (cs : List Code) (rest : List Act) (rs : List (Nat × List Nat)) (hrs : rs ≠ []) (cnt : List Nat) (g : Shared) (hv : Valid g) :
    ∃ n, Through n ⟨actsList cs ++ rest, rs, cnt⟩ g fun t' g' => t' = ⟨rest, rs, cnt ++ reportsIn cs⟩ ∧ Added g g' (requestsIn cs) :=
  match cs with
  | [] => by
    refine ⟨0, ?_, rfl, Nat.le_refl _, fun c _ => ?_⟩
    · rw [reportsIn, List.append_nil]; rfl
    · rw [requestsIn]; split <;> rfl
  | c :: cs => by
    obtain ⟨n, hn⟩ := inside c (actsList cs ++ rest) rs hrs cnt g hv
    have e : actsList (c :: cs) ++ rest = c.acts ++ (actsList cs ++ rest) := by
      rw [actsList, List.append_assoc]
    rw [e]
    refine Through.append hn ?_
    rintro t' g' ⟨rfl, ha⟩
    obtain ⟨m, hm⟩ := insideList cs rest rs hrs (cnt ++ reports c) g' (ha.valid hv)
    refine Through.append hm ?_
    rintro t'' g'' ⟨rfl, hb⟩
    refine ⟨0, ?_, ?_⟩
    · rw [reportsIn, List.append_assoc]
    · rw [requestsIn]
      exact ha.trans hb
end

/-! ### All threads -/

/-- Between its regions: the thread is going to report `R` in all. -/
def Idle (R : List Nat) (t : Thread) : Prop := t.regions = [] ∧ ∃ cs, t.todo = actsList cs ∧ t.counted ++ reportsIn cs = R

theorem idle_step {R : List Nat} {t : Thread} (h : Idle R t) (g : Shared) (hg : g.hook = []) :
    ∃ n, Through n (t.step g).1 (t.step g).2 fun t' g' => Idle R t' ∧ g'.hook = [] := by
  obtain ⟨todo, regions, cnt⟩ := t
  obtain ⟨h1, cs, h2, h3⟩ := h
  dsimp only at h1 h2 h3
  subst h1
  rcases cs with _ | ⟨_ | body, cs⟩
  · subst h2
    exact ⟨0, ⟨rfl, [], rfl, h3⟩, hg⟩
  · subst h2
    exact ⟨0, ⟨rfl, cs, rfl, h3⟩, hg⟩
  · obtain ⟨n, hn⟩ := region body (actsList cs) [] cnt g (by rw [Valid, hg]; exact ⟨List.nodup_nil, (fun c h => by cases h)⟩)
    rw [show actsList (.region body :: cs) = (Code.region body).acts ++ actsList cs from by rw [actsList]] at h2
    subst h2
    refine Through.append hn ?_
    rintro t' g' ⟨rfl, ha⟩
    refine ⟨0, ⟨rfl, cs, rfl, ?_⟩, ha.1.trans hg⟩
    show cnt ++ reports (.region body) ++ reportsIn cs = R
    rw [List.append_assoc]
    exact h3

/-- C39 If no other thread takes a step while a thread is counting, then after all threads have finished the implementation of `next_rng_key` is the original one, and every thread counted
exactly its own requests in each of its (possibly nested) regions; any number of threads, any order otherwise.  Missing from the full property, which the code violates: other
schedules, see `hook_left_behind` and `foreign_requests`. -/
theorem exclusive_partial (code : Nat → List Code) (schedule : List Nat) (hex : Exclusive (begin code) schedule) (hfin : Finished ((begin code).run schedule)) :
    ((begin code).run schedule).shared.hook = [] ∧ ∀ t, (((begin code).run schedule).threads t).counted = reportsIn (code t) := by
  have key : ∀ (schedule : List Nat) (S : Sys) (a n : Nat), (∀ t, t ≠ a → Idle (reportsIn (code t)) (S.threads t)) →
      Through n (S.threads a) S.shared (fun t' g' => Idle (reportsIn (code a)) t' ∧ g'.hook = []) → Exclusive S schedule → Finished (S.run schedule) →
      (S.run schedule).shared.hook = [] ∧ ∀ t, ((S.run schedule).threads t).counted = reportsIn (code t) := by
    intro schedule
    induction schedule with
    | nil =>
      intro S a n hidle ha _ hfin
      have done : ∀ t R, Idle R (S.threads t) → (S.threads t).counted = R := by
        rintro t R ⟨_, cs, h1, h2⟩
        rw [show (S.threads t).todo = [] from hfin t] at h1
        rcases cs with _ | ⟨_ | b, cs⟩
        · rw [reportsIn, List.append_nil] at h2; exact h2
        · rw [actsList, Code.acts] at h1; cases h1
        · rw [actsList, Code.acts] at h1; cases h1
      rcases n with _ | n
      · refine ⟨ha.2, fun t => ?_⟩
        by_cases h : t = a
        · exact done t _ (h ▸ ha.1)
        · exact done t _ (hidle t h)
      · exfalso
        obtain ⟨hr, hthr⟩ := ha
        have hstuck : ∀ n : Nat, ∀ t : Thread, ∀ g : Shared, t.todo = [] → t.regions ≠ [] → ¬ Through n t g (fun t' g' => Idle (reportsIn (code a)) t' ∧ g'.hook = []) := by
          intro n
          induction n with
          | zero => intro t g h1 h2 h; exact h2 h.1.1
          | succ n ih =>
            intro t g h1 h2 h
            have e : t.step g = (t, g) := by unfold Thread.step; rw [h1]
            have := h.2
            rw [e] at this
            exact ih t g h1 h2 this
        exact hstuck (n + 1) _ _ (hfin a) hr ⟨hr, hthr⟩
    | cons u us ih =>
      intro S a n hidle ha hex hfin
      rcases n with _ | n
      · have hu : Idle (reportsIn (code u)) (S.threads u) := by
          by_cases h : u = a
          · rw [h]; exact ha.1
          · exact hidle u h
        obtain ⟨m, hm⟩ := idle_step hu S.shared ha.2
        refine ih (S.step u) u m ?_ ?_ hex.2 hfin
        · intro t ht
          show Idle _ (if t = u then _ else S.threads t)
          rw [if_neg ht]
          by_cases h : t = a
          · rw [h]; exact ha.1
          · exact hidle t h
        · show Through m (if u = u then _ else _) _ _
          rw [if_pos rfl]
          exact hm
      · by_cases hu : u = a
        · subst hu
          refine ih (S.step u) u n ?_ ?_ hex.2 hfin
          · intro t ht
            show Idle _ (if t = u then _ else S.threads t)
            rw [if_neg ht]
            exact hidle t ht
          · show Through n (if u = u then _ else _) _ _
            rw [if_pos rfl]
            exact ha.2
        · exact absurd (hex.1 a (Ne.symm hu)) ha.1
  refine key schedule (begin code) 0 0 (fun t _ => ⟨rfl, code t, rfl, rfl⟩) ⟨⟨rfl, code 0, rfl, rfl⟩, rfl⟩ hex hfin

/-- Two threads: thread 0 counts one request, then draws a key; thread 1 counts two requests, one of them in a nested region. -/
def twoCounting (t : Nat) : List Code :=
  if t = 0 then [.region [.request], .request] else if t = 1 then [.region [.request, .region [.request]], .request, .request] else []

theorem others_idle (t : Nat) (h0 : t ≠ 0) (h1 : t ≠ 1) : (begin twoCounting).threads t = ⟨[], [], []⟩ := by
  unfold begin twoCounting
  dsimp only
  rw [if_neg h0, if_neg h1]
  rfl

/-- Threads whose number does not occur in the schedule do nothing. -/
theorem untouched (t : Nat) : ∀ (schedule : List Nat) (S : Sys), t ∉ schedule → (S.run schedule).threads t = S.threads t
  | [], _, _ => rfl
  | u :: us, S, h => by
    refine (untouched t us (S.step u) fun hm => h (List.mem_cons_of_mem _ hm)).trans ?_
    show (if t = u then _ else S.threads t) = _
    exact if_neg (fun e : t = u => h (by rw [e]; exact List.mem_cons_self))

/-- The hypotheses of `exclusive_partial` for the two threads, with regions one after another and the other requests in between. -/
example : Finished ((begin twoCounting).run [0, 0, 0, 0, 1, 1, 1, 1, 1, 1, 1, 1, 0, 1, 1]) := by
  intro t
  by_cases h0 : t = 0
  · subst h0; decide +kernel
  · by_cases h1 : t = 1
    · subst h1; decide +kernel
    · rw [untouched t _ _ (by simp [h0, h1]), others_idle t h0 h1]

example : Exclusive (begin twoCounting) [0, 0, 0, 0, 1, 1, 1, 1, 1, 1, 1, 1, 0, 1, 1] := by
  have h : ∀ (us : List Nat) (S : Sys), (∀ u ∈ us, u = 0 ∨ u = 1) → (∀ t, t ≠ 0 → t ≠ 1 → (S.threads t).regions = []) →
      (∀ n, n < us.length → (us.drop n).head? = some 0 → ((S.run (us.take n)).threads 1).regions = []) →
      (∀ n, n < us.length → (us.drop n).head? = some 1 → ((S.run (us.take n)).threads 0).regions = []) → Exclusive S us := by
    intro us
    induction us with
    | nil => exact fun _ _ _ _ _ => trivial
    | cons u us ih =>
      intro S hu ho h0 h1
      refine ⟨fun t ht => ?_, ih (S.step u) (fun v hv => hu v (List.mem_cons_of_mem _ hv)) (fun t a b => ?_) (fun n hn he => h0 (n + 1) (Nat.succ_lt_succ hn) he)
        (fun n hn he => h1 (n + 1) (Nat.succ_lt_succ hn) he)⟩
      · by_cases a : t = 0
        · subst a
          exact h1 0 (Nat.succ_pos _) (by rcases hu u List.mem_cons_self with e | e; exact absurd e.symm ht; rw [e]; rfl)
        · by_cases b : t = 1
          · subst b
            exact h0 0 (Nat.succ_pos _) (by rcases hu u List.mem_cons_self with e | e; rw [e]; rfl; exact absurd e.symm ht)
          · exact ho t a b
      · show (if t = u then _ else S.threads t).regions = []
        rw [if_neg (fun e => (hu u List.mem_cons_self).elim (fun h => a (e.trans h)) (fun h => b (e.trans h)))]
        exact ho t a b
  refine h _ _ (by decide) (fun t a b => by rw [others_idle t a b]) ?_ ?_ <;> decide +kernel

/-- Two threads that each count one request. -/
def racing (t : Nat) : List Code := if t < 2 then [.region [.request]] else []

/-- C39 does not hold: when two counting regions overlap, the wrapper of the thread that ended first can be left behind for good, and requests are counted for the wrong thread (one thread
counts two, the other one). -/
theorem hook_left_behind : Finished ((begin racing).run [0, 0, 1, 1, 0, 0, 1, 1]) ∧ ((begin racing).run [0, 0, 1, 1, 0, 0, 1, 1]).shared.hook = [0] ∧
    (((begin racing).run [0, 0, 1, 1, 0, 0, 1, 1]).threads 0).counted = [1] ∧ (((begin racing).run [0, 0, 1, 1, 0, 0, 1, 1]).threads 1).counted = [1] ∧
    (((begin racing).run [0, 0, 1, 1, 1, 0, 0, 1]).threads 0).counted = [2] := by
  refine ⟨fun t => ?_, by decide +kernel, by decide +kernel, by decide +kernel, by decide +kernel⟩
  by_cases h0 : t = 0
  · subst h0; decide +kernel
  · by_cases h1 : t = 1
    · subst h1; decide +kernel
    · rw [untouched t _ _ (by simp [h0, h1])]
      unfold begin racing
      dsimp only
      rw [if_neg (by omega)]
      rfl

/-- C39 Even when only one thread uses `optimize_rng_use`, the requests of the other threads are counted with its own. -/
theorem foreign_requests : (((begin fun t => if t = 0 then [.region [.request]] else [.request]).run [0, 0, 1, 0, 2, 0]).threads 0).counted = [3] := by decide +kernel

/-- The code of a thread without counting. -/
def onlyRequests : List Code → Prop
  | [] => True
  | .request :: cs => onlyRequests cs
  | .region _ :: _ => False

/-- A thread that is about to make requests only. -/
def Requesting (t : Thread) : Prop := t.regions = [] ∧ ∃ cs, onlyRequests cs ∧ t.todo = actsList cs

/-- The hook after a step. -/
def follows (t : Thread) (h : List Nat) : List Nat :=
  match t.todo with
  | [] => h
  | .save :: _ => h
  | .install :: _ => match t.regions with | [] => h | (c, orig) :: _ => c :: orig
  | .request :: _ => h
  | .restore :: _ => match t.regions with | [] => h | (_, orig) :: _ => orig

theorem step_hook (t : Thread) (g : Shared) : (t.step g).2.hook = follows t g.hook := by
  unfold Thread.step follows
  rcases t.todo with _ | ⟨_ | _ | _ | _, rest⟩
  · rfl
  · rfl
  · rcases t.regions with _ | ⟨⟨c, o⟩, rs⟩ <;> rfl
  · rfl
  · rcases t.regions with _ | ⟨⟨c, o⟩, rs⟩ <;> rfl

/-- Levels of brackets: what is left to do in a region, and what the hook will be. -/
inductive Nest : List Act → List (Nat × List Nat) → List Nat → Prop
  | out (cs : List Code) : Nest (actsList cs) [] []
  | body {rest : List Act} {rs : List (Nat × List Nat)} {orig : List Nat} (cs : List Code) (c : Nat) : Nest rest rs orig → Nest (actsList cs ++ .restore :: rest) ((c, orig) :: rs) (c :: orig)
  | saved {rest : List Act} {rs : List (Nat × List Nat)} {orig : List Nat} (cs : List Code) (c : Nat) : Nest rest rs orig → Nest (.install :: (actsList cs ++ .restore :: rest)) ((c, orig) :: rs) orig

theorem nest_step {t : Thread} {g : Shared} (h : Nest t.todo t.regions g.hook) : Nest (t.step g).1.todo (t.step g).1.regions (t.step g).2.hook := by
  obtain ⟨todo, rs, cnt⟩ := t
  dsimp only at h
  generalize hk : g.hook = k at h
  cases h with
  | out cs =>
    rcases cs with _ | ⟨_ | b, cs⟩
    · unfold Thread.step
      dsimp only [actsList]
      rw [hk]
      exact .out []
    · show Nest (actsList cs) [] g.hook
      rw [hk]
      exact .out cs
    · show Nest (.install :: ((actsList b ++ [.restore]) ++ actsList cs)) [(g.counts.length, g.hook)] g.hook
      rw [hk, List.append_assoc]
      exact .saved b _ (.out cs)
  | @body rest rs orig cs c h =>
    rcases cs with _ | ⟨_ | b, cs⟩
    · exact h
    · show Nest (actsList cs ++ .restore :: rest) _ g.hook
      rw [hk]
      exact .body cs c h
    · show Nest (.install :: ((actsList b ++ [.restore]) ++ actsList cs ++ .restore :: rest)) ((g.counts.length, g.hook) :: (c, orig) :: rs) g.hook
      rw [hk, List.append_assoc, List.append_assoc]
      exact .saved b _ (.body cs c h)
  | @saved rest rs orig cs c h =>
    exact .body cs c h

/-- C39 If only one thread uses `optimize_rng_use`, then under every schedule, once that thread has finished, the implementation of `next_rng_key` is the original one. -/
theorem single_user_partial (code : Nat → List Code) (a : Nat) (hothers : ∀ t, t ≠ a → onlyRequests (code t)) (schedule : List Nat)
    (hfin : (((begin code).run schedule).threads a).todo = []) : ((begin code).run schedule).shared.hook = [] := by
  have key : ∀ (schedule : List Nat) (S : Sys), (∀ t, t ≠ a → Requesting (S.threads t)) → Nest (S.threads a).todo (S.threads a).regions S.shared.hook →
      Nest ((S.run schedule).threads a).todo ((S.run schedule).threads a).regions (S.run schedule).shared.hook := by
    intro schedule
    induction schedule with
    | nil => exact fun S _ h => h
    | cons u us ih =>
      intro S ho h
      refine ih (S.step u) (fun t ht => ?_) ?_
      · show Requesting (if t = u then _ else S.threads t)
        by_cases e : t = u
        · rw [if_pos e]
          subst e
          obtain ⟨h1, cs, h2, h3⟩ := ho t ht
          unfold Thread.step
          rcases cs with _ | ⟨_ | b, cs⟩
          · rw [h3]; exact ⟨h1, [], trivial, h3⟩
          · rw [h3]; exact ⟨h1, cs, h2, rfl⟩
          · exact h2.elim
        · rw [if_neg e]; exact ho t ht
      · by_cases e : u = a
        · subst e
          show Nest (if u = u then _ else S.threads u).todo (if u = u then _ else S.threads u).regions _
          rw [if_pos rfl]
          exact nest_step h
        · show Nest (if a = u then _ else S.threads a).todo (if a = u then _ else S.threads a).regions ((S.threads u).step S.shared).2.hook
          rw [if_neg (Ne.symm e), step_hook]
          obtain ⟨h1, cs, h2, h3⟩ := ho u e
          have : follows (S.threads u) S.shared.hook = S.shared.hook := by
            unfold follows
            rcases cs with _ | ⟨_ | b, cs⟩
            · rw [h3]; rfl
            · rw [h3]; rfl
            · exact h2.elim
          rw [this]
          exact h
  have h := key schedule (begin code) (fun t ht => ⟨rfl, code t, hothers t ht, rfl⟩) (.out (code a))
  rw [hfin] at h
  generalize (((begin code).run schedule).threads a).regions = rs at h
  generalize ((begin code).run schedule).shared.hook = k at h
  generalize hl : ([] : List Act) = l at h
  cases h with
  | out cs => rfl
  | body cs c h => exact absurd (congrArg List.length hl) (by simp)
  | saved cs c h => cases hl

example : (∀ t, t ≠ 0 → onlyRequests ((fun t => if t = 0 then [.region [.request]] else [.request] : Nat → List Code) t)) ∧
    (((begin fun t => if t = 0 then [.region [.request]] else [.request]).run [0, 1, 0, 1, 0, 2, 0]).threads 0).todo = [] := by
  refine ⟨fun t ht => ?_, by decide +kernel⟩
  dsimp only
  rw [if_neg ht]
  trivial

end Verif.Props.HookThreads
