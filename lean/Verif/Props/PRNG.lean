import Verif.Lemmas.PRNG

/-!
# Properties of `hk.PRNGSequence` (C07, C09, C10, C11)

All theorems speak about the keys handed to the caller by a history of public operations
(`SeqOp.run`) and about `internal_state`.
-/

namespace Verif.Props.PRNG
open Verif

/-- Keys handed out by a history of operations on a sequence created from a key. -/
abbrev outs (k : Key) (ops : List SeqOp) : List Key := (SeqOp.run (PRNGSeq.ofKey k) ops).1

/-- The sequence after a history of operations on a sequence created from a key. -/
abbrev after (k : Key) (ops : List SeqOp) : PRNGSeq := (SeqOp.run (PRNGSeq.ofKey k) ops).2

/-- C07: whatever the history of `next`, `take`, `reserve`, `reserve_up_to_full`, no key is handed out twice. -/
theorem keys_never_repeat (k : Key) (ops : List SeqOp) : (outs k ops).Nodup := by
  have := ((PRNGSeq.Inv.init k).run ops).1
  rw [List.nil_append] at this
  exact this.sublist (List.sublist_append_left _ _)

example : outs (.root 42) [.next, .take 2, .reserve 3, .next, .reserveUpToFull, .take (-1), .next, .next] =
    [.child (.root 42) 2 1, .child (.child (.root 42) 2 0) 3 1, .child (.child (.root 42) 2 0) 3 2,
     .child (.child (.child (.root 42) 2 0) 3 0) 4 1, .child (.child (.child (.root 42) 2 0) 3 0) 4 2,
     .child (.child (.child (.child (.root 42) 2 0) 3 0) 4 0) 2 1] := by decide

/-- Every key handed out later, or still reserved later, is reserved now or is strictly deeper than the key now held. -/
private theorem future (s : PRNGSeq) (ops : List SeqOp) :
    (∀ k ∈ (SeqOp.run s ops).1 ++ (SeqOp.run s ops).2.subkeys, k ∈ s.subkeys ∨ s.key.depth < k.depth) := by
  have hres : ∀ (s : PRNGSeq) (n : Int), ∀ k ∈ (s.reserve n).subkeys, k ∈ s.subkeys ∨ s.key.depth < k.depth := by
    intro s n k hk
    by_cases h : n > 0
    · rw [PRNGSeq.reserve_pos s h] at hk
      rcases List.mem_append.1 hk with hk | hk
      · exact Or.inl hk
      · simp only [List.mem_map, List.mem_range] at hk
        obtain ⟨i, _, rfl⟩ := hk
        exact Or.inr (by simp [Key.depth])
    · rw [PRNGSeq.reserve_nonpos s h] at hk; exact Or.inl hk
  have hstep : ∀ (s : PRNGSeq) (op : SeqOp), ∀ k ∈ (op.step s).1 ++ (op.step s).2.subkeys,
      k ∈ s.subkeys ∨ s.key.depth < k.depth := by
    intro s op k hk
    cases op with
    | next =>
      simp only [SeqOp.step] at hk
      match h : s.subkeys with
      | [] =>
        rw [PRNGSeq.next_nil h] at hk
        simp at hk; subst hk; exact Or.inr (by simp [Key.depth])
      | k0 :: ks =>
        rw [PRNGSeq.next_cons h] at hk
        left; simpa using hk
    | take n =>
      simp only [SeqOp.step] at hk
      rw [PRNGSeq.take_eq, List.take_append_drop] at hk
      exact hres s _ k hk
    | reserve n => exact hres s n k (by simpa [SeqOp.step] using hk)
    | reserveUpToFull =>
      simp only [SeqOp.step, List.nil_append, PRNGSeq.reserveUpToFull] at hk
      split at hk
      · exact hres s _ k hk
      · exact Or.inl (List.mem_of_mem_take hk)
  induction ops generalizing s with
  | nil => intro k hk; simp [SeqOp.run] at hk; exact Or.inl hk
  | cons op ops ih =>
    intro k hk
    simp only [SeqOp.run, List.append_assoc] at hk
    rcases List.mem_append.1 hk with hk | hk
    · exact hstep s op k (List.mem_append_left _ hk)
    · rcases ih (op.step s).2 k hk with h | h
      · exact hstep s op k (List.mem_append_right _ h)
      · exact Or.inr (Nat.lt_of_le_of_lt (Key.Desc.depth_le (PRNGSeq.desc_step s op)) h)

/-- C07: the key a sequence holds for splitting is never one of the keys it hands out, before or afterwards. So no key
given to the user is ever split by the sequence. -/
theorem held_key_never_handed_out (k : Key) (a b : List SeqOp) :
    (after k a).internalState.1 ∉ outs k (a ++ b) := by
  intro h
  simp only [outs, SeqOp.run_append] at h
  rcases List.mem_append.1 h with h | h
  · have := ((PRNGSeq.Inv.init k).run a).2 (after k a).key
      (by simp only [List.nil_append]; exact List.mem_append_left _ h)
    exact this (Key.Desc.refl _)
  · rcases future (after k a) b _ (List.mem_append_left _ h) with h | h
    · exact ((PRNGSeq.Inv.init k).run a).2 (after k a).key
        (by simp only [List.nil_append]; exact List.mem_append_right _ h) (Key.Desc.refl _)
    · exact Nat.lt_irrefl _ h

example : (after (.root 7) [.take 2]).internalState.1 = .child (.root 7) 3 0 := by decide

/-- C07: once a sequence has split the key it held, it never holds (hence never splits) that key again. -/
theorem no_key_split_twice (k : Key) (a b c : List SeqOp)
    (h : (after k (a ++ b)).internalState.1 ≠ (after k a).internalState.1) :
    (after k (a ++ b ++ c)).internalState.1 ≠ (after k a).internalState.1 := by
  have strict : ∀ {x y : Key}, Key.Desc x y → y ≠ x → x.depth < y.depth := by
    intro x y hd hne
    cases y with
    | root n => exact absurd hd hne
    | child p n i =>
      rcases hd with hd | hd
      · exact absurd hd hne
      · have := Key.Desc.depth_le hd; simp only [Key.depth]; omega
  intro he
  have h1 : (after k a).key.depth < (after k (a ++ b)).key.depth := by
    refine strict ?_ h
    simp only [after, SeqOp.run_append]
    exact PRNGSeq.desc_run _ _
  have h2 : (after k (a ++ b)).key.depth ≤ (after k (a ++ b ++ c)).key.depth := by
    refine Key.Desc.depth_le ?_
    simp only [after, SeqOp.run_append (a := a ++ b)]
    exact PRNGSeq.desc_run _ _
  have h3 : (after k (a ++ b ++ c)).key = (after k a).key := he
  rw [h3] at h2
  omega

example : (after (.root 7) ([.reserve 2] ++ [.reserve 1])).internalState.1 ≠
    (after (.root 7) [.reserve 2]).internalState.1 := by decide

/-- C09: reserving more keys does not change the keys that were already reserved nor their order of delivery. -/
theorem reserve_keeps_delivery (s : PRNGSeq) (n : Int) (m : Nat) (h : m ≤ s.internalState.2.length) :
    (SeqOp.run s (.reserve n :: List.replicate m .next)).1 = (SeqOp.run s (List.replicate m .next)).1 ∧
    (SeqOp.run s (List.replicate m .next)).1 = s.internalState.2.take m := by
  have key : ∀ (s : PRNGSeq) (m : Nat), m ≤ s.subkeys.length →
      (SeqOp.run s (List.replicate m .next)).1 = s.subkeys.take m := by
    intro s m
    induction m generalizing s with
    | zero => intro _; simp [SeqOp.run]
    | succ m ih =>
      intro h
      match hs : s.subkeys with
      | [] => simp [hs] at h
      | k :: ks =>
        simp only [List.replicate_succ, SeqOp.run, SeqOp.step, PRNGSeq.next_cons hs]
        rw [ih _ (by simpa [hs] using h)]
        simp
  have h' : m ≤ s.subkeys.length := h
  refine ⟨?_, key s m h'⟩
  have hl := PRNGSeq.length_reserve s n
  simp only [SeqOp.run, SeqOp.step, List.nil_append]
  rw [key _ m (by omega), key s m h']
  obtain ⟨t, ht⟩ := PRNGSeq.prefix_reserve s n
  rw [← ht, List.take_append_of_le_length h']

example : 2 ≤ (PRNGSeq.mk (.root 0) [.root 1, .root 2]).internalState.2.length := by decide

/-- C09: on a sequence with nothing reserved, `reserve(n)` followed by `n` calls of `next` gives
`jax.random.split(key, n + 1)[1:]` in order. -/
theorem reserve_then_next (k : Key) (n : Nat) :
    outs k (.reserve n :: List.replicate n .next) = (List.range n).map (fun i => Key.child k (n + 1) (i + 1)) := by
  have hsub : ((PRNGSeq.ofKey k).reserve n).subkeys = (List.range n).map (fun i => Key.child k (n + 1) (i + 1)) := by
    by_cases h : (n : Int) > 0
    · rw [PRNGSeq.reserve_pos _ h]; simp [PRNGSeq.ofKey]
    · have : n = 0 := by omega
      subst this; rfl
  have h1 := (reserve_keeps_delivery ((PRNGSeq.ofKey k).reserve n) 0 n
    (by simp [PRNGSeq.internalState, hsub])).2
  simp only [outs, SeqOp.run, SeqOp.step, List.nil_append]
  rw [h1]
  simp only [PRNGSeq.internalState, hsub]
  exact List.take_of_length_le (by simp)

example : outs (.root 3) (.reserve 2 :: List.replicate 2 .next) =
    [.child (.root 3) 3 1, .child (.root 3) 3 2] := by decide

/-- C09: `take(n)` returns exactly `max(n, 0)` keys. -/
theorem take_length (s : PRNGSeq) (n : Int) : (s.take n).1.length = n.toNat := by
  rw [PRNGSeq.take_eq, List.length_take, PRNGSeq.length_reserve]; omega

example : ((PRNGSeq.mk (.root 0) [.root 1]).take 3).1.length = 3 ∧ ((PRNGSeq.mk (.root 0) [.root 1]).take (-3)).1 = [] := by
  decide

/-- C09: `take(n)` hands out the reserved keys first, in order. -/
theorem take_reserved_first (s : PRNGSeq) (n : Int) (h : s.internalState.2.length ≤ n) :
    s.internalState.2 <+: (s.take n).1 := by
  rw [PRNGSeq.take_eq]
  obtain ⟨t, ht⟩ := PRNGSeq.prefix_reserve s (n - s.subkeys.length)
  have h' : (s.subkeys.length : Int) ≤ n := h
  simp only [← ht, PRNGSeq.internalState]
  rw [List.take_append, List.take_of_length_le (by omega)]
  exact List.prefix_append _ _

example : ((PRNGSeq.mk (.root 0) [.root 1, .root 2]).take 3).1 = [.root 1, .root 2, .child (.root 0) 2 1] := by decide

/-- C09: with at least `n` reserved keys, `take(n)` is the same as `n` calls of `next`. -/
theorem take_eq_next (s : PRNGSeq) (n : Nat) (h : n ≤ s.internalState.2.length) :
    s.take n = SeqOp.run s (List.replicate n .next) := by
  have key : ∀ (s : PRNGSeq) (n : Nat), n ≤ s.subkeys.length →
      SeqOp.run s (List.replicate n .next) = (s.subkeys.take n, { s with subkeys := s.subkeys.drop n }) := by
    intro s n
    induction n generalizing s with
    | zero => intro _; simp [SeqOp.run]
    | succ n ih =>
      intro h
      match hs : s.subkeys with
      | [] => simp [hs] at h
      | k :: ks =>
        simp only [List.replicate_succ, SeqOp.run, SeqOp.step, PRNGSeq.next_cons hs]
        rw [ih _ (by simpa [hs] using h)]
        simp
  have h' : n ≤ s.subkeys.length := h
  rw [key s n h', PRNGSeq.take_eq, PRNGSeq.reserve_nonpos _ (by omega)]
  simp

example : (2 : Nat) ≤ (PRNGSeq.mk (.root 0) [.root 1, .root 2, .root 3]).internalState.2.length ∧
    ((PRNGSeq.mk (.root 0) [.root 1, .root 2, .root 3]).take 2).1 = [.root 1, .root 2] := by decide

/-- C09: `take(n)` with `n ≤ 0` hands out nothing and changes nothing. -/
theorem take_nonpos (s : PRNGSeq) (n : Int) (h : n ≤ 0) : s.take n = ([], s) := by
  rw [PRNGSeq.take_eq, PRNGSeq.reserve_nonpos _ (by omega)]
  simp [show n.toNat = 0 by omega]

example : (PRNGSeq.mk (.root 0) [.root 1]).take (-3) = ([], ⟨.root 0, [.root 1]⟩) := by decide

/-- C10: saving `internal_state` in the middle of a history and continuing on a sequence rebuilt from it (by the
constructor or by `replace_internal_state` on any other sequence) hands out the same keys. -/
theorem snapshot_resume (s other : PRNGSeq) (a b : List SeqOp) :
    (SeqOp.run s (a ++ b)).1 =
      (SeqOp.run s a).1 ++ (SeqOp.run (PRNGSeq.ofState (SeqOp.run s a).2.internalState) b).1 ∧
    (SeqOp.run s (a ++ b)).1 =
      (SeqOp.run s a).1 ++ (SeqOp.run (other.replaceInternalState (SeqOp.run s a).2.internalState) b).1 ∧
    (SeqOp.run s (a ++ b)).2.internalState =
      (SeqOp.run (PRNGSeq.ofState (SeqOp.run s a).2.internalState) b).2.internalState := by
  rw [SeqOp.run_append]
  exact ⟨rfl, rfl, rfl⟩

example : (SeqOp.run (PRNGSeq.ofKey (.root 1)) ([.reserve 3, .next] ++ [.next, .take 4])).1.length = 6 := by decide

/-- C11: `reserve_up_to_full` leaves exactly the default number of reserved keys, whatever happened before. -/
theorem reserve_up_to_full_length (s : PRNGSeq) :
    s.reserveUpToFull.internalState.2.length = defaultReserve := by
  unfold PRNGSeq.reserveUpToFull PRNGSeq.internalState
  simp only
  split
  · rw [PRNGSeq.length_reserve]; omega
  · simp only [List.length_take]; omega

example : (PRNGSeq.mk (.root 0) [.root 1, .root 2]).reserveUpToFull = ⟨.root 0, [.root 1]⟩ ∧
    (PRNGSeq.mk (.root 0) []).reserveUpToFull = ⟨.child (.root 0) 2 0, [.child (.root 0) 2 1]⟩ := by decide

/-- C11: a reserved key that `reserve_up_to_full` drops is never handed out afterwards (nor was it before). -/
theorem dropped_keys_never_handed_out (k : Key) (a b : List SeqOp) (x : Key)
    (hx : x ∈ (after k a).internalState.2)
    (hdrop : x ∉ (after k (a ++ [.reserveUpToFull])).internalState.2) :
    x ∉ outs k (a ++ .reserveUpToFull :: b) := by
  have hI := (PRNGSeq.Inv.init k).run a
  rw [List.nil_append] at hI
  have hx' : x ∈ (after k a).subkeys := hx
  simp only [after, SeqOp.run_append, SeqOp.run, SeqOp.step, PRNGSeq.internalState] at hdrop
  -- the dropped keys
  have hfull : PRNGSeq.Inv (outs k a ++ [x]) (after k a).reserveUpToFull := by
    unfold PRNGSeq.reserveUpToFull at hdrop ⊢
    simp only at hdrop ⊢
    split at hdrop
    · obtain ⟨t, ht⟩ := PRNGSeq.prefix_reserve (after k a)
        ((defaultReserve : Int) - ((after k a).subkeys.length : Int))
      exact absurd (by rw [← ht]; exact List.mem_append_left _ hx') hdrop
    · rename_i hneg
      rw [if_neg hneg]
      have hxd : x ∈ (after k a).subkeys.drop defaultReserve := by
        rw [← List.take_append_drop defaultReserve (after k a).subkeys] at hx'
        exact (List.mem_append.1 hx').resolve_left hdrop
      exact (hI.drop defaultReserve).mono
        (List.Sublist.append (List.Sublist.refl _) (List.singleton_sublist.2 hxd))
  intro hmem
  have hrun := (hfull.run b).1
  have : outs k (a ++ .reserveUpToFull :: b) =
      outs k a ++ (SeqOp.run (after k a).reserveUpToFull b).1 := by
    simp [outs, after, SeqOp.run_append, SeqOp.run, SeqOp.step]
  rw [this] at hmem
  rw [List.append_assoc, List.append_assoc, List.nodup_append] at hrun
  rcases List.mem_append.1 hmem with h | h
  · exact hrun.2.2 x h x (by simp) rfl
  · have h2 := hrun.2.1
    rw [List.singleton_append, List.nodup_cons] at h2
    exact h2.1 (List.mem_append_left _ h)

example : Key.child (.root 9) 4 2 ∈ (after (.root 9) [.reserve 3]).internalState.2 ∧
    Key.child (.root 9) 4 2 ∉ (after (.root 9) ([.reserve 3] ++ [.reserveUpToFull])).internalState.2 := by decide

end Verif.Props.PRNG
