import Verif.Model.PRNG

/-! Helper lemmas about `PRNGSeq`. -/

namespace Verif

namespace Key

/-- `Desc a k`: key `k` is `a` or was derived from `a` by splitting. -/
def Desc (a : Key) : Key → Prop
  | .root n => Key.root n = a
  | .child p n i => Key.child p n i = a ∨ Desc a p

/-- Number of splits on the way to a key. -/
def depth : Key → Nat
  | .root _ => 0
  | .child p _ _ => p.depth + 1

theorem Desc.refl (a : Key) : Desc a a := by cases a <;> simp [Desc]

theorem Desc.depth_le {a : Key} : ∀ {k : Key}, Desc a k → a.depth ≤ k.depth
  | .root _, h => by cases h; simp
  | .child p n i, h => by
    rcases h with h | h
    · subst h; exact Nat.le_refl _
    · have := Desc.depth_le h; simp only [depth]; omega

theorem Desc.of_child {a : Key} {n i : Nat} : ∀ {k : Key}, Desc (.child a n i) k → Desc a k
  | .root _, h => by cases h
  | .child p m j, h => by
    rcases h with h | h
    · cases h; exact Or.inr (Desc.refl a)
    · exact Or.inr (Desc.of_child h)

theorem Desc.trans {a b : Key} (hab : Desc a b) : ∀ {c : Key}, Desc b c → Desc a c
  | .root _, h => by cases h; exact hab
  | .child p n i, h => by
    rcases h with h | h
    · subst h; exact hab
    · exact Or.inr (Desc.trans hab h)

theorem not_desc_sibling {a : Key} {n i j : Nat} (h : i ≠ j) : ¬ Desc (.child a n i) (.child a n j) := by
  rintro (h' | h')
  · cases h'; exact h rfl
  · have := Desc.depth_le h'; simp only [depth] at this; omega

theorem not_desc_parent {a : Key} {n i : Nat} : ¬ Desc (.child a n i) a := by
  intro h; have := Desc.depth_le h; simp only [depth] at this; omega

end Key

theorem jaxSplit_succ (k : Key) (n : Nat) :
    jaxSplit k (n + 1) = .child k (n + 1) 0 :: (List.range n).map (fun i => .child k (n + 1) (i + 1)) := by
  simp [jaxSplit, List.range_succ_eq_map, Function.comp_def]

namespace PRNGSeq

theorem reserve_pos (s : PRNGSeq) {n : Int} (h : n > 0) :
    s.reserve n = ⟨.child s.key (n.toNat + 1) 0,
      s.subkeys ++ (List.range n.toNat).map (fun i => .child s.key (n.toNat + 1) (i + 1))⟩ := by
  simp [reserve, h, jaxSplit_succ]

theorem reserve_nonpos (s : PRNGSeq) {n : Int} (h : ¬ n > 0) : s.reserve n = s := by
  simp [reserve, h]

theorem length_reserve (s : PRNGSeq) (n : Int) :
    (s.reserve n).subkeys.length = s.subkeys.length + n.toNat := by
  by_cases h : n > 0
  · rw [reserve_pos s h]; simp
  · rw [reserve_nonpos s h]; omega

theorem prefix_reserve (s : PRNGSeq) (n : Int) : s.subkeys <+: (s.reserve n).subkeys := by
  by_cases h : n > 0
  · rw [reserve_pos s h]; exact List.prefix_append _ _
  · rw [reserve_nonpos s h]; exact List.prefix_refl _

theorem next_cons {s : PRNGSeq} {k : Key} {ks : List Key} (h : s.subkeys = k :: ks) :
    s.next = (some k, { s with subkeys := ks }) := by
  simp [next, h]

theorem next_nil {s : PRNGSeq} (h : s.subkeys = []) :
    s.next = (some (.child s.key 2 1), ⟨.child s.key 2 0, []⟩) := by
  have : s.reserve (defaultReserve : Int) = ⟨.child s.key 2 0, [.child s.key 2 1]⟩ := by
    rw [reserve_pos s (by decide)]; simp [h, defaultReserve, List.range_succ]
  unfold next
  rw [if_pos h, this]

/-- The key and the rest after `next`, unconditionally. -/
theorem next_eq (s : PRNGSeq) : ∃ k s', s.next = (some k, s') := by
  match h : s.subkeys with
  | [] => exact ⟨_, _, next_nil h⟩
  | k :: ks => exact ⟨_, _, next_cons h⟩

theorem nextN_of_le (s : PRNGSeq) (n : Nat) (h : n ≤ s.subkeys.length) :
    s.nextN n = (s.subkeys.take n, { s with subkeys := s.subkeys.drop n }) := by
  induction n generalizing s with
  | zero => simp [nextN]
  | succ n ih =>
    match hs : s.subkeys with
    | [] => simp [hs] at h
    | k :: ks =>
      have hle : n ≤ ks.length := by simpa [hs] using h
      simp only [nextN, next_cons hs]
      rw [ih _ hle]; simp

theorem take_eq (s : PRNGSeq) (num : Int) :
    s.take num = ((s.reserve (num - s.subkeys.length)).subkeys.take num.toNat,
      { s.reserve (num - s.subkeys.length) with
        subkeys := (s.reserve (num - s.subkeys.length)).subkeys.drop num.toNat }) := by
  have hr : s.reserve (max (num - s.subkeys.length) 0) = s.reserve (num - s.subkeys.length) := by
    by_cases h : num - s.subkeys.length > 0
    · rw [Int.max_eq_left (by omega)]
    · rw [reserve_nonpos _ h, reserve_nonpos _ (by omega)]
  unfold take
  rw [hr, nextN_of_le]
  rw [length_reserve]; omega

/-- The invariant behind key uniqueness: `used` keys and reserved keys are pairwise distinct and none was
derived from (or is) the key kept for future splitting. -/
def Inv (used : List Key) (s : PRNGSeq) : Prop :=
  (used ++ s.subkeys).Nodup ∧ ∀ k ∈ used ++ s.subkeys, ¬ Key.Desc s.key k

theorem Inv.reserve {used : List Key} {s : PRNGSeq} (h : Inv used s) (n : Int) : Inv used (s.reserve n) := by
  by_cases hn : n > 0
  · rw [reserve_pos s hn]
    refine ⟨?_, ?_⟩
    · simp only
      rw [← List.append_assoc, List.nodup_append]
      refine ⟨h.1, ?_, ?_⟩
      · rw [List.Nodup, List.pairwise_map]
        refine List.Pairwise.imp ?_ (List.nodup_range (n := n.toNat))
        intro a b hab he
        injection he with _ _ hi
        exact hab (by omega)
      · intro a ha b hb he
        subst he
        simp only [List.mem_map, List.mem_range] at hb
        obtain ⟨i, _, rfl⟩ := hb
        exact h.2 _ ha (Or.inr (Key.Desc.refl _))
    · intro k hk
      simp only [← List.append_assoc] at hk
      rcases List.mem_append.1 hk with hk | hk
      · exact fun hd => h.2 k hk (Key.Desc.of_child hd)
      · simp only [List.mem_map, List.mem_range] at hk
        obtain ⟨i, _, rfl⟩ := hk
        exact Key.not_desc_sibling (by omega)
  · rw [reserve_nonpos s hn]; exact h

/-- Handing out the first `n` reserved keys keeps the invariant. -/
theorem Inv.pop {used : List Key} {s : PRNGSeq} (h : Inv used s) (n : Nat) :
    Inv (used ++ s.subkeys.take n) { s with subkeys := s.subkeys.drop n } := by
  unfold Inv at *
  simp only [List.append_assoc, List.take_append_drop]
  exact h

/-- Dropping reserved keys and pretending they were used keeps the invariant. -/
theorem Inv.drop {used : List Key} {s : PRNGSeq} (h : Inv used s) (n : Nat) :
    Inv (used ++ s.subkeys.drop n) { s with subkeys := s.subkeys.take n } := by
  have hp : List.Perm (used ++ s.subkeys.drop n ++ s.subkeys.take n) (used ++ s.subkeys) := by
    rw [List.append_assoc]
    refine List.Perm.append_left _ ?_
    exact (List.perm_append_comm).trans (by rw [List.take_append_drop])
  refine ⟨hp.nodup_iff.2 h.1, fun k hk => h.2 k (hp.mem_iff.1 hk)⟩

/-- Forgetting used keys keeps the invariant. -/
theorem Inv.mono {used used' : List Key} {s : PRNGSeq} (h : Inv used s) (hs : used'.Sublist used) :
    Inv used' s := by
  refine ⟨(h.1.sublist (hs.append (List.Sublist.refl _))), fun k hk => h.2 k ?_⟩
  exact (hs.append (List.Sublist.refl _)).subset hk

theorem Inv.reserveUpToFull {used : List Key} {s : PRNGSeq} (h : Inv used s) : Inv used s.reserveUpToFull := by
  unfold PRNGSeq.reserveUpToFull
  simp only
  split
  · exact h.reserve _
  · exact (h.drop _).mono (List.sublist_append_left _ _)

theorem Inv.next {used : List Key} {s : PRNGSeq} (h : Inv used s) :
    Inv (used ++ s.next.1.toList) s.next.2 := by
  match hs : s.subkeys with
  | k :: ks =>
    rw [next_cons hs]
    have := h.pop 1
    simpa [hs] using this
  | [] =>
    have h1 := (h.reserve 1).pop 1
    rw [next_nil hs]
    rw [reserve_pos s (by decide)] at h1
    simpa [hs, List.range_succ] using h1

theorem Inv.take {used : List Key} {s : PRNGSeq} (h : Inv used s) (n : Int) :
    Inv (used ++ (s.take n).1) (s.take n).2 := by
  rw [take_eq]; exact (h.reserve _).pop _

theorem Inv.step {used : List Key} {s : PRNGSeq} (h : Inv used s) (op : SeqOp) :
    Inv (used ++ (op.step s).1) (op.step s).2 := by
  cases op with
  | next => exact h.next
  | take n => exact h.take n
  | reserve n => simpa [SeqOp.step] using h.reserve n
  | reserveUpToFull => simpa [SeqOp.step] using h.reserveUpToFull

theorem Inv.run {used : List Key} {s : PRNGSeq} (h : Inv used s) (ops : List SeqOp) :
    Inv (used ++ (SeqOp.run s ops).1) (SeqOp.run s ops).2 := by
  induction ops generalizing used s with
  | nil => simpa [SeqOp.run] using h
  | cons op ops ih =>
    have := ih (h.step op)
    simpa [SeqOp.run, List.append_assoc] using this

theorem Inv.init (k : Key) : Inv [] (ofKey k) := by simp [Inv, ofKey]

/-- The kept key after an operation is the old one or was derived from it. -/
theorem desc_step (s : PRNGSeq) (op : SeqOp) : Key.Desc s.key (op.step s).2.key := by
  have hr : ∀ (s : PRNGSeq) (n : Int), Key.Desc s.key (s.reserve n).key := by
    intro s n
    by_cases h : n > 0
    · rw [reserve_pos s h]; exact Or.inr (Key.Desc.refl _)
    · rw [reserve_nonpos s h]; exact Key.Desc.refl _
  cases op with
  | next =>
    show Key.Desc s.key s.next.2.key
    match h : s.subkeys with
    | [] => rw [next_nil h]; exact Or.inr (Key.Desc.refl _)
    | k :: ks => rw [next_cons h]; exact Key.Desc.refl _
  | take n => show Key.Desc s.key (s.take n).2.key; rw [take_eq]; exact hr s _
  | reserve n => exact hr s n
  | reserveUpToFull =>
    show Key.Desc s.key s.reserveUpToFull.key
    unfold PRNGSeq.reserveUpToFull
    simp only
    split
    · exact hr s _
    · exact Key.Desc.refl _

theorem desc_run (s : PRNGSeq) (ops : List SeqOp) : Key.Desc s.key (SeqOp.run s ops).2.key := by
  induction ops generalizing s with
  | nil => exact Key.Desc.refl _
  | cons op ops ih => exact Key.Desc.trans (desc_step s op) (ih _)

end PRNGSeq

theorem SeqOp.run_append (s : PRNGSeq) (a b : List SeqOp) :
    SeqOp.run s (a ++ b) =
      ((SeqOp.run s a).1 ++ (SeqOp.run (SeqOp.run s a).2 b).1, (SeqOp.run (SeqOp.run s a).2 b).2) := by
  induction a generalizing s with
  | nil => simp [SeqOp.run]
  | cons op a ih => simp [SeqOp.run, ih, List.append_assoc]

end Verif
