import Verif.Model.Identity

/-!
# `assert_state_unchanged` (C32), on object identities
-/

namespace Verif.Props.Identity
open Verif.Identity

/-- The addresses of the objects a change stores. -/
def stored : Change → List Nat
  | .newParam _ a => [a]
  | .newState _ a => [a]
  | .setState _ a => [a]
  | .split k ks => k :: ks
  | _ => []

/-- The change only takes or drops reserved keys. -/
def OnlyTakesKeys : Change → Prop
  | .pop => True
  | .truncate _ => True
  | _ => False

/-- The check is raised. -/
def Raises (before after : Frame) : Prop := reports before after = true

theorem raises_iff {f g : Frame} : Raises f g ↔
    (∃ s a, (s, a) ∈ g.params ∧ ∀ s', (s', a) ∉ f.params) ∨ (∃ s a, (s, a) ∈ g.state ∧ ∀ s', (s', a) ∉ f.state) ∨
    ∃ a ∈ g.rngIds, a ∉ f.rngIds := by
  simp [Raises, reports, or_assoc]

/-- New objects at addresses that nothing had before the block stay visible in the frame. -/
def Visible (f g : Frame) : Prop :=
  (∃ s a, (s, a) ∈ g.params ∧ a ∉ f.live) ∨ (∃ s a, (s, a) ∈ g.state ∧ a ∉ f.live) ∨ ∃ k ks, g.rng = some (k, ks) ∧ k ∉ f.live

theorem Visible.raises {f g : Frame} (h : Visible f g) : Raises f g := by
  rw [raises_iff]
  rcases h with ⟨s, a, h1, h2⟩ | ⟨s, a, h1, h2⟩ | ⟨k, ks, h1, h2⟩
  · exact .inl ⟨s, a, h1, fun s' hs => h2 (by simp only [Frame.live, List.mem_append, List.mem_map]; exact .inl (.inl ⟨_, hs, rfl⟩))⟩
  · exact .inr (.inl ⟨s, a, h1, fun s' hs => h2 (by simp only [Frame.live, List.mem_append, List.mem_map]; exact .inl (.inr ⟨_, hs, rfl⟩))⟩)
  · exact .inr (.inr ⟨k, by simp [Frame.rngIds, h1], fun hs => h2 (by simp only [Frame.live, List.mem_append]; exact .inr hs)⟩)

theorem Visible.step {f g : Frame} (h : Visible f g) (c : Change) (hp : c.possible g) (hf : ∀ a ∈ stored c, a ∉ f.live) : Visible f (c.apply g) := by
  cases c with
  | newParam s a =>
    rcases h with ⟨s', a', h1, h2⟩ | h | h
    · exact .inl ⟨s', a', by simp [Change.apply, h1], h2⟩
    · exact .inr (.inl h)
    · exact .inr (.inr h)
  | newState s a =>
    rcases h with h | ⟨s', a', h1, h2⟩ | h
    · exact .inl h
    · exact .inr (.inl ⟨s', a', by simp [Change.apply, h1], h2⟩)
    · exact .inr (.inr h)
  | setState s a =>
    rcases h with h | ⟨s', a', h1, h2⟩ | h
    · exact .inl h
    · by_cases he : s' = s
      · subst he
        exact .inr (.inl ⟨s', a, by simp only [Change.apply, assign, List.mem_map]; exact ⟨_, h1, by simp⟩, hf a (by simp [stored])⟩)
      · exact .inr (.inl ⟨s', a', by simp only [Change.apply, assign, List.mem_map]; exact ⟨_, h1, by simp [he]⟩, h2⟩)
    · exact .inr (.inr h)
  | pop =>
    rcases h with h | h | ⟨k, ks, h1, h2⟩
    · exact .inl h
    · exact .inr (.inl h)
    · exact .inr (.inr ⟨k, ks.tail, by simp [Change.apply, h1], h2⟩)
  | split k ks =>
    rcases h with h | h | ⟨k', ks', h1, h2⟩
    · exact .inl h
    · exact .inr (.inl h)
    · exact .inr (.inr ⟨k, ks' ++ ks, by simp [Change.apply, h1], hf k (by simp [stored])⟩)
  | truncate n =>
    rcases h with h | h | ⟨k, ks, h1, h2⟩
    · exact .inl h
    · exact .inr (.inl h)
    · exact .inr (.inr ⟨k, ks.take n, by simp [Change.apply, h1], h2⟩)

theorem Visible.block {f : Frame} : ∀ (cs : List Change) {g : Frame}, Visible f g → blockPossible g cs → (∀ c ∈ cs, ∀ a ∈ stored c, a ∉ f.live) →
    Visible f (runBlock g cs) := by
  intro cs
  induction cs with
  | nil => intro g h _ _; exact h
  | cons c cs ih =>
    intro g h hp hf
    exact ih (h.step c hp.1 (hf c (by simp))) hp.2 fun c' hc => hf c' (by simp [hc])

theorem visible_new {f g : Frame} (c : Change) (hp : c.possible g) (hc : ¬ OnlyTakesKeys c) (hf : ∀ a ∈ stored c, a ∉ f.live) :
    Visible f (c.apply g) := by
  cases c with
  | newParam s a => exact .inl ⟨s, a, by simp [Change.apply], hf a (by simp [stored])⟩
  | newState s a => exact .inr (.inl ⟨s, a, by simp [Change.apply], hf a (by simp [stored])⟩)
  | setState s a =>
    obtain ⟨h1, _⟩ := hp
    obtain ⟨p, hp, he⟩ := List.mem_map.1 h1
    exact .inr (.inl ⟨s, a, by simp only [Change.apply, assign, List.mem_map]; exact ⟨p, hp, by simp [he]⟩, hf a (by simp [stored])⟩)
  | split k ks =>
    obtain ⟨k0, xs, h1, _⟩ := hp
    exact .inr (.inr ⟨k, xs ++ ks, by simp [Change.apply, h1], hf k (by simp [stored])⟩)
  | pop => exact (hc trivial).elim
  | truncate n => exact (hc trivial).elim

/-- Nothing is new in the frame. -/
def Within (f g : Frame) : Prop := g.params = f.params ∧ g.state = f.state ∧ ∀ a ∈ g.rngIds, a ∈ f.rngIds

theorem Within.step {f g : Frame} (h : Within f g) (c : Change) (hc : OnlyTakesKeys c) : Within f (c.apply g) := by
  obtain ⟨h1, h2, h3⟩ := h
  cases c with
  | pop =>
    refine ⟨h1, h2, fun a ha => h3 a ?_⟩
    cases hg : g.rng with
    | none => simp [Change.apply, Frame.rngIds, hg] at ha
    | some r =>
      simp only [Change.apply, Frame.rngIds, hg, Option.map_some, List.mem_cons] at ha ⊢
      exact ha.imp id fun h => List.mem_of_mem_tail h
  | truncate n =>
    refine ⟨h1, h2, fun a ha => h3 a ?_⟩
    cases hg : g.rng with
    | none => simp [Change.apply, Frame.rngIds, hg] at ha
    | some r =>
      simp only [Change.apply, Frame.rngIds, hg, Option.map_some, List.mem_cons] at ha ⊢
      exact ha.imp id fun h => List.mem_of_mem_take h
  | newParam s a => cases hc
  | newState s a => cases hc
  | setState s a => cases hc
  | split k ks => cases hc

theorem Within.block {f : Frame} : ∀ (cs : List Change) {g : Frame}, Within f g → (∀ c ∈ cs, OnlyTakesKeys c) → Within f (runBlock g cs) := by
  intro cs
  induction cs with
  | nil => intro g h _; exact h
  | cons c cs ih => intro g h hc; exact ih (h.step c (hc c (by simp))) fun c' h' => hc c' (by simp [h'])

theorem Within.not_raises {f g : Frame} (h : Within f g) : ¬ Raises f g := by
  obtain ⟨h1, h2, h3⟩ := h
  rw [raises_iff, h1, h2]
  rintro (⟨s, a, h4, h5⟩ | ⟨s, a, h4, h5⟩ | ⟨a, h4, h5⟩)
  · exact h5 s h4
  · exact h5 s h4
  · exact h5 (h3 a h4)

/-- C32 when no new object gets an address that was in use when the block started, the block raises exactly when something was stored in
it: a parameter, a state entry, or newly split keys.  Missing from the full property: taking keys that were already reserved is not
noticed (`pop_not_noticed`), nor is a new object at an address that was in use (`set_twice_not_noticed`, `shared_array_not_noticed`). -/
theorem detects_stores_partial (f : Frame) (cs : List Change) (hp : blockPossible f cs) (hf : ∀ c ∈ cs, ∀ a ∈ stored c, a ∉ f.live) :
    Raises f (runBlock f cs) ↔ ∃ c ∈ cs, ¬ OnlyTakesKeys c := by
  constructor
  · intro h
    have hc : ¬ ∀ c ∈ cs, OnlyTakesKeys c := fun hc => (Within.block cs ⟨rfl, rfl, fun a h => h⟩ hc).not_raises h
    simpa using hc
  · rintro ⟨c, hc, hn⟩
    obtain ⟨before, after, rfl⟩ := List.append_of_mem hc
    have hp' : ∀ (l : List Change) (g : Frame), blockPossible g (l ++ c :: after) → blockPossible (runBlock g l) (c :: after) := by
      intro l
      induction l with
      | nil => intro g h; exact h
      | cons d l ih => intro g h; exact ih _ h.2
    have h1 := hp' before f hp
    have e : runBlock f (before ++ c :: after) = runBlock (c.apply (runBlock f before)) after := by simp [runBlock]
    rw [e]
    exact (Visible.block after (visible_new c h1.1 hn (hf c (by simp))) h1.2 fun c' h' => hf c' (by simp [h'])).raises

/-- C32 a single change of the state or a single split is always noticed: the old objects are still alive when the new one is made. -/
theorem detects_single (f : Frame) (c : Change) (hp : c.possible f) (hc : match c with | .newState .. => True | .setState .. => True | .split .. => True | _ => False) :
    Raises f (c.apply f) := by
  refine (visible_new c hp ?_ ?_).raises
  · cases c <;> first | exact id | exact hc.elim
  · cases c with
    | newState s a => simpa [stored] using hp.2
    | setState s a => simpa [stored] using hp.2
    | split k ks => obtain ⟨k0, xs, _, _, h⟩ := hp; exact h
    | _ => exact hc.elim

example : Change.possible ⟨[], [(([], []), 2), ((['m'], []), 5)], some (3, [4])⟩ (.setState (['m'], []) 6) := by
  simp [Change.possible, Frame.live, Frame.rngIds]

/-- C32 a block that stores nothing and takes no key passes. -/
theorem unchanged_passes (f : Frame) : ¬ Raises f f := Within.not_raises ⟨rfl, rfl, fun _ h => h⟩

/-- C32 is violated: taking an already reserved key changes the RNG and is not noticed. -/
theorem pop_not_noticed : ∃ f, Change.pop.possible f ∧ Change.pop.apply f ≠ f ∧ ¬ Raises f (Change.pop.apply f) :=
  ⟨⟨[], [], some (1, [2])⟩, ⟨1, 2, [], rfl⟩, by decide, by unfold Raises; decide⟩

/-- C32 is violated: setting a state entry twice; the second new object gets the address of the one that was there at the start. -/
theorem set_twice_not_noticed : ∃ f cs, blockPossible f cs ∧ cs = [.setState ([], []) 8, .setState ([], []) 7] ∧ ¬ Raises f (runBlock f cs) :=
  ⟨⟨[], [(([], []), 7)], none⟩, _, by simp [blockPossible, Change.possible, Frame.live, Frame.rngIds, Change.apply, assign], rfl,
    by unfold Raises; decide⟩

/-- C32 is violated: a new parameter whose initializer returns the array of another parameter. -/
theorem shared_array_not_noticed : ∃ f c, Change.possible f c ∧ c = .newParam (['a'], ['b']) 5 ∧ ¬ Raises f (c.apply f) :=
  ⟨⟨[(([], []), 5)], [], none⟩, _, by simp [Change.possible], rfl, by unfold Raises; decide⟩

example : blockPossible ⟨[(([], []), 1)], [(([], []), 2)], some (3, [4])⟩ [.pop, .split 10 [11], .setState ([], []) 12, .pop] ∧
    (∀ c ∈ [Change.pop, .split 10 [11], .setState ([], []) 12, .pop], ∀ a ∈ stored c, a ∉ Frame.live ⟨[(([], []), 1)], [(([], []), 2)], some (3, [4])⟩) := by
  simp [blockPossible, Change.possible, Frame.live, Frame.rngIds, Change.apply, assign, stored]

end Verif.Props.Identity
