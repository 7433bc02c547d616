import Verif.Model.Dot

/-!
# The graphs recorded for a function
-/

namespace Verif.Props.Dot
open Verif Verif.Shapes Verif.Dot

/-! ### What a graph should be -/

/-- A graph without addresses. -/
inductive Drawing where
  | mk (title : Str) (nodes : List Node) (edges : List (Obj × Obj)) (subs : List Drawing)

mutual

/-- The graph without its addresses. -/
def plain : Graph → Drawing
  | .mk _ t ns es gs => .mk t ns es (plains gs)

/-- The graphs without their addresses. -/
def plains : List Graph → List Drawing
  | [] => []
  | g :: gs => plain g :: plains gs

end

mutual

/-- The addresses of a graph and of all graphs in it. -/
def refs : Graph → List Nat
  | .mk r _ _ _ gs => r :: refsAll gs

/-- The addresses of graphs and of all graphs in them. -/
def refsAll : List Graph → List Nat
  | [] => []
  | g :: gs => refs g ++ refsAll gs

end

mutual

/-- The graph is in memory. -/
def Stored (cells : List Cell) : Graph → Prop
  | .mk r t ns es gs => cells[r]? = some ⟨some t, ns, es, gs.map Graph.ref⟩ ∧ StoredAll cells gs

/-- The graphs are in memory. -/
def StoredAll (cells : List Cell) : List Graph → Prop
  | [] => True
  | g :: gs => Stored cells g ∧ StoredAll cells gs

end

/-- A piece of a graph: what one thing after the other adds to it. -/
structure Part where
  nodes : List Node
  edges : List (Obj × Obj)
  subs : List Drawing

/-- Nothing. -/
def Part.nil : Part := ⟨[], [], []⟩

/-- One piece after the other. -/
def Part.add (p q : Part) : Part := ⟨p.nodes ++ q.nodes, p.edges ++ q.edges, p.subs ++ q.subs⟩

/-- The piece as a cluster. -/
def Part.boxed (title : Str) (p : Part) : Part := ⟨[], [], [.mk title p.nodes p.edges p.subs]⟩

mutual

/-- What one thing should add: an operation its node and an edge from each of its operands to it; the call of a method that returns, and any call of a compiled function, a cluster with what happened in it; everything else what happened in
it.  Also the setting of named calls, and the exception raised. -/
def seen : Step → Bool → Part × Bool × Option Err
  | .prim _ _ [], n => (.nil, n, some .index)
  | .prim title inputs (o :: os), n => (⟨[⟨o, title, o :: os⟩], inputs.map fun i => (i, o), []⟩, n, none)
  | .method module method body, n =>
    match seenAll body n with
    | (_, n', some e) => (.nil, n', some e)
    | (p, n', none) =>
      ((if n = true ∧ method = "__call__".toList then p.boxed ("named_call".toList ++ " (".toList ++ module ++ ")".toList) else p).boxed (if method = "__call__".toList then module else module ++ " (".toList ++ method ++ ")".toList), n', none)
  | .call primitive fn body, n =>
    match seenAll body n with
    | (p, n', e) => (p.boxed (primitive ++ " (".toList ++ fn ++ ")".toList), n', e)
  | .custom body, n => seenAll body n
  | .attempt body handler, n =>
    match seenAll body n with
    | (p, n', none) => (p, n', none)
    | (p, n', some _) => ((p.add (seenAll handler n').1), (seenAll handler n').2)
  | .raise e, n => (.nil, n, some e)
  | .scopes b, _ => (.nil, b, none)

/-- What things should add one after the other, up to the first exception. -/
def seenAll : List Step → Bool → Part × Bool × Option Err
  | [], n => (.nil, n, none)
  | s :: ss, n =>
    match seen s n with
    | (p, n', some e) => (p, n', some e)
    | (p, n', none) => (p.add (seenAll ss n').1, (seenAll ss n').2)

end

/-! ### Memory -/

mutual

theorem stored_congr {c c' : List Cell} : ∀ (g : Graph), (∀ i ∈ refs g, c'[i]? = c[i]?) → Stored c g → Stored c' g
  | .mk r t ns es gs, h, hs => ⟨(h r (by simp [refs])).trans hs.1, storedAll_congr gs (fun i hi => h i (by simp [refs, hi])) hs.2⟩

theorem storedAll_congr {c c' : List Cell} : ∀ (gs : List Graph), (∀ i ∈ refsAll gs, c'[i]? = c[i]?) → StoredAll c gs → StoredAll c' gs
  | [], _, _ => trivial
  | g :: gs, h, hs => ⟨stored_congr g (fun i hi => h i (by simp [refsAll, hi])) hs.1, storedAll_congr gs (fun i hi => h i (by simp [refsAll, hi])) hs.2⟩

end

theorem storedAll_append {c : List Cell} : ∀ (gs hs : List Graph), StoredAll c gs → StoredAll c hs → StoredAll c (gs ++ hs)
  | [], _, _, h => h
  | _ :: gs, hs, h, h' => ⟨h.1, storedAll_append gs hs h.2 h'⟩

theorem refsAll_append : ∀ (gs hs : List Graph), refsAll (gs ++ hs) = refsAll gs ++ refsAll hs
  | [], _ => rfl
  | g :: gs, hs => by simp [refsAll, refsAll_append gs hs]

theorem plains_append : ∀ (gs hs : List Graph), plains (gs ++ hs) = plains gs ++ plains hs
  | [], _ => rfl
  | g :: gs, hs => by simp [plains, plains_append gs hs]

/-- Memory grew: the graph `r` got the given nodes, edges and subgraphs, which are new, and no other graph changed. -/
structure Grew (c c' : List Cell) (r : Nat) (ns : List Node) (es : List (Obj × Obj)) (gs : List Graph) : Prop where
  len : c.length ≤ c'.length
  others : ∀ i < c.length, i ≠ r → c'[i]? = c[i]?
  top : ∀ x, c[r]? = some x → c'[r]? = some ⟨x.title, x.nodes ++ ns, x.edges ++ es, x.subs ++ gs.map Graph.ref⟩
  stored : StoredAll c' gs
  fresh : ∀ i ∈ refsAll gs, c.length ≤ i ∧ i < c'.length
  nodup : (refsAll gs).Nodup

theorem Grew.refl (c : List Cell) (r : Nat) : Grew c c r [] [] [] :=
  ⟨Nat.le_refl _, fun _ _ _ => rfl, fun x h => by simpa using h, trivial, (fun i h => by simp [refsAll] at h), by simp [refsAll]⟩

theorem Grew.trans {c c' c'' : List Cell} {r : Nat} {ns ns' : List Node} {es es' : List (Obj × Obj)} {gs gs' : List Graph} (hr : r < c.length) (h : Grew c c' r ns es gs) (h' : Grew c' c'' r ns' es' gs') :
    Grew c c'' r (ns ++ ns') (es ++ es') (gs ++ gs') where
  len := Nat.le_trans h.len h'.len
  others i hi hir := (h'.others i (Nat.lt_of_lt_of_le hi h.len) hir).trans (h.others i hi hir)
  top x hx := by
    have := h'.top _ (h.top x hx)
    simpa [List.append_assoc] using this
  stored := by
    refine storedAll_append _ _ (storedAll_congr gs (fun i hi => ?_) h.stored) h'.stored
    exact h'.others i (h.fresh i hi).2 (by have := (h.fresh i hi).1; omega)
  fresh i hi := by
    rw [refsAll_append, List.mem_append] at hi
    rcases hi with hi | hi
    · exact ⟨(h.fresh i hi).1, Nat.lt_of_lt_of_le (h.fresh i hi).2 h'.len⟩
    · exact ⟨Nat.le_trans h.len (h'.fresh i hi).1, (h'.fresh i hi).2⟩
  nodup := by
    rw [refsAll_append, List.nodup_append]
    refine ⟨h.nodup, h'.nodup, fun a ha b hb => ?_⟩
    have h1 := (h.fresh a ha).2
    have h2 := (h'.fresh b hb).1
    omega

/-- The run of `f` from `m`, with `r` on top of the stack, adds what the specification `s` says. -/
def Records (f : Mem → Mem × Option Err) (s : Bool → Part × Bool × Option Err) : Prop :=
  ∀ (m : Mem) (r : Nat) (rest : List Nat), m.stack = r :: rest → r < m.cells.length →
    ∃ (c' : List Cell) (gs : List Graph), f m = (⟨c', r :: rest, (s m.named).2.1⟩, (s m.named).2.2) ∧
      Grew m.cells c' r (s m.named).1.nodes (s m.named).1.edges gs ∧ plains gs = (s m.named).1.subs

theorem within_of {f : Mem → Mem × Option Err} {m m' : Mem} {r : Nat} {rest : List Nat} {e : Option Err} (h : f { m with stack := r :: m.stack } = (m', e)) (hm : m'.stack = r :: rest) :
    m.within r f = ({ m' with stack := rest }, e) := by
  unfold Mem.within
  rw [h]
  obtain ⟨c, st, n⟩ := m'
  dsimp only at hm ⊢
  subst hm
  simp

theorem records_call {f : Mem → Mem × Option Err} {s : Bool → Part × Bool × Option Err} (h : Records f s) (title : Str) :
    Records (fun m => recordCall m title f) fun n => ((s n).1.boxed title, (s n).2.1, (s n).2.2) := by
  rintro ⟨c, st, n⟩ r rest hst hr
  dsimp only at hst hr ⊢
  subst hst
  let c1 : List Cell := (c ++ [(⟨some title, [], [], []⟩ : Cell)]).modify r fun x => { x with subs := x.subs ++ [c.length] }
  have hlen : c1.length = c.length + 1 := by simp [c1]
  obtain ⟨c', gs, hf, hg, hp⟩ := h ⟨c1, c.length :: r :: rest, n⟩ c.length (r :: rest) rfl (by dsimp only; omega)
  dsimp only at hf hg hp
  refine ⟨c', [.mk c.length title (s n).1.nodes (s n).1.edges gs], ?_, ?_, ?_⟩
  · exact within_of (m := ⟨c1, r :: rest, n⟩) hf rfl
  · have hnew : c1[c.length]? = some ⟨some title, [], [], []⟩ := by
      simp only [c1]
      rw [List.getElem?_modify]
      have : r ≠ c.length := by omega
      simp [this]
    have hold : ∀ i, i ≠ r → i < c.length → c1[i]? = c[i]? := by
      intro i hi hil
      simp only [c1]
      rw [List.getElem?_modify, List.getElem?_append_left hil]
      simp [Ne.symm hi]
    have htop : ∀ x, c[r]? = some x → c1[r]? = some { x with subs := x.subs ++ [c.length] } := by
      intro x hx
      simp only [c1]
      rw [List.getElem?_modify, List.getElem?_append_left hr, hx]
      simp
    refine ⟨by have := hg.len; omega, ?_, ?_, ⟨⟨?_, hg.stored⟩, trivial⟩, ?_, ?_⟩
    · intro i hi hir
      rw [hg.others i (by omega) (by omega)]
      exact hold i hir hi
    · intro x hx
      rw [hg.others r (by omega) (by omega), htop x hx]
      simp [Part.boxed, Graph.ref]
    · simpa using hg.top _ hnew
    · intro i hi
      simp only [refsAll, refs, List.append_nil, List.mem_cons] at hi
      have := hg.len
      rcases hi with rfl | hi
      · omega
      · have := hg.fresh i hi; omega
    · simp only [refsAll, refs, List.append_nil, List.nodup_cons]
      exact ⟨fun hi => by have := hg.fresh _ hi; omega, hg.nodup⟩
  · simp [plains, plain, hp, Part.boxed]

theorem records_method {f : Mem → Mem × Option Err} {s : Bool → Part × Bool × Option Err} (h : Records f s) (title : Str) :
    Records (fun m => recordMethod m title f) fun n => match s n with | (_, n', some e) => (.nil, n', some e) | (p, n', none) => (p.boxed title, n', none) := by
  rintro ⟨c, st, n⟩ r rest hst hr
  dsimp only at hst hr ⊢
  subst hst
  let c1 : List Cell := c ++ [⟨none, [], [], []⟩]
  have hlen : c1.length = c.length + 1 := by simp [c1]
  have hold : ∀ i, i < c.length → c1[i]? = c[i]? := fun i hi => List.getElem?_append_left hi
  have hnew : c1[c.length]? = some ⟨none, [], [], []⟩ := by simp [c1]
  obtain ⟨c', gs, hf, hg, hp⟩ := h ⟨c1, c.length :: r :: rest, n⟩ c.length (r :: rest) rfl (by dsimp only; omega)
  dsimp only at hf hg hp
  have hl := hg.len
  have hw : (Mem.create ⟨c, r :: rest, n⟩ none).within c.length f = (⟨c', r :: rest, (s n).2.1⟩, (s n).2.2) := within_of (m := ⟨c1, r :: rest, n⟩) hf rfl
  unfold recordMethod
  dsimp only
  rw [hw]
  rcases hs : s n with ⟨p, n', e⟩
  rw [hs] at hf hg hp
  dsimp only at hg hp ⊢
  cases e with
  | some e =>
    refine ⟨c', [], rfl, ⟨by omega, fun i hi hir => ?_, fun x hx => ?_, trivial, (fun i h => by simp [refsAll] at h), by simp [refsAll]⟩, rfl⟩
    · rw [hg.others i (by omega) (by omega)]
      exact hold i hi
    · rw [hg.others r (by omega) (by omega), hold r hr, hx]
      simp [Part.nil]
  | none =>
    have hsub : c'[c.length]? = some ⟨none, p.nodes, p.edges, gs.map Graph.ref⟩ := by simpa using hg.top _ hnew
    dsimp only
    rw [hsub]
    dsimp only
    let c2 : List Cell := (c' ++ [(⟨some title, p.nodes, p.edges, gs.map Graph.ref⟩ : Cell)]).modify r fun x => { x with subs := x.subs ++ [c'.length] }
    have hlen2 : c2.length = c'.length + 1 := by simp [c2]
    have hkeep : ∀ i, i ≠ r → i < c'.length → c2[i]? = c'[i]? := by
      intro i hi hil
      simp only [c2]
      rw [List.getElem?_modify, List.getElem?_append_left hil]
      simp [Ne.symm hi]
    refine ⟨c2, [.mk c'.length title p.nodes p.edges gs], rfl, ⟨by omega, ?_, ?_, ⟨⟨?_, ?_⟩, trivial⟩, ?_, ?_⟩, ?_⟩
    · intro i hi hir
      rw [hkeep i hir (by omega), hg.others i (by omega) (by omega)]
      exact hold i hi
    · intro x hx
      simp only [c2]
      rw [List.getElem?_modify, List.getElem?_append_left (by omega), hg.others r (by omega) (by omega), hold r hr, hx]
      simp [Part.boxed, Graph.ref]
    · simp only [c2]
      rw [List.getElem?_modify]
      have : r ≠ c'.length := by omega
      simp [this]
    · exact storedAll_congr gs (fun i hi => hkeep i (by have := hg.fresh i hi; omega) (hg.fresh i hi).2) hg.stored
    · intro i hi
      simp only [refsAll, refs, List.append_nil, List.mem_cons] at hi
      rcases hi with rfl | hi
      · omega
      · have := hg.fresh i hi; omega
    · simp only [refsAll, refs, List.append_nil, List.nodup_cons]
      exact ⟨fun hi => by have := hg.fresh _ hi; omega, hg.nodup⟩
    · simp [plains, plain, hp, Part.boxed]

theorem records_prim (title : Str) (ins outs : List Obj) : Records (fun m => recordPrim m title ins outs) (seen (.prim title ins outs)) := by
  rintro ⟨c, st, n⟩ r rest hst hr
  dsimp only at hst hr ⊢
  subst hst
  cases outs with
  | nil => exact ⟨c, [], by simp [recordPrim, seen], by simpa [seen, Part.nil] using Grew.refl c r, by simp [seen, Part.nil, plains]⟩
  | cons o os =>
    refine ⟨c.modify r fun x => { x with nodes := x.nodes ++ [⟨o, title, o :: os⟩], edges := x.edges ++ ins.map fun i => (i, o) }, [], by simp [recordPrim, seen, Mem.onTop], ?_, by simp [seen, plains]⟩
    refine ⟨by simp, fun i hi hir => ?_, fun x hx => ?_, trivial, (fun i h => by simp [refsAll] at h), by simp [refsAll]⟩
    · rw [List.getElem?_modify]; simp [Ne.symm hir]
    · rw [List.getElem?_modify, hx]; simp [seen]

theorem records_named {f : Mem → Mem × Option Err} {s : Bool → Part × Bool × Option Err} (h : Records f s) (title : Str) (q : Prop) [Decidable q] :
    Records (fun m => if m.named = true ∧ q then recordCall m title f else f m) fun n => (if n = true ∧ q then (s n).1.boxed title else (s n).1, (s n).2.1, (s n).2.2) := by
  intro m r rest hst hr
  by_cases hq : m.named = true ∧ q
  · obtain ⟨c', gs, hf, hg, hp⟩ := records_call h title m r rest hst hr
    refine ⟨c', gs, ?_, ?_, ?_⟩
    · dsimp only at hf ⊢; rw [if_pos hq]; exact hf
    · dsimp only; rw [if_pos hq]; exact hg
    · dsimp only; rw [if_pos hq]; exact hp
  · obtain ⟨c', gs, hf, hg, hp⟩ := h m r rest hst hr
    refine ⟨c', gs, ?_, ?_, ?_⟩
    · dsimp only at hf ⊢; rw [if_neg hq]; exact hf
    · dsimp only; rw [if_neg hq]; exact hg
    · dsimp only; rw [if_neg hq]; exact hp

theorem records_bind {f g : Mem → Mem × Option Err} {s t : Bool → Part × Bool × Option Err} (hf : Records f s) (hg : Records g t) (k : Option Err → Bool) :
    Records (fun m => match f m with | (m', e) => if k e then g m' else (m', e)) fun n => if k (s n).2.2 then ((s n).1.add (t (s n).2.1).1, (t (s n).2.1).2) else s n := by
  rintro ⟨c, st, n⟩ r rest hst hr
  obtain ⟨c', gs, hf, hg1, hp⟩ := hf _ r rest hst hr
  dsimp only at hst hr hf hg1 hp ⊢
  rw [hf]
  dsimp only
  by_cases hk : k (s n).2.2 = true
  · obtain ⟨c'', gs', hf', hg', hp'⟩ := hg ⟨c', r :: rest, (s n).2.1⟩ r rest rfl (Nat.lt_of_lt_of_le hr hg1.len)
    dsimp only at hf' hg' hp'
    refine ⟨c'', gs ++ gs', ?_, ?_, ?_⟩
    · rw [if_pos hk, if_pos hk, hf']
    · rw [if_pos hk]; exact hg1.trans hr hg'
    · rw [if_pos hk, plains_append, hp, hp']; rfl
  · refine ⟨c', gs, ?_, ?_, ?_⟩
    · rw [if_neg hk, if_neg hk]
    · rw [if_neg hk]; exact hg1
    · rw [if_neg hk]; exact hp

theorem Records.congr {f g : Mem → Mem × Option Err} {s t : Bool → Part × Bool × Option Err} (h : Records f s) (hf : ∀ m, g m = f m) (hs : ∀ n, t n = s n) : Records g t := by
  rwa [show g = f from funext hf, show t = s from funext hs]

theorem records_ret (k : Bool → Bool) (e : Option Err) : Records (fun m => ({ m with named := k m.named }, e)) fun n => (.nil, k n, e) := by
  rintro ⟨c, st, n⟩ r rest hst hr
  dsimp only at hst hr ⊢
  subst hst
  exact ⟨c, [], rfl, Grew.refl c r, rfl⟩

mutual

theorem exec_records : ∀ s : Step, Records (exec s) (seen s)
  | .prim title ins outs => (records_prim title ins outs).congr (fun m => by rw [exec]) fun n => rfl
  | .method module method body => by
    refine (records_method (records_named (execAll_records body) (callTitle "named_call".toList module) (method = "__call__".toList)) (methodTitle module method)).congr (fun m => by rw [exec]) fun n => ?_
    rw [seen]
    rcases seenAll body n with ⟨p, n', _ | e⟩
    · rfl
    · rfl
  | .call primitive fn body => (records_call (execAll_records body) (callTitle primitive fn)).congr (fun m => by rw [exec]) fun n => by rw [seen]; rfl
  | .custom body => (execAll_records body).congr (fun m => by rw [exec]) fun n => by rw [seen]
  | .attempt body handler => by
    refine (records_bind (execAll_records body) (execAll_records handler) Option.isSome).congr (fun m => ?_) fun n => ?_
    · rw [exec]
      rcases execAll body m with ⟨m', _ | e⟩ <;> rfl
    · rw [seen]
      rcases seenAll body n with ⟨p, n', _ | e⟩ <;> rfl
  | .raise e => (records_ret (fun n => n) (some e)).congr (fun m => by rw [exec]) fun n => by rw [seen]
  | .scopes b => (records_ret (fun _ => b) none).congr (fun m => by rw [exec]) fun n => by rw [seen]

theorem execAll_records : ∀ ss : List Step, Records (execAll ss) (seenAll ss)
  | [] => (records_ret (fun n => n) none).congr (fun m => by rw [execAll]) fun n => by rw [seenAll]
  | s :: ss => by
    refine (records_bind (exec_records s) (execAll_records ss) Option.isNone).congr (fun m => ?_) fun n => ?_
    · rw [execAll]
      rcases exec s m with ⟨m', _ | e⟩ <;> rfl
    · rw [seenAll]
      rcases seen s n with ⟨p, n', _ | e⟩ <;> rfl

end

/-! ### Claims about recording -/

mutual

theorem stored_unique {c : List Cell} : ∀ {g g' : Graph}, Stored c g → Stored c g' → g.ref = g'.ref → g = g'
  | .mk r t ns es gs, .mk r' t' ns' es' gs', h, h', he => by
    simp only [Graph.ref] at he
    subst he
    have hc := h.1.symm.trans h'.1
    simp only [Option.some.injEq, Cell.mk.injEq] at hc
    obtain ⟨rfl, rfl, rfl, hm⟩ := hc
    rw [storedAll_unique h.2 h'.2 hm]

theorem storedAll_unique {c : List Cell} : ∀ {gs gs' : List Graph}, StoredAll c gs → StoredAll c gs' → gs.map Graph.ref = gs'.map Graph.ref → gs = gs'
  | [], [], _, _, _ => rfl
  | [], _ :: _, _, _, h => by simp at h
  | _ :: _, [], _, _, h => by simp at h
  | g :: gs, g' :: gs', h, h', he => by
    simp only [List.map_cons, List.cons.injEq] at he
    rw [stored_unique h.1 h'.1 he.1, storedAll_unique h.2 h'.2 he.2]

end

/-- C130: recording gives exactly one graph, that of what the function did, with a cluster for each call of a method that returned and each call of a compiled function; if the function raises, so does recording.  No two clusters are the
same object, and no graph made before changes. -/
theorem to_graph_records (m : Mem) (name : Str) (body : List Step) :
    (∀ i < m.cells.length, (toGraph m name body).1.cells[i]? = m.cells[i]?) ∧
    match seenAll body m.named with
    | (_, _, some e) => (toGraph m name body).2 = .error e
    | (p, _, none) => ∃ r, (toGraph m name body).2 = .ok r ∧
        ∃ g, (Stored (toGraph m name body).1.cells g ∧ g.ref = r ∧ plain g = .mk name p.nodes p.edges p.subs ∧ (refs g).Nodup) ∧ ∀ g', Stored (toGraph m name body).1.cells g' → g'.ref = r → g' = g := by
  obtain ⟨c, st, n⟩ := m
  obtain ⟨c', gs, hf, hg, hp⟩ := execAll_records body ⟨c ++ [⟨some name, [], [], []⟩], c.length :: st, n⟩ c.length st rfl (by simp)
  dsimp only at hf hg hp ⊢
  have hw : toGraph ⟨c, st, n⟩ name body = (⟨c', st, (seenAll body n).2.1⟩, match (seenAll body n).2.2 with | none => .ok c.length | some e => .error e) := by
    unfold toGraph
    dsimp only
    rw [show (Mem.create ⟨c, st, n⟩ (some name)).within c.length (execAll body) = _ from within_of (m := ⟨c ++ [⟨some name, [], [], []⟩], st, n⟩) hf rfl]
    rfl
  have htop : c'[c.length]? = some ⟨some name, (seenAll body n).1.nodes, (seenAll body n).1.edges, gs.map Graph.ref⟩ := by simpa using hg.top ⟨some name, [], [], []⟩ (by simp)
  rw [hw]
  refine ⟨fun i hi => ?_, ?_⟩
  · rw [hg.others i (by simp; omega) (by omega), List.getElem?_append_left hi]
  · rcases hs : seenAll body n with ⟨p, n', _ | e⟩
    · rw [hs] at hp htop
      have hst : Stored c' (.mk c.length name p.nodes p.edges gs) := ⟨htop, hg.stored⟩
      refine ⟨c.length, rfl, .mk c.length name p.nodes p.edges gs, ⟨hst, rfl, ?_, ?_⟩, fun g' h hr => stored_unique h hst hr⟩
      · rw [plain, hp]
      · rw [refs, List.nodup_cons]
        exact ⟨fun hi => by have := (hg.fresh _ hi).1; simp at this; omega, hg.nodup⟩
    · rfl

/-- C131: recording leaves the stack of graphs as it was, whether the function returns or raises, and `to_dot` also the setting of named calls, whatever the function sets. -/
theorem to_dot_restores (m : Mem) (name : Str) (body : List Step) :
    (toGraph m name body).1.stack = m.stack ∧ (toDotGraph m name body).1.stack = m.stack ∧ (toDotGraph m name body).1.named = m.named := by
  have key : ∀ m : Mem, (toGraph m name body).1.stack = m.stack := by
    rintro ⟨c, st, n⟩
    obtain ⟨c', gs, hf, -, -⟩ := execAll_records body ⟨c ++ [⟨some name, [], [], []⟩], c.length :: st, n⟩ c.length st rfl (by simp)
    unfold toGraph
    dsimp only
    rw [show (Mem.create ⟨c, st, n⟩ (some name)).within c.length (execAll body) = _ from within_of (m := ⟨c ++ [⟨some name, [], [], []⟩], st, n⟩) hf rfl]
  exact ⟨key m, key { m with named := false }, rfl⟩

mutual

/-- All nodes of a graph and its clusters. -/
def nodesOf : Drawing → List Node
  | .mk _ ns _ ds => ns ++ nodesOfAll ds

/-- All nodes of graphs and their clusters. -/
def nodesOfAll : List Drawing → List Node
  | [] => []
  | d :: ds => nodesOf d ++ nodesOfAll ds

end

mutual

/-- All titles of the clusters of a graph. -/
def titlesOf : Drawing → List Str
  | .mk t _ _ ds => t :: titlesOfAll ds

/-- All titles of graphs and their clusters. -/
def titlesOfAll : List Drawing → List Str
  | [] => []
  | d :: ds => titlesOf d ++ titlesOfAll ds

end

mutual

/-- The operations of a program in order, if nothing raises. -/
def opsOf : Step → List Node
  | .prim _ _ [] => []
  | .prim title _ (o :: os) => [⟨o, title, o :: os⟩]
  | .method _ _ body => opsOfAll body
  | .call _ _ body => opsOfAll body
  | .custom body => opsOfAll body
  | .attempt body _ => opsOfAll body
  | .raise _ => []
  | .scopes _ => []

/-- The operations of programs in order, if nothing raises. -/
def opsOfAll : List Step → List Node
  | [] => []
  | s :: ss => opsOf s ++ opsOfAll ss

end

mutual

/-- The program raises nothing, not even inside. -/
def Calm : Step → Prop
  | .prim _ _ outs => outs ≠ []
  | .method _ _ body => CalmAll body
  | .call _ _ body => CalmAll body
  | .custom body => CalmAll body
  | .attempt body _ => CalmAll body
  | .raise _ => False
  | .scopes _ => True

/-- The programs raise nothing, not even inside. -/
def CalmAll : List Step → Prop
  | [] => True
  | s :: ss => Calm s ∧ CalmAll ss

end

theorem nodesOfAll_append : ∀ a b : List Drawing, nodesOfAll (a ++ b) = nodesOfAll a ++ nodesOfAll b
  | [], _ => rfl
  | d :: ds, b => by simp [nodesOfAll, nodesOfAll_append ds b]

/-- All nodes of a piece. -/
def Part.all (p : Part) : List Node := p.nodes ++ nodesOfAll p.subs

theorem all_add (p q : Part) : ((p.add q).all).Perm (p.all ++ q.all) := by
  simp only [Part.all, Part.add, nodesOfAll_append, List.append_assoc]
  refine List.Perm.append_left _ ?_
  rw [← List.append_assoc, ← List.append_assoc]
  exact List.Perm.append_right _ List.perm_append_comm

theorem all_boxed (t : Str) (p : Part) : (p.boxed t).all = p.all := by simp [Part.all, Part.boxed, nodesOfAll, nodesOf]

mutual

theorem seen_calm : ∀ (s : Step) (n : Bool), Calm s → (seen s n).2.2 = none ∧ ((seen s n).1.all).Perm (opsOf s)
  | .prim t ins [], n, h => absurd rfl h
  | .prim t ins (o :: os), n, _ => by simp [seen, opsOf, Part.all, nodesOfAll]
  | .method md me body, n, h => by
    have ih := seenAll_calm body n h
    rw [seen, opsOf]
    rcases hs : seenAll body n with ⟨p, n', _ | e⟩
    · rw [hs] at ih
      refine ⟨rfl, ?_⟩
      dsimp only
      rw [all_boxed]
      split
      · rw [all_boxed]; exact ih.2
      · exact ih.2
    · rw [hs] at ih; cases ih.1
  | .call a b body, n, h => by
    have ih := seenAll_calm body n h
    rw [seen, opsOf]
    rcases hs : seenAll body n with ⟨p, n', e⟩
    rw [hs] at ih
    exact ⟨ih.1, by dsimp only; rw [all_boxed]; exact ih.2⟩
  | .custom body, n, h => by rw [seen, opsOf]; exact seenAll_calm body n h
  | .attempt body handler, n, h => by
    have ih := seenAll_calm body n h
    rw [seen, opsOf]
    rcases hs : seenAll body n with ⟨p, n', _ | e⟩
    · rw [hs] at ih; exact ih
    · rw [hs] at ih; cases ih.1
  | .raise e, n, h => h.elim
  | .scopes b, n, _ => by simp [seen, opsOf, Part.all, Part.nil, nodesOfAll]

theorem seenAll_calm : ∀ (ss : List Step) (n : Bool), CalmAll ss → (seenAll ss n).2.2 = none ∧ ((seenAll ss n).1.all).Perm (opsOfAll ss)
  | [], n, _ => by simp [seenAll, opsOfAll, Part.all, Part.nil, nodesOfAll]
  | s :: ss, n, h => by
    have ih := seen_calm s n h.1
    rw [seenAll, opsOfAll]
    rcases hs : seen s n with ⟨p, n', _ | e⟩
    · rw [hs] at ih
      have ih' := seenAll_calm ss n' h.2
      exact ⟨ih'.1, (all_add _ _).trans (List.Perm.append ih.2 ih'.2)⟩
    · rw [hs] at ih; cases ih.1

end

/-- C130: if nothing raises, the graph and its clusters have exactly the operations of the function, each once. -/
theorem every_operation (m : Mem) (name : Str) (body : List Step) (h : CalmAll body) :
    ∃ r g, (toGraph m name body).2 = .ok r ∧ Stored (toGraph m name body).1.cells g ∧ g.ref = r ∧ (nodesOf (plain g)).Perm (opsOfAll body) := by
  have hc := seenAll_calm body m.named h
  have hr := (to_graph_records m name body).2
  rcases hs : seenAll body m.named with ⟨p, n', _ | e⟩
  · rw [hs] at hc hr
    obtain ⟨r, hr, g, ⟨h1, h2, h3, -⟩, -⟩ := hr
    refine ⟨r, g, hr, h1, h2, ?_⟩
    rw [h3]
    exact hc.2
  · rw [hs] at hc; cases hc.1

mutual

/-- The titles of the calls of methods and of compiled functions in a program, outer calls before inner ones, if nothing raises. -/
def callsOf : Step → List Str
  | .prim _ _ _ => []
  | .method module method body => (if method = "__call__".toList then module else module ++ " (".toList ++ method ++ ")".toList) :: callsOfAll body
  | .call primitive fn body => (primitive ++ " (".toList ++ fn ++ ")".toList) :: callsOfAll body
  | .custom body => callsOfAll body
  | .attempt body _ => callsOfAll body
  | .raise _ => []
  | .scopes _ => []

/-- The titles of the calls in programs, if nothing raises. -/
def callsOfAll : List Step → List Str
  | [] => []
  | s :: ss => callsOf s ++ callsOfAll ss

end

mutual

/-- The program does not set named calls. -/
def Unset : Step → Prop
  | .prim _ _ _ => True
  | .method _ _ body => UnsetAll body
  | .call _ _ body => UnsetAll body
  | .custom body => UnsetAll body
  | .attempt body handler => UnsetAll body ∧ UnsetAll handler
  | .raise _ => True
  | .scopes _ => False

/-- The programs do not set named calls. -/
def UnsetAll : List Step → Prop
  | [] => True
  | s :: ss => Unset s ∧ UnsetAll ss

end

theorem titlesOfAll_append : ∀ a b : List Drawing, titlesOfAll (a ++ b) = titlesOfAll a ++ titlesOfAll b
  | [], _ => rfl
  | d :: ds, b => by simp [titlesOfAll, titlesOfAll_append ds b]

theorem titles_boxed (t : Str) (p : Part) : titlesOfAll (p.boxed t).subs = t :: titlesOfAll p.subs := by simp [Part.boxed, titlesOfAll, titlesOf]

mutual

theorem seen_titles : ∀ (s : Step), Calm s → Unset s → (seen s false).2.1 = false ∧ titlesOfAll (seen s false).1.subs = callsOf s
  | .prim t ins [], h, _ => absurd rfl h
  | .prim t ins (o :: os), _, _ => ⟨rfl, rfl⟩
  | .method md me body, h, hu => by
    have hc := seenAll_calm body false h
    have ih := seenAll_titles body h hu
    rw [seen, callsOf]
    rcases hs : seenAll body false with ⟨p, n', _ | e⟩
    · rw [hs] at ih
      refine ⟨ih.1, ?_⟩
      dsimp only
      rw [titles_boxed, if_neg (fun h : false = true ∧ _ => Bool.false_ne_true h.1), ih.2]
    · rw [hs] at hc; cases hc.1
  | .call a b body, h, hu => by
    have ih := seenAll_titles body h hu
    rw [seen, callsOf]
    rcases hs : seenAll body false with ⟨p, n', e⟩
    rw [hs] at ih
    refine ⟨ih.1, ?_⟩
    dsimp only
    rw [titles_boxed, ih.2]
  | .custom body, h, hu => by rw [seen, callsOf]; exact seenAll_titles body h hu
  | .attempt body handler, h, hu => by
    have hc := seenAll_calm body false h
    have ih := seenAll_titles body h hu.1
    rw [seen, callsOf]
    rcases hs : seenAll body false with ⟨p, n', _ | e⟩
    · rw [hs] at ih; exact ih
    · rw [hs] at hc; cases hc.1
  | .raise e, h, _ => h.elim
  | .scopes b, _, h => h.elim

theorem seenAll_titles : ∀ (ss : List Step), CalmAll ss → UnsetAll ss → (seenAll ss false).2.1 = false ∧ titlesOfAll (seenAll ss false).1.subs = callsOfAll ss
  | [], _, _ => ⟨rfl, rfl⟩
  | s :: ss, h, hu => by
    have hc := seen_calm s false h.1
    have ih := seen_titles s h.1 hu.1
    have ih' := seenAll_titles ss h.2 hu.2
    rw [seenAll, callsOfAll]
    rcases hs : seen s false with ⟨p, n', _ | e⟩
    · rw [hs] at ih
      obtain ⟨rfl, ih⟩ := ih
      refine ⟨ih'.1, ?_⟩
      simp only [Part.add, titlesOfAll_append]
      rw [ih, ih'.2]
    · rw [hs] at hc; cases hc.1

end

/-- C131: whether named calls are on or not, the clusters that `to_dot` draws are exactly the calls of methods and compiled functions that the function makes, in order. -/
theorem to_dot_titles (m : Mem) (name : Str) (body : List Step) (h : CalmAll body) (hu : UnsetAll body) :
    ∃ r g, (toDotGraph m name body).2 = .ok r ∧ Stored (toDotGraph m name body).1.cells g ∧ g.ref = r ∧ titlesOf (plain g) = name :: callsOfAll body := by
  have hc := seenAll_calm body false h
  have ht := seenAll_titles body h hu
  have hr := (to_graph_records { m with named := false } name body).2
  dsimp only at hr
  rcases hs : seenAll body false with ⟨p, n', _ | e⟩
  · rw [hs] at ht hr
    obtain ⟨r, hr, g, ⟨h1, h2, h3, -⟩, -⟩ := hr
    refine ⟨r, g, hr, h1, h2, ?_⟩
    rw [h3, titlesOf]
    exact congrArg _ ht.2
  · rw [hs] at hc; cases hc.1

/-! ### A concrete case -/

/-- An array of floats. -/
def arr (ref : Nat) (shape : List Nat) : Obj := ⟨ref, some (shape, "float32".toList), [], none⟩

/-- A network: a call of a linear module inside a module, a compiled `relu`, and a method that raises and is caught. -/
def program : List Step :=
  [.method "mlp".toList "__call__".toList
    [.method "mlp/~/linear_0".toList "__call__".toList [.prim "dot_general".toList [arr 1 [2, 3], arr 2 [3, 4]] [arr 3 [2, 4]]],
     .call "xla_call".toList "relu".toList [.custom [.prim "max".toList [arr 3 [2, 4], arr 4 []] [arr 5 [2, 4]]]]],
   .attempt [.method "mlp".toList "check".toList [.prim "sum".toList [arr 5 [2, 4]] [arr 6 []], .raise .value]] [.prim "neg".toList [arr 5 [2, 4]] [arr 7 [2, 4]]],
   .method "mlp".toList "scale".toList [.prim "mul".toList [arr 7 [2, 4], arr 7 [2, 4]] [arr 8 [2, 4]]]]

-- what is recorded: the graph with its clusters, without what happened in the method that raised
example : seenAll program false =
    (⟨[⟨arr 7 [2, 4], "neg".toList, [arr 7 [2, 4]]⟩], [(arr 5 [2, 4], arr 7 [2, 4])],
      [.mk "mlp".toList [] []
        [.mk "mlp/~/linear_0".toList [⟨arr 3 [2, 4], "dot_general".toList, [arr 3 [2, 4]]⟩] [(arr 1 [2, 3], arr 3 [2, 4]), (arr 2 [3, 4], arr 3 [2, 4])] [],
         .mk "xla_call (relu)".toList [⟨arr 5 [2, 4], "max".toList, [arr 5 [2, 4]]⟩] [(arr 3 [2, 4], arr 5 [2, 4]), (arr 4 [], arr 5 [2, 4])] []],
       .mk "mlp (scale)".toList [⟨arr 8 [2, 4], "mul".toList, [arr 8 [2, 4]]⟩] [(arr 7 [2, 4], arr 8 [2, 4]), (arr 7 [2, 4], arr 8 [2, 4])] []]⟩, false, none) := by rfl

-- with named calls on, recording shows one more cluster, which `to_dot` avoids
example : titlesOfAll (seenAll [.method "mlp".toList "__call__".toList []] true).1.subs = ["mlp".toList, "named_call (mlp)".toList] := by rfl

-- a program that raises nothing and does not set named calls meets the hypotheses of `every_operation` and `to_dot_titles`
example : CalmAll [.method "mlp".toList "__call__".toList [.prim "add".toList [arr 1 [], arr 2 []] [arr 3 []]]] ∧ UnsetAll [.method "mlp".toList "__call__".toList [.prim "add".toList [arr 1 [], arr 2 []] [arr 3 []]]] := by simp [CalmAll, Calm, UnsetAll, Unset]

end Verif.Props.Dot
