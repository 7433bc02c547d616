import Verif.Props.DotDraw

/-!
# The edges of a drawing and what they join
-/

namespace Verif.Props.Dot
open Verif Verif.Shapes Verif.Dot

/-! ### Edges -/

/-- The edge of a line: where it starts, which copy of it, where it ends. -/
def asEdge : Line → Option (Nat × Option Nat × Nat)
  | .edge a use b => some (a, use, b)
  | _ => none

theorem edgeLines_append (args : List Nat) : ∀ (es es' before : List (Obj × Obj)), edgeLines args before (es ++ es') = edgeLines args before es ++ edgeLines args (before ++ es) es'
  | [], _, before => by simp [edgeLines]
  | e :: es, es', before => by simp [edgeLines, edgeLines_append args es es']

theorem asEdge_nodes (nm : Names) : ∀ ns : List Node, (ns.map (nodeLine nm)).filterMap asEdge = []
  | [] => rfl
  | n :: ns => by rw [List.map_cons, List.filterMap_cons_none (by rfl)]; exact asEdge_nodes nm ns

mutual

theorem sketch_edges (nm : Names) : ∀ (g : Graph) (inner : Bool) (depth : Int) (before : List (Obj × Obj)), (sketch nm g inner depth before).filterMap asEdge = (edgeLines nm.args before (edgesOf g)).filterMap asEdge
  | .mk r t ns es gs, inner, depth, before => by
    have hb : ∀ l : Line, asEdge l = none → (if inner then [l] else []).filterMap asEdge = [] := by
      intro l hl
      cases inner <;> simp [hl]
    rw [sketch, edgesOf, edgeLines_append]
    simp only [List.filterMap_append]
    rw [hb _ rfl, hb _ rfl, asEdge_nodes, sketchAll_edges]
    simp

theorem sketchAll_edges (nm : Names) : ∀ (gs : List Graph) (depth : Int) (before : List (Obj × Obj)), (sketchAll nm gs depth before).filterMap asEdge = (edgeLines nm.args before (edgesOfAll gs)).filterMap asEdge
  | [], _, _ => rfl
  | g :: gs, depth, before => by
    rw [sketchAll, edgesOfAll, edgeLines_append, List.filterMap_append, List.filterMap_append, sketch_edges, sketchAll_edges]

end

theorem draw_edges {g : Graph} {ends : Ends} {d : Draw} (h : draw g ends = .ok d) : d.lines.filterMap asEdge = (edgeLines (addresses ends.args) [] (edgesOf g)).filterMap asEdge := by
  obtain ⟨outname, -, -, hl⟩ := draw_eq h
  rw [hl, List.filterMap_append, List.filterMap_append, sketch_edges]
  have h1 : (argLines ((edgesOf g).map fun e => e.1.ref) (uses g ends) ends.args).filterMap asEdge = [] := by
    rw [List.filterMap_eq_nil_iff]
    intro l hl
    obtain ⟨path, o, i, -, -, -, rfl⟩ := argLines_mem.mp hl
    rfl
  have h2 : ((captured (addresses ends.args) g []).map Line.capture).filterMap asEdge = [] := by
    rw [List.filterMap_eq_nil_iff]
    intro l hl
    obtain ⟨o, -, rfl⟩ := List.mem_map.mp hl
    rfl
  rw [h1, h2]
  simp

theorem edgeLines_pairs (args : List Nat) : ∀ (es before : List (Obj × Obj)), ((edgeLines args before es).filterMap asEdge).map (fun e => (e.1, e.2.2)) = es.map fun e => (e.1.ref, e.2.ref)
  | [], _ => rfl
  | e :: es, before => by
    rw [edgeLines, List.filterMap_cons_some (by rfl), List.map_cons, List.map_cons, edgeLines_pairs args es]

theorem edgeLines_uses (args : List Nat) (a : Nat) : ∀ (es before : List (Obj × Obj)),
    (((edgeLines args before es).filterMap asEdge).filter fun e => decide (e.1 = a)).map (fun e => e.2.1) =
      if a ∈ args then (List.range' ((before.map fun e => e.1.ref).count a) ((es.map fun e => e.1.ref).count a)).map some else List.replicate ((es.map fun e => e.1.ref).count a) none
  | [], before => by
    split <;> simp [edgeLines]
  | e :: es, before => by
    rw [edgeLines, List.filterMap_cons_some (by rfl)]
    have ih := edgeLines_uses args a es (before ++ [e])
    by_cases hea : e.1.ref = a
    · subst hea
      rw [List.filter_cons_of_pos (by simp), List.map_cons, ih]
      by_cases ha : e.1.ref ∈ args
      · rw [if_pos ha, if_pos ha, if_pos ha]
        simp [List.range'_succ]
      · rw [if_neg ha, if_neg ha, if_neg ha]
        simp [List.replicate_succ]
    · rw [List.filter_cons_of_neg (by simpa using hea), ih]
      have hc : ((before ++ [e]).map fun e => e.1.ref).count a = (before.map fun e => e.1.ref).count a := by simp [hea]
      have hc' : ((e :: es).map fun e => e.1.ref).count a = (es.map fun e => e.1.ref).count a := by simp [hea]
      rw [hc, hc']

/-- C133: the edges drawn are exactly the edges of the graph and its clusters, those of clusters first. -/
theorem edges_drawn {g : Graph} {ends : Ends} {d : Draw} (h : draw g ends = .ok d) : (d.lines.filterMap asEdge).map (fun e => (e.1, e.2.2)) = (edgesOf g).map fun e => (e.1.ref, e.2.ref) := by
  rw [draw_edges h, edgeLines_pairs]

/-- C133: the edges from an argument start at its copies 0, 1, 2, …, one at each; edges from other values start at the value itself. -/
theorem edge_copies {g : Graph} {ends : Ends} {d : Draw} (h : draw g ends = .ok d) (a : Nat) :
    ((d.lines.filterMap asEdge).filter fun e => decide (e.1 = a)).map (fun e => e.2.1) =
      if a ∈ addresses ends.args then (List.range (((edgesOf g).map fun e => e.1.ref).count a)).map some else List.replicate (((edgesOf g).map fun e => e.1.ref).count a) none := by
  rw [draw_edges h, edgeLines_uses]
  simp [List.range_eq_range']

mutual

/-- All edges of a graph without addresses, those of its clusters first. -/
def joinsOf : Drawing → List (Obj × Obj)
  | .mk _ _ es ds => joinsOfAll ds ++ es

/-- All edges of graphs without addresses. -/
def joinsOfAll : List Drawing → List (Obj × Obj)
  | [] => []
  | d :: ds => joinsOf d ++ joinsOfAll ds

end

mutual

theorem edgesOf_plain : ∀ g : Graph, edgesOf g = joinsOf (plain g)
  | .mk _ _ _ es gs => by rw [edgesOf, plain, joinsOf, edgesOfAll_plain gs]

theorem edgesOfAll_plain : ∀ gs : List Graph, edgesOfAll gs = joinsOfAll (plains gs)
  | [] => rfl
  | g :: gs => by rw [edgesOfAll, plains, joinsOfAll, edgesOf_plain g, edgesOfAll_plain gs]

end

mutual

/-- The operands of the operations of a program, each with the first value the operation returns, if nothing raises. -/
def operandsOf : Step → List (Obj × Obj)
  | .prim _ _ [] => []
  | .prim _ inputs (o :: _) => inputs.map fun i => (i, o)
  | .method _ _ body => operandsOfAll body
  | .call _ _ body => operandsOfAll body
  | .custom body => operandsOfAll body
  | .attempt body _ => operandsOfAll body
  | .raise _ => []
  | .scopes _ => []

/-- The operands of the operations of programs, if nothing raises. -/
def operandsOfAll : List Step → List (Obj × Obj)
  | [] => []
  | s :: ss => operandsOf s ++ operandsOfAll ss

end

theorem joinsOfAll_append : ∀ a b : List Drawing, joinsOfAll (a ++ b) = joinsOfAll a ++ joinsOfAll b
  | [], _ => rfl
  | d :: ds, b => by simp [joinsOfAll, joinsOfAll_append ds b]

/-- All edges of a piece. -/
def Part.joins (p : Part) : List (Obj × Obj) := joinsOfAll p.subs ++ p.edges

theorem joins_add (p q : Part) : ((p.add q).joins).Perm (p.joins ++ q.joins) := by
  simp only [Part.joins, Part.add, joinsOfAll_append, List.append_assoc]
  refine List.Perm.append_left _ ?_
  rw [← List.append_assoc, ← List.append_assoc]
  exact List.Perm.append_right _ List.perm_append_comm

theorem joins_boxed (t : Str) (p : Part) : (p.boxed t).joins = p.joins := by simp [Part.joins, Part.boxed, joinsOfAll, joinsOf]

mutual

theorem seen_operands : ∀ (s : Step) (n : Bool), Calm s → ((seen s n).1.joins).Perm (operandsOf s)
  | .prim t ins [], n, h => absurd rfl h
  | .prim t ins (o :: os), n, _ => by simp [seen, operandsOf, Part.joins, joinsOfAll]
  | .method md me body, n, h => by
    have hc := seenAll_calm body n h
    have ih := seenAll_operands body n h
    rw [seen, operandsOf]
    rcases hs : seenAll body n with ⟨p, n', _ | e⟩
    · rw [hs] at ih
      dsimp only
      rw [joins_boxed]
      split
      · rw [joins_boxed]; exact ih
      · exact ih
    · rw [hs] at hc; cases hc.1
  | .call a b body, n, h => by
    have ih := seenAll_operands body n h
    rw [seen, operandsOf]
    rcases hs : seenAll body n with ⟨p, n', e⟩
    rw [hs] at ih
    dsimp only
    rw [joins_boxed]
    exact ih
  | .custom body, n, h => by rw [seen, operandsOf]; exact seenAll_operands body n h
  | .attempt body handler, n, h => by
    have hc := seenAll_calm body n h
    have ih := seenAll_operands body n h
    rw [seen, operandsOf]
    rcases hs : seenAll body n with ⟨p, n', _ | e⟩
    · rw [hs] at ih; exact ih
    · rw [hs] at hc; cases hc.1
  | .raise e, n, h => h.elim
  | .scopes b, n, _ => by simp [seen, operandsOf, Part.joins, Part.nil, joinsOfAll]

theorem seenAll_operands : ∀ (ss : List Step) (n : Bool), CalmAll ss → ((seenAll ss n).1.joins).Perm (operandsOfAll ss)
  | [], n, _ => by simp [seenAll, operandsOfAll, Part.joins, Part.nil, joinsOfAll]
  | s :: ss, n, h => by
    have hc := seen_calm s n h.1
    have ih := seen_operands s n h.1
    rw [seenAll, operandsOfAll]
    rcases hs : seen s n with ⟨p, n', _ | e⟩
    · rw [hs] at ih
      exact (joins_add _ _).trans (List.Perm.append ih (seenAll_operands ss n' h.2))
    · rw [hs] at hc; cases hc.1

end

/-- C133: if nothing raises, the edges of the graph and its clusters are exactly the operands of the operations of the function, each joined to its operation, as often as it is an operand. -/
theorem every_operand (m : Mem) (name : Str) (body : List Step) (h : CalmAll body) :
    ∃ r g, (toGraph m name body).2 = .ok r ∧ Stored (toGraph m name body).1.cells g ∧ g.ref = r ∧ (edgesOf g).Perm (operandsOfAll body) := by
  have hc := seenAll_calm body m.named h
  have ho := seenAll_operands body m.named h
  have hr := (to_graph_records m name body).2
  rcases hs : seenAll body m.named with ⟨p, n', _ | e⟩
  · rw [hs] at ho hr
    obtain ⟨r, hr, g, ⟨h1, h2, h3, -⟩, -⟩ := hr
    refine ⟨r, g, hr, h1, h2, ?_⟩
    rw [edgesOf_plain, h3]
    exact ho
  · rw [hs] at hc; cases hc.1

/-! ### What edges join -/

/-- What a line declares: a value, or a copy of an argument. -/
def declares : Line → Option (Nat × Option Nat)
  | .node n _ => some (n.id.ref, none)
  | .arg o i _ => some (o.ref, some i)
  | .capture o => some (o.ref, none)
  | _ => none

mutual

/-- All nodes of a graph: its own first, then those of its clusters. -/
def nodesIn : Graph → List Node
  | .mk _ _ ns _ gs => ns ++ nodesInAll gs

/-- All nodes of graphs. -/
def nodesInAll : List Graph → List Node
  | [] => []
  | g :: gs => nodesIn g ++ nodesInAll gs

end

theorem declares_nodes (nm : Names) : ∀ ns : List Node, (ns.map (nodeLine nm)).filterMap declares = ns.map fun n => (n.id.ref, none)
  | [] => rfl
  | n :: ns => by rw [List.map_cons, List.filterMap_cons_some (by rfl), List.map_cons, declares_nodes nm ns]

theorem declares_edges (args : List Nat) : ∀ es before : List (Obj × Obj), (edgeLines args before es).filterMap declares = []
  | [], _ => rfl
  | e :: es, before => by rw [edgeLines, List.filterMap_cons_none (by rfl)]; exact declares_edges args es _

mutual

theorem sketch_declares (nm : Names) : ∀ (g : Graph) (inner : Bool) (depth : Int) (before : List (Obj × Obj)), (sketch nm g inner depth before).filterMap declares = (nodesIn g).map fun n => (n.id.ref, none)
  | .mk r t ns es gs, inner, depth, before => by
    have hb : ∀ l : Line, declares l = none → (if inner then [l] else []).filterMap declares = [] := by
      intro l hl
      cases inner <;> simp [hl]
    rw [sketch, nodesIn]
    simp only [List.filterMap_append, List.map_append]
    rw [hb _ rfl, hb _ rfl, declares_nodes, sketchAll_declares, declares_edges]
    simp

theorem sketchAll_declares (nm : Names) : ∀ (gs : List Graph) (depth : Int) (before : List (Obj × Obj)), (sketchAll nm gs depth before).filterMap declares = (nodesInAll gs).map fun n => (n.id.ref, none)
  | [], _, _ => rfl
  | g :: gs, depth, before => by rw [sketchAll, nodesInAll, List.filterMap_append, List.map_append, sketch_declares, sketchAll_declares]

end

theorem draw_declares {g : Graph} {ends : Ends} {d : Draw} (h : draw g ends = .ok d) :
    d.lines.filterMap declares = (nodesIn g).map (fun n => (n.id.ref, none)) ++
      ((argLines ((edgesOf g).map fun e => e.1.ref) (uses g ends) ends.args).filterMap declares ++ (captured (addresses ends.args) g []).map fun o => (o.ref, none)) := by
  obtain ⟨outname, -, -, hl⟩ := draw_eq h
  rw [hl, List.filterMap_append, List.filterMap_append, sketch_declares]
  congr 2
  generalize captured (addresses ends.args) g [] = os
  induction os with
  | nil => rfl
  | cons o os ih => rw [List.map_cons, List.filterMap_cons_some (by rfl), List.map_cons, ih]

mutual

/-- No operand of an operation in a cluster is a value that is only made in a later cluster beside it. -/
def Timely : Graph → Prop
  | .mk _ _ _ _ gs => TimelyAll gs

/-- No operand of an operation in one of the graphs is a value that is only made in a later one. -/
def TimelyAll : List Graph → Prop
  | [] => True
  | g :: gs => Timely g ∧ TimelyAll gs ∧ ∀ e ∈ edgesOf g, ∀ o ∈ outsOfAll gs, o.ref ≠ e.1.ref

end

theorem lacking_congr {args made made' : List Nat} {es : List (Obj × Obj)} (h : ∀ e ∈ es, e.1.ref ∈ made' ↔ e.1.ref ∈ made) : lacking args made' es = lacking args made es := by
  unfold lacking
  congr 1
  exact List.filter_congr fun e he => decide_eq_decide.mpr (by rw [h e he])

theorem lacking_append (args made : List Nat) (a b : List (Obj × Obj)) : lacking args made (a ++ b) = lacking args made a ++ lacking args made b := by simp [lacking]

mutual

theorem captured_eq (args : List Nat) : ∀ (g : Graph) (made all : List Nat), Timely g → (∀ i ∈ made, i ∈ all) → (∀ o ∈ outsOf g, o.ref ∈ all) →
    (∀ e ∈ edgesOf g, e.1.ref ∈ all → e.1.ref ∈ made ∨ ∃ o ∈ outsOf g, o.ref = e.1.ref) → captured args g made = lacking args all (edgesOf g)
  | .mk r t ns es gs, made, all, ht, hm, ho, he => by
    rw [captured, edgesOf, lacking_append]
    congr 1
    · refine capturedAll_eq args gs _ all ht (fun i hi => ?_) (fun o h => ho o (by simp [outsOf, h])) fun e hee ha => ?_
      · rcases List.mem_append.mp hi with hi | hi
        · exact hm i hi
        · obtain ⟨o, h, rfl⟩ := List.mem_map.mp hi
          exact ho o (by rw [outsOf]; exact List.mem_append_left _ h)
      · rcases he e (by simp [edgesOf, hee]) ha with h | ⟨o, h, hr⟩
        · exact .inl (List.mem_append_left _ h)
        · rw [outsOf, List.mem_append] at h
          rcases h with h | h
          · exact .inl (List.mem_append_right _ (List.mem_map.mpr ⟨o, h, hr⟩))
          · exact .inr ⟨o, h, hr⟩
    · refine lacking_congr fun e hee => ⟨fun h => ?_, fun h => ?_⟩
      · rcases List.mem_append.mp h with h | h
        · exact hm _ h
        · obtain ⟨o, h, hr⟩ := List.mem_map.mp h
          rw [← hr]
          exact ho o (by rw [outsOf]; exact h)
      · rcases he e (by simp [edgesOf, hee]) h with h | ⟨o, h, hr⟩
        · exact List.mem_append_left _ h
        · exact List.mem_append_right _ (List.mem_map.mpr ⟨o, by rw [outsOf] at h; exact h, hr⟩)

theorem capturedAll_eq (args : List Nat) : ∀ (gs : List Graph) (made all : List Nat), TimelyAll gs → (∀ i ∈ made, i ∈ all) → (∀ o ∈ outsOfAll gs, o.ref ∈ all) →
    (∀ e ∈ edgesOfAll gs, e.1.ref ∈ all → e.1.ref ∈ made ∨ ∃ o ∈ outsOfAll gs, o.ref = e.1.ref) → capturedAll args gs made = lacking args all (edgesOfAll gs)
  | [], _, _, _, _, _, _ => by simp [capturedAll, edgesOfAll, lacking]
  | g :: gs, made, all, ht, hm, ho, he => by
    rw [capturedAll, edgesOfAll, lacking_append]
    congr 1
    · refine captured_eq args g made all ht.1 hm (fun o h => ho o (by simp [outsOfAll, h])) fun e hee ha => ?_
      rcases he e (by simp [edgesOfAll, hee]) ha with h | ⟨o, h, hr⟩
      · exact .inl h
      · rw [outsOfAll, List.mem_append] at h
        rcases h with h | h
        · exact .inr ⟨o, h, hr⟩
        · exact absurd hr (ht.2.2 e hee o h)
    · refine capturedAll_eq args gs _ all ht.2.1 (fun i hi => ?_) (fun o h => ho o (by simp [outsOfAll, h])) fun e hee ha => ?_
      · rcases List.mem_append.mp hi with hi | hi
        · exact hm i hi
        · obtain ⟨o, h, rfl⟩ := List.mem_map.mp hi
          exact ho o (by simp [outsOfAll, h])
      · rcases he e (by simp [edgesOfAll, hee]) ha with h | ⟨o, h, hr⟩
        · exact .inl (List.mem_append_left _ h)
        · rw [outsOfAll, List.mem_append] at h
          rcases h with h | h
          · exact .inl (List.mem_append_right _ (List.mem_map.mpr ⟨o, h, hr⟩))
          · exact .inr ⟨o, h, hr⟩

end

theorem captured_of_timely {g : Graph} (ht : Timely g) (args : List Nat) : captured args g [] = lacking args ((outsOf g).map Obj.ref) (edgesOf g) :=
  captured_eq args g [] _ ht (fun i h => absurd h (by simp)) (fun o h => List.mem_map.mpr ⟨o, h, rfl⟩) fun e _ h => by
    obtain ⟨o, h, hr⟩ := List.mem_map.mp h
    exact .inr ⟨o, h, hr⟩

/-! ### Recorded graphs -/

mutual

/-- The addresses of the operands in a program. -/
def takes : Step → List Nat
  | .prim _ inputs _ => inputs.map Obj.ref
  | .method _ _ body => takesAll body
  | .call _ _ body => takesAll body
  | .custom body => takesAll body
  | .attempt body handler => takesAll body ++ takesAll handler
  | .raise _ => []
  | .scopes _ => []

/-- The addresses of the operands in programs. -/
def takesAll : List Step → List Nat
  | [] => []
  | s :: ss => takes s ++ takesAll ss

end

mutual

/-- The addresses of the values made in a program. -/
def gives : Step → List Nat
  | .prim _ _ outputs => outputs.map Obj.ref
  | .method _ _ body => givesAll body
  | .call _ _ body => givesAll body
  | .custom body => givesAll body
  | .attempt body handler => givesAll body ++ givesAll handler
  | .raise _ => []
  | .scopes _ => []

/-- The addresses of the values made in programs. -/
def givesAll : List Step → List Nat
  | [] => []
  | s :: ss => gives s ++ givesAll ss

end

mutual

/-- Nothing uses a value that is only made later. -/
def Prompt : Step → Prop
  | .prim _ _ _ => True
  | .method _ _ body => PromptAll body
  | .call _ _ body => PromptAll body
  | .custom body => PromptAll body
  | .attempt body handler => PromptAll body ∧ PromptAll handler ∧ ∀ a ∈ takesAll body, a ∉ givesAll handler
  | .raise _ => True
  | .scopes _ => True

/-- No program uses a value that is only made later. -/
def PromptAll : List Step → Prop
  | [] => True
  | s :: ss => Prompt s ∧ PromptAll ss ∧ ∀ a ∈ takes s, a ∉ givesAll ss

end

mutual

/-- All values that operations of a graph without addresses return. -/
def madeIn : Drawing → List Obj
  | .mk _ ns _ ds => (ns.flatMap fun n => n.outputs) ++ madeInAll ds

/-- All values that operations of graphs without addresses return. -/
def madeInAll : List Drawing → List Obj
  | [] => []
  | d :: ds => madeIn d ++ madeInAll ds

end

mutual

/-- As `Timely`, without addresses. -/
def Due : Drawing → Prop
  | .mk _ _ _ ds => DueAll ds

/-- As `TimelyAll`, without addresses. -/
def DueAll : List Drawing → Prop
  | [] => True
  | d :: ds => Due d ∧ DueAll ds ∧ ∀ e ∈ joinsOf d, ∀ o ∈ madeInAll ds, o.ref ≠ e.1.ref

end

mutual

theorem outsOf_plain : ∀ g : Graph, outsOf g = madeIn (plain g)
  | .mk _ _ _ es gs => by rw [outsOf, plain, madeIn, outsOfAll_plain gs]

theorem outsOfAll_plain : ∀ gs : List Graph, outsOfAll gs = madeInAll (plains gs)
  | [] => rfl
  | g :: gs => by rw [outsOfAll, plains, madeInAll, outsOf_plain g, outsOfAll_plain gs]

end

mutual

theorem nodesIn_plain : ∀ g : Graph, nodesIn g = nodesOf (plain g)
  | .mk _ _ _ es gs => by rw [nodesIn, plain, nodesOf, nodesInAll_plain gs]

theorem nodesInAll_plain : ∀ gs : List Graph, nodesInAll gs = nodesOfAll (plains gs)
  | [] => rfl
  | g :: gs => by rw [nodesInAll, plains, nodesOfAll, nodesIn_plain g, nodesInAll_plain gs]

end

mutual

theorem timely_plain : ∀ g : Graph, Due (plain g) → Timely g
  | .mk _ _ _ _ gs, h => timelyAll_plain gs h

theorem timelyAll_plain : ∀ gs : List Graph, DueAll (plains gs) → TimelyAll gs
  | [], _ => trivial
  | g :: gs, h => ⟨timely_plain g h.1, timelyAll_plain gs h.2.1, by rw [edgesOf_plain, outsOfAll_plain]; exact h.2.2⟩

end

theorem madeInAll_append : ∀ a b : List Drawing, madeInAll (a ++ b) = madeInAll a ++ madeInAll b
  | [], _ => rfl
  | d :: ds, b => by simp [madeInAll, madeInAll_append ds b]

theorem dueAll_append : ∀ (a b : List Drawing), DueAll a → DueAll b → (∀ e ∈ joinsOfAll a, ∀ o ∈ madeInAll b, o.ref ≠ e.1.ref) → DueAll (a ++ b)
  | [], _, _, h, _ => h
  | d :: ds, b, h, h', hab => by
    refine ⟨h.1, dueAll_append ds b h.2.1 h' fun e he => hab e (by simp [joinsOfAll, he]), fun e he o ho => ?_⟩
    have ho : o ∈ madeInAll (ds ++ b) := ho
    rw [madeInAll_append, List.mem_append] at ho
    rcases ho with ho | ho
    · exact h.2.2 e he o ho
    · exact hab e (by simp [joinsOfAll, he]) o ho

/-- All values a piece makes. -/
def Part.made (p : Part) : List Obj := (p.nodes.flatMap fun n => n.outputs) ++ madeInAll p.subs

/-- A piece of a recorded graph: its operands and the values it makes are those of the program, no cluster uses values of later ones, every edge ends at a node, and the first value of every node is its own. -/
structure Fine (p : Part) (takes gives : List Nat) : Prop where
  takes : ∀ e ∈ p.joins, e.1.ref ∈ takes
  gives : ∀ o ∈ p.made, o.ref ∈ gives
  due : DueAll p.subs
  ended : ∀ e ∈ p.joins, ∃ n ∈ p.all, n.id = e.2
  first : ∀ n ∈ p.all, n.outputs.head? = some n.id

theorem fine_nil (t g : List Nat) : Fine .nil t g := ⟨(fun e h => by simp [Part.joins, Part.nil, joinsOfAll] at h), (fun e h => by simp [Part.made, Part.nil, madeInAll] at h), trivial,
  (fun e h => by simp [Part.joins, Part.nil, joinsOfAll] at h), (fun e h => by simp [Part.all, Part.nil, nodesOfAll] at h)⟩

theorem made_add (p q : Part) : ∀ o, o ∈ (p.add q).made ↔ o ∈ p.made ∨ o ∈ q.made := by
  intro o
  simp only [Part.made, Part.add, madeInAll_append, List.flatMap_append, List.mem_append]
  constructor
  · rintro ((h | h) | (h | h))
    · exact .inl (.inl h)
    · exact .inr (.inl h)
    · exact .inl (.inr h)
    · exact .inr (.inr h)
  · rintro ((h | h) | (h | h))
    · exact .inl (.inl h)
    · exact .inr (.inl h)
    · exact .inl (.inr h)
    · exact .inr (.inr h)

theorem Fine.add {p q : Part} {t g t' g' : List Nat} (h : Fine p t g) (h' : Fine q t' g') (hd : ∀ a ∈ t, a ∉ g') : Fine (p.add q) (t ++ t') (g ++ g') where
  takes e he := by
    rw [List.mem_append]
    rcases List.mem_append.mp ((joins_add p q).mem_iff.mp he) with he | he
    · exact .inl (h.takes e he)
    · exact .inr (h'.takes e he)
  gives o ho := by
    rw [List.mem_append]
    rcases (made_add p q o).mp ho with ho | ho
    · exact .inl (h.gives o ho)
    · exact .inr (h'.gives o ho)
  due := dueAll_append _ _ h.due h'.due fun e he o ho hr => hd e.1.ref (h.takes e (List.mem_append_left _ he)) (by rw [← hr]; exact h'.gives o (List.mem_append_right _ ho))
  ended e he := by
    rcases List.mem_append.mp ((joins_add p q).mem_iff.mp he) with he | he
    · obtain ⟨n, hn, hr⟩ := h.ended e he
      exact ⟨n, (all_add p q).mem_iff.mpr (List.mem_append_left _ hn), hr⟩
    · obtain ⟨n, hn, hr⟩ := h'.ended e he
      exact ⟨n, (all_add p q).mem_iff.mpr (List.mem_append_right _ hn), hr⟩
  first n hn := by
    rcases List.mem_append.mp ((all_add p q).mem_iff.mp hn) with hn | hn
    · exact h.first n hn
    · exact h'.first n hn

theorem made_boxed (t : Str) (p : Part) : (p.boxed t).made = p.made := by simp [Part.made, Part.boxed, madeInAll, madeIn]

theorem Fine.boxed {p : Part} {t g : List Nat} (h : Fine p t g) (title : Str) : Fine (p.boxed title) t g where
  takes := by rw [joins_boxed]; exact h.takes
  gives := by rw [made_boxed]; exact h.gives
  due := ⟨h.due, trivial, fun e _ o ho => by simp [madeInAll] at ho⟩
  ended := by rw [joins_boxed, all_boxed]; exact h.ended
  first := by rw [all_boxed]; exact h.first

theorem Fine.mono {p : Part} {t g t' g' : List Nat} (h : Fine p t g) (ht : ∀ a ∈ t, a ∈ t') (hg : ∀ a ∈ g, a ∈ g') : Fine p t' g' :=
  ⟨fun e he => ht _ (h.takes e he), fun o ho => hg _ (h.gives o ho), h.due, h.ended, h.first⟩

mutual

theorem seen_fine : ∀ (s : Step) (n : Bool), Prompt s → Fine (seen s n).1 (takes s) (gives s)
  | .prim t ins [], n, _ => by rw [seen]; exact fine_nil _ _
  | .prim t ins (o :: os), n, _ => by
    rw [seen, takes, gives]
    refine ⟨fun e he => ?_, fun x hx => ?_, trivial, fun e he => ?_, fun x hx => ?_⟩
    · simp only [Part.joins, joinsOfAll, List.nil_append] at he
      obtain ⟨i, hi, rfl⟩ := List.mem_map.mp he
      exact List.mem_map.mpr ⟨i, hi, rfl⟩
    · simp only [Part.made, madeInAll, List.append_nil, List.flatMap_cons, List.flatMap_nil] at hx
      exact List.mem_map.mpr ⟨x, hx, rfl⟩
    · simp only [Part.joins, joinsOfAll, List.nil_append] at he
      obtain ⟨i, hi, rfl⟩ := List.mem_map.mp he
      exact ⟨⟨o, t, o :: os⟩, by simp [Part.all], rfl⟩
    · simp only [Part.all, nodesOfAll, List.append_nil, List.mem_singleton] at hx
      subst hx
      rfl
  | .method md me body, n, h => by
    have ih := seenAll_fine body n h
    rw [seen, takes, gives]
    rcases hs : seenAll body n with ⟨p, n', _ | e⟩
    · rw [hs] at ih
      dsimp only
      refine Fine.boxed ?_ _
      split
      · exact ih.boxed _
      · exact ih
    · exact fine_nil _ _
  | .call a b body, n, h => by
    have ih := seenAll_fine body n h
    rw [seen, takes, gives]
    rcases hs : seenAll body n with ⟨p, n', e⟩
    rw [hs] at ih
    exact ih.boxed _
  | .custom body, n, h => by rw [seen, takes, gives]; exact seenAll_fine body n h
  | .attempt body handler, n, h => by
    have ih := seenAll_fine body n h.1
    rw [seen, takes, gives]
    rcases hs : seenAll body n with ⟨p, n', _ | e⟩
    · rw [hs] at ih
      exact ih.mono (fun a ha => List.mem_append_left _ ha) (fun a ha => List.mem_append_left _ ha)
    · rw [hs] at ih
      exact ih.add (seenAll_fine handler n' h.2.1) h.2.2
  | .raise e, n, h => by rw [seen]; exact fine_nil _ _
  | .scopes b, n, _ => by rw [seen]; exact fine_nil _ _

theorem seenAll_fine : ∀ (ss : List Step) (n : Bool), PromptAll ss → Fine (seenAll ss n).1 (takesAll ss) (givesAll ss)
  | [], n, _ => by rw [seenAll]; exact fine_nil _ _
  | s :: ss, n, h => by
    have ih := seen_fine s n h.1
    rw [seenAll, takesAll, givesAll]
    rcases hs : seen s n with ⟨p, n', _ | e⟩
    · rw [hs] at ih
      exact ih.add (seenAll_fine ss n' h.2.1) h.2.2
    · rw [hs] at ih
      exact ih.mono (fun a ha => List.mem_append_left _ ha) (fun a ha => List.mem_append_left _ ha)

end

theorem recorded_fine {m : Mem} {name : Str} {body : List Step} (hp : PromptAll body) {r : Nat} (hr : (toGraph m name body).2 = .ok r) {g : Graph} (hs : Stored (toGraph m name body).1.cells g) (hg : g.ref = r) :
    Timely g ∧ (∀ e ∈ edgesOf g, ∃ n ∈ nodesIn g, n.id = e.2) ∧ ∀ n ∈ nodesIn g, n.outputs.head? = some n.id := by
  have hf := seenAll_fine body m.named hp
  have h := (to_graph_records m name body).2
  rcases hsn : seenAll body m.named with ⟨p, n', _ | e⟩
  · rw [hsn] at hf h
    obtain ⟨r', hr', g', ⟨h1, h2, h3, -⟩, hu⟩ := h
    obtain rfl : r = r' := Except.ok.inj (hr.symm.trans hr')
    obtain rfl := hu g hs hg
    refine ⟨timely_plain _ (by rw [h3]; exact hf.due), ?_, ?_⟩
    · rw [edgesOf_plain, nodesIn_plain, h3]
      exact hf.ended
    · rw [nodesIn_plain, h3]
      exact hf.first
  · rw [hsn] at h
    have h' := hr.symm.trans h
    cases h'

/-! ### Claims about edges -/

theorem mem_addresses {l : List (List Str × Option Obj)} {a : Nat} : a ∈ addresses l ↔ ∃ path o, (path, some o) ∈ l ∧ o.ref = a := by
  unfold addresses leaves
  constructor
  · intro h
    obtain ⟨o, ho, rfl⟩ := List.mem_map.mp h
    obtain ⟨⟨path, x⟩, hm, hx⟩ := List.mem_filterMap.mp ho
    obtain rfl : x = some o := hx
    exact ⟨path, o, hm, rfl⟩
  · rintro ⟨path, o, hm, rfl⟩
    exact List.mem_map.mpr ⟨o, List.mem_filterMap.mpr ⟨_, hm, rfl⟩, rfl⟩

/-- Where an edge starts is declared exactly if it is an argument, or no operation made it, or it is the first value of an operation. -/
theorem start_iff {g : Graph} (ht : Timely g) {ends : Ends} {d : Draw} (h : draw g ends = .ok d) {a : Nat} {use : Option Nat} {b : Nat} (he : (a, use, b) ∈ d.lines.filterMap asEdge) :
    (a, use) ∈ d.lines.filterMap declares ↔ (a ∈ addresses ends.args ∨ (∀ o ∈ outsOf g, o.ref ≠ a) ∨ ∃ n ∈ nodesIn g, n.id.ref = a) := by
  have hu : use ∈ ((d.lines.filterMap asEdge).filter fun e => decide (e.1 = a)).map (fun e => e.2.1) := List.mem_map.mpr ⟨_, List.mem_filter.mpr ⟨he, by simp⟩, rfl⟩
  rw [edge_copies h] at hu
  have hp : (a, b) ∈ (edgesOf g).map fun e => (e.1.ref, e.2.ref) := by
    rw [← edges_drawn h]
    exact List.mem_map.mpr ⟨_, he, rfl⟩
  obtain ⟨e, hee, heq⟩ := List.mem_map.mp hp
  obtain ⟨rfl, rfl⟩ : e.1.ref = a ∧ e.2.ref = b := by simpa using heq
  rw [draw_declares h, captured_of_timely ht]
  by_cases ha : e.1.ref ∈ addresses ends.args
  · rw [if_pos ha] at hu
    obtain ⟨i, hi, rfl⟩ := List.mem_map.mp hu
    refine ⟨fun _ => .inl ha, fun _ => ?_⟩
    refine List.mem_append_right _ (List.mem_append_left _ ?_)
    obtain ⟨path, o, hm, ho⟩ := mem_addresses.mp ha
    refine List.mem_filterMap.mpr ⟨.arg o i path, argLines_mem.mpr ⟨path, o, i, hm, ?_, ?_, rfl⟩, by simp [declares, ho]⟩
    · rw [ho]; exact List.mem_map.mpr ⟨e, hee, rfl⟩
    · rw [ho, uses, if_pos ha]; exact List.mem_range.mp hi
  · rw [if_neg ha] at hu
    obtain rfl := List.eq_of_mem_replicate hu
    constructor
    · intro hm
      rcases List.mem_append.mp hm with hm | hm
      · obtain ⟨n, hn, hr⟩ := List.mem_map.mp hm
        exact .inr (.inr ⟨n, hn, by simpa using hr⟩)
      · rcases List.mem_append.mp hm with hm | hm
        · obtain ⟨l, hl, hd⟩ := List.mem_filterMap.mp hm
          obtain ⟨path, o, i, -, -, -, rfl⟩ := argLines_mem.mp hl
          simp [declares] at hd
        · obtain ⟨o, ho, hr⟩ := List.mem_map.mp hm
          unfold lacking at ho
          obtain ⟨e', he', rfl⟩ := List.mem_map.mp ho
          have hr' : e'.1.ref = e.1.ref := by simpa using hr
          have := (List.mem_filter.mp he').2
          simp only [decide_eq_true_eq] at this
          refine .inr (.inl fun o ho heq => this.2 (List.mem_map.mpr ⟨o, ho, heq.trans hr'.symm⟩))
    · rintro (h' | h' | ⟨n, hn, hr⟩)
      · exact absurd h' ha
      · refine List.mem_append_right _ (List.mem_append_right _ (List.mem_map.mpr ⟨e.1, ?_, rfl⟩))
        refine List.mem_map.mpr ⟨e, List.mem_filter.mpr ⟨hee, ?_⟩, rfl⟩
        simp only [decide_eq_true_eq]
        refine ⟨ha, fun hm => ?_⟩
        obtain ⟨o, ho, hr⟩ := List.mem_map.mp hm
        exact h' o ho hr
      · exact List.mem_append_left _ (List.mem_map.mpr ⟨n, hn, by simp [hr]⟩)

/-- C134, in part: in the drawing of a recorded function, every edge ends at a node that is declared, and starts at one that is declared exactly if it is not a second or later value of an operation.  Missing: edges from such values, which
start at nothing (`second_value`). -/
theorem edges_join_partial {m : Mem} {name : Str} {body : List Step} (hp : PromptAll body) {r : Nat} (hr : (toGraph m name body).2 = .ok r) {g : Graph} (hs : Stored (toGraph m name body).1.cells g) (hg : g.ref = r)
    {ends : Ends} {d : Draw} (h : draw g ends = .ok d) {a : Nat} {use : Option Nat} {b : Nat} (he : (a, use, b) ∈ d.lines.filterMap asEdge) :
    (b, none) ∈ d.lines.filterMap declares ∧ ((a, use) ∈ d.lines.filterMap declares ↔ (a ∈ addresses ends.args ∨ (∀ o ∈ outsOf g, o.ref ≠ a) ∨ ∃ n ∈ nodesIn g, ∃ o, n.outputs.head? = some o ∧ o.ref = a)) := by
  obtain ⟨ht, hend, hfirst⟩ := recorded_fine hp hr hs hg
  refine ⟨?_, (start_iff ht h he).trans ?_⟩
  · have hpair : (a, b) ∈ (edgesOf g).map fun e => (e.1.ref, e.2.ref) := by
      rw [← edges_drawn h]
      exact List.mem_map.mpr ⟨_, he, rfl⟩
    obtain ⟨e, hee, heq⟩ := List.mem_map.mp hpair
    obtain ⟨n, hn, hid⟩ := hend e hee
    rw [draw_declares h]
    refine List.mem_append_left _ (List.mem_map.mpr ⟨n, hn, ?_⟩)
    have : e.2.ref = b := by simpa using (Prod.mk.inj heq).2
    rw [hid, this]
  · refine or_congr Iff.rfl (or_congr Iff.rfl ⟨?_, ?_⟩)
    · rintro ⟨n, hn, hr⟩
      exact ⟨n, hn, n.id, hfirst n hn, hr⟩
    · rintro ⟨n, hn, o, ho, hr⟩
      rw [hfirst n hn] at ho
      obtain rfl := Option.some.inj ho
      exact ⟨n, hn, hr⟩

/-- A function that splits its argument in two and returns the second half with the other sign. -/
def halves : List Step := [.prim "split".toList [arr 1 [4]] [arr 10 [2], arr 11 [2]], .prim "neg".toList [arr 11 [2]] [arr 12 [2]]]

/-- The graph recorded of it. -/
def halvesGraph : Graph :=
  .mk 0 "f".toList [⟨arr 10 [2], "split".toList, [arr 10 [2], arr 11 [2]]⟩, ⟨arr 12 [2], "neg".toList, [arr 12 [2]]⟩] [(arr 1 [4], arr 10 [2]), (arr 11 [2], arr 12 [2])] []

/-- Its argument and what it returns. -/
def halvesEnds : Ends := ⟨[(["0".toList], some (arr 1 [4]))], false, [([], some (arr 12 [2]))]⟩

theorem halves_recorded : (toGraph ⟨[], [], false⟩ "f".toList halves).2 = .ok 0 ∧ Stored (toGraph ⟨[], [], false⟩ "f".toList halves).1.cells halvesGraph ∧ PromptAll halves := by
  refine ⟨rfl, ⟨rfl, trivial⟩, ?_⟩
  simp [halves, PromptAll, Prompt, takes, givesAll, gives, arr]

/-- C134 is false as it stands: the second value an operation returns is used, and the edge from it starts at a node that is nowhere declared. -/
theorem second_value : ∃ d, draw halvesGraph halvesEnds = .ok d ∧ (11, none, 12) ∈ d.lines.filterMap asEdge ∧ (11, none) ∉ d.lines.filterMap declares :=
  ⟨_, rfl, by decide, by decide⟩

-- the hypotheses of `edges_join_partial`, on the edge from the argument to the first value
example : ∃ d, draw halvesGraph halvesEnds = .ok d ∧ (1, some 0, 10) ∈ d.lines.filterMap asEdge ∧ (10, none) ∈ d.lines.filterMap declares ∧ (1, some 0) ∈ d.lines.filterMap declares := by
  refine ⟨_, rfl, by decide, ?_⟩
  have h := edges_join_partial halves_recorded.2.2 halves_recorded.1 halves_recorded.2.1 rfl (ends := halvesEnds) rfl (a := 1) (use := some 0) (b := 10) (by decide)
  exact ⟨h.1, h.2.mpr (.inl (by decide))⟩

/-! ### Declared once -/

theorem declares_args (used : List Nat) (count : Nat → Nat) : ∀ args : List (List Str × Option Obj), (argLines used count args).filterMap declares =
    (leaves args).flatMap fun o => if o.ref ∈ used then (List.range (count o.ref)).map fun i => (o.ref, some i) else []
  | [] => rfl
  | (path, none) :: args => by
    have ih := declares_args used count args
    simpa [argLines, leaves] using ih
  | (path, some o) :: args => by
    have ih := declares_args used count args
    have h1 : argLines used count ((path, some o) :: args) = (if o.ref ∈ used then (List.range (count o.ref)).map fun i => Line.arg o i path else []) ++ argLines used count args := by simp [argLines]
    have h2 : leaves ((path, some o) :: args) = o :: leaves args := by simp [leaves]
    rw [h1, h2, List.filterMap_append, ih, List.flatMap_cons]
    congr 1
    split
    · rw [List.filterMap_map]
      exact List.filterMap_eq_map (f := fun i => (o.ref, some i)) ▸ rfl
    · rfl

theorem nodup_none {l : List Nat} (h : l.Nodup) : (l.map fun a => ((a, none) : Nat × Option Nat)).Nodup := by
  unfold List.Nodup at h ⊢
  rw [List.pairwise_map]
  exact h.imp fun hab heq => hab (Prod.mk.inj heq).1

mutual

theorem made_of_node : ∀ (d : Drawing) (n : Node), n ∈ nodesOf d → ∀ o ∈ n.outputs, o ∈ madeIn d
  | .mk _ ns _ ds, n, hn, o, ho => by
    rw [nodesOf, List.mem_append] at hn
    rw [madeIn, List.mem_append]
    rcases hn with hn | hn
    · exact .inl (List.mem_flatMap.mpr ⟨n, hn, ho⟩)
    · exact .inr (made_of_nodes ds n hn o ho)

theorem made_of_nodes : ∀ (ds : List Drawing) (n : Node), n ∈ nodesOfAll ds → ∀ o ∈ n.outputs, o ∈ madeInAll ds
  | d :: ds, n, hn, o, ho => by
    rw [nodesOfAll, List.mem_append] at hn
    rw [madeInAll, List.mem_append]
    rcases hn with hn | hn
    · exact .inl (made_of_node d n hn o ho)
    · exact .inr (made_of_nodes ds n hn o ho)

end

/-- C135, in part: if the arguments are different objects, so are the values that the operations return first, and no captured value is an operand more than once, nothing is declared twice.  Missing: captured values used more than once
(`captured_twice`) and objects passed more than once (`passed_twice`). -/
theorem declared_once_partial {m : Mem} {name : Str} {body : List Step} (hp : PromptAll body) {r : Nat} (hr : (toGraph m name body).2 = .ok r) {g : Graph} (hs : Stored (toGraph m name body).1.cells g) (hg : g.ref = r)
    {ends : Ends} {d : Draw} (h : draw g ends = .ok d) (ha : (addresses ends.args).Nodup) (hn : ((nodesIn g).map fun n => n.id.ref).Nodup)
    (hc : ∀ a, a ∉ addresses ends.args → (∀ o ∈ outsOf g, o.ref ≠ a) → ((edgesOf g).map fun e => e.1.ref).count a ≤ 1) : (d.lines.filterMap declares).Nodup := by
  obtain ⟨ht, -, hfirst⟩ := recorded_fine hp hr hs hg
  rw [draw_declares h, captured_of_timely ht, declares_args, List.nodup_append, List.nodup_append]
  have hmade : ∀ n ∈ nodesIn g, n.id ∈ outsOf g := by
    intro n hn
    rw [nodesIn_plain] at hn
    rw [outsOf_plain]
    exact made_of_node _ n hn n.id (List.mem_of_head? (hfirst n (by rw [nodesIn_plain]; exact hn)))
  have hlack : ∀ a, (a, none) ∈ ((lacking (addresses ends.args) ((outsOf g).map Obj.ref) (edgesOf g)).map fun o => ((o.ref, none) : Nat × Option Nat)) → a ∉ addresses ends.args ∧ ∀ o ∈ outsOf g, o.ref ≠ a := by
    intro a hm
    obtain ⟨o, ho, hr⟩ := List.mem_map.mp hm
    obtain ⟨e, he, rfl⟩ := List.mem_map.mp ho
    obtain rfl : e.1.ref = a := (Prod.mk.inj hr).1
    have := (List.mem_filter.mp he).2
    simp only [decide_eq_true_eq] at this
    exact ⟨this.1, fun o ho hr => this.2 (List.mem_map.mpr ⟨o, ho, hr⟩)⟩
  have hargs : ∀ x, x ∈ ((leaves ends.args).flatMap fun o => if o.ref ∈ (edgesOf g).map (fun e => e.1.ref) then (List.range (uses g ends o.ref)).map fun i => (o.ref, some i) else []) → ∃ a i, x = (a, some i) := by
    intro x hx
    obtain ⟨o, -, hx⟩ := List.mem_flatMap.mp hx
    split at hx
    · obtain ⟨i, -, rfl⟩ := List.mem_map.mp hx
      exact ⟨_, i, rfl⟩
    · cases hx
  refine ⟨?_, ⟨?_, ?_, ?_⟩, ?_⟩
  · have := nodup_none hn
    rwa [List.map_map] at this
  · unfold List.Nodup
    rw [List.pairwise_flatMap]
    refine ⟨fun o _ => ?_, ?_⟩
    · split
      · rw [List.pairwise_map]
        exact List.nodup_range.imp fun hab heq => hab (Option.some.inj (Prod.mk.inj heq).2)
      · exact List.Pairwise.nil
    · have hl : (leaves ends.args).Pairwise fun a b => a.ref ≠ b.ref := List.pairwise_map.mp ha
      refine hl.imp fun {a b} hab x hx y hy => ?_
      split at hx
      · split at hy
        · obtain ⟨i, -, rfl⟩ := List.mem_map.mp hx
          obtain ⟨j, -, rfl⟩ := List.mem_map.mp hy
          exact fun heq => hab (Prod.mk.inj heq).1
        · cases hy
      · cases hx
  · have hc' : ((lacking (addresses ends.args) ((outsOf g).map Obj.ref) (edgesOf g)).map Obj.ref).Nodup := by
      rw [List.nodup_iff_count]
      intro a
      by_cases hm : a ∈ (lacking (addresses ends.args) ((outsOf g).map Obj.ref) (edgesOf g)).map Obj.ref
      · obtain ⟨o, ho, rfl⟩ := List.mem_map.mp hm
        obtain ⟨h1, h2⟩ := hlack o.ref (List.mem_map.mpr ⟨o, ho, rfl⟩)
        refine Nat.le_trans (List.Sublist.count_le _ ?_) (hc o.ref h1 h2)
        unfold lacking
        rw [List.map_map]
        exact List.Sublist.map _ List.filter_sublist
      · rw [List.count_eq_zero.mpr hm]
        exact Nat.zero_le 1
    have := nodup_none hc'
    rwa [List.map_map] at this
  · intro x hx y hy heq
    obtain ⟨a, i, rfl⟩ := hargs x hx
    obtain ⟨o, -, hy⟩ := List.mem_map.mp hy
    rw [← hy] at heq
    exact Option.some_ne_none i (Prod.mk.inj heq).2
  · intro x hx y hy heq
    obtain ⟨n, hnn, rfl⟩ := List.mem_map.mp hx
    subst heq
    rcases List.mem_append.mp hy with hy | hy
    · obtain ⟨a, i, he⟩ := hargs _ hy
      exact Option.some_ne_none i (Prod.mk.inj he).2.symm
    · exact (hlack _ hy).2 n.id (hmade n hnn) rfl

/-- C135 is false as it stands: a captured value used by two operations is declared twice. -/
theorem captured_twice : ∃ d, draw (.mk 0 "f".toList [⟨arr 10 [2], "add".toList, [arr 10 [2]]⟩, ⟨arr 11 [2], "mul".toList, [arr 11 [2]]⟩]
      [(arr 1 [2], arr 10 [2]), (arr 2 [], arr 10 [2]), (arr 10 [2], arr 11 [2]), (arr 2 [], arr 11 [2])] []) ⟨[(["0".toList], some (arr 1 [2]))], false, [([], some (arr 11 [2]))]⟩ = .ok d ∧
    (d.lines.filterMap declares).count (2, none) = 2 := ⟨_, rfl, by decide⟩

/-- C135 is false as it stands: an object passed as two arguments has every copy declared twice. -/
theorem passed_twice : ∃ d, draw (.mk 0 "f".toList [⟨arr 10 [2], "add".toList, [arr 10 [2]]⟩] [(arr 1 [2], arr 10 [2]), (arr 1 [2], arr 10 [2])] [])
      ⟨[(["0".toList], some (arr 1 [2])), (["1".toList], some (arr 1 [2]))], false, [([], some (arr 10 [2]))]⟩ = .ok d ∧
    d.lines.filterMap declares = [(10, none), (1, some 0), (1, some 1), (1, some 0), (1, some 1)] := ⟨_, rfl, by decide⟩

-- the hypotheses of `declared_once_partial` hold of the function that splits its argument
example : ∃ d, draw halvesGraph halvesEnds = .ok d ∧ (d.lines.filterMap declares).Nodup :=
  ⟨_, rfl, declared_once_partial halves_recorded.2.2 halves_recorded.1 halves_recorded.2.1 rfl (ends := halvesEnds) rfl (by decide) (by decide) fun a h1 h2 => by
    have : a ∉ [1, 11] := by
      intro hm
      rcases List.mem_cons.mp hm with rfl | hm
      · exact h1 (by decide)
      · obtain rfl := List.mem_singleton.mp hm
        exact h2 (arr 11 [2]) (by decide) rfl
    rw [List.count_eq_zero.mpr (show a ∉ (edgesOf halvesGraph).map fun e => e.1.ref from this)]
    exact Nat.zero_le 1⟩

end Verif.Props.Dot
