import Verif.Props.Dot

/-!
# The drawing of a graph
-/

namespace Verif.Props.Dot
open Verif Verif.Shapes Verif.Dot

/-! ### What a drawing should be -/

mutual

/-- All values that operations of a graph return: its own first, then those of its clusters. -/
def outsOf : Graph → List Obj
  | .mk _ _ ns _ gs => (ns.flatMap fun n => n.outputs) ++ outsOfAll gs

/-- All values that operations of graphs return. -/
def outsOfAll : List Graph → List Obj
  | [] => []
  | g :: gs => outsOf g ++ outsOfAll gs

end

mutual

/-- All edges of a graph: those of its clusters first, then its own. -/
def edgesOf : Graph → List (Obj × Obj)
  | .mk _ _ _ es gs => edgesOfAll gs ++ es

/-- All edges of graphs. -/
def edgesOfAll : List Graph → List (Obj × Obj)
  | [] => []
  | g :: gs => edgesOf g ++ edgesOfAll gs

end

/-- Edges as lines: from an argument, each starts at a copy of its own, numbered by the edges from this argument before it. -/
def edgeLines (args : List Nat) : List (Obj × Obj) → List (Obj × Obj) → List Line
  | _, [] => []
  | before, e :: es => .edge e.1.ref (if e.1.ref ∈ args then some ((before.map fun e => e.1.ref).count e.1.ref) else none) e.2.ref :: edgeLines args (before ++ [e]) es

/-- A node as a line, with the name of the output it is. -/
def nodeLine (nm : Names) (n : Node) : Line := .node n (if n.id.ref ∈ nm.outs then some ((nm.outname.get? n.id.ref).getD []) else none)

mutual

/-- A graph as lines: its nodes, its clusters one after the other, and then its edges; `before` are the edges drawn already. -/
def sketch (nm : Names) : Graph → Bool → Int → List (Obj × Obj) → List Line
  | .mk r t ns es gs, inner, depth, before =>
    (if inner then [Line.opening r depth t] else []) ++ (ns.map (nodeLine nm) ++ (sketchAll nm gs (depth - 1) before ++ ((if inner then [Line.closing r] else []) ++ edgeLines nm.args (before ++ edgesOfAll gs) es)))

/-- Clusters as lines. -/
def sketchAll (nm : Names) : List Graph → Int → List (Obj × Obj) → List Line
  | [], _, _ => []
  | g :: gs, depth, before => sketch nm g true depth before ++ sketchAll nm gs depth (before ++ edgesOf g)

end

/-- The captured values of edges, if `made` are the addresses of the values made so far. -/
def lacking (args made : List Nat) (es : List (Obj × Obj)) : List Obj := (es.filter fun e => decide (e.1.ref ∉ args ∧ e.1.ref ∉ made)).map Prod.fst

mutual

/-- The captured values of a graph: at each edge those made so far count, i.e. by the operations outside, before and in its cluster. -/
def captured (args : List Nat) : Graph → List Nat → List Obj
  | .mk _ _ ns es gs, made => capturedAll args gs (made ++ (ns.flatMap fun n => n.outputs).map Obj.ref) ++ lacking args (made ++ ((ns.flatMap fun n => n.outputs) ++ outsOfAll gs).map Obj.ref) es

/-- The captured values of clusters. -/
def capturedAll (args : List Nat) : List Graph → List Nat → List Obj
  | [], _ => []
  | g :: gs, made => captured args g made ++ capturedAll args gs (made ++ (outsOf g).map Obj.ref)

end

/-! ### What is drawn -/

/-- The state of drawing agrees with the edges drawn so far. -/
def Counts (nm : Names) (d : Draw) (before : List (Obj × Obj)) : Prop :=
  ∀ a, useCount d.count a = if a ∈ nm.args then (before.map fun e => e.1.ref).count a else 0

/-- `d'` is `d` after drawing the given lines, edges, values made and captured. -/
structure Drew (nm : Names) (d d' : Draw) (before es : List (Obj × Obj)) (ls : List Line) (made : List Nat) (cap : List Obj) : Prop where
  lines : d'.lines = d.lines ++ ls
  used : d'.used = d.used ++ es.map fun e => e.1.ref
  made : d'.made = d.made ++ made
  captures : d'.captures = d.captures ++ cap
  counts : Counts nm d before → Counts nm d' (before ++ es)

theorem Drew.trans {nm : Names} {d d' d'' : Draw} {before es es' : List (Obj × Obj)} {ls ls' : List Line} {mk mk' : List Nat} {cap cap' : List Obj} (h : Drew nm d d' before es ls mk cap) (h' : Drew nm d' d'' (before ++ es) es' ls' mk' cap') :
    Drew nm d d'' before (es ++ es') (ls ++ ls') (mk ++ mk') (cap ++ cap') where
  lines := by rw [h'.lines, h.lines, List.append_assoc]
  used := by rw [h'.used, h.used, List.map_append, List.append_assoc]
  made := by rw [h'.made, h.made, List.append_assoc]
  captures := by rw [h'.captures, h.captures, List.append_assoc]
  counts hc := by rw [← List.append_assoc]; exact h'.counts (h.counts hc)

theorem drew_lines (nm : Names) (d : Draw) (before : List (Obj × Obj)) (ls : List Line) : Drew nm d { d with lines := d.lines ++ ls } before [] ls [] [] :=
  ⟨rfl, by simp, by simp, by simp, fun h => by rw [List.append_nil]; exact h⟩

theorem drew_refl (nm : Names) (d : Draw) (before : List (Obj × Obj)) : Drew nm d d before [] [] [] [] :=
  ⟨by simp, by simp, by simp, by simp, fun h => by simpa using h⟩

theorem drew_nodes (nm : Names) (before : List (Obj × Obj)) : ∀ (ns : List Node) (d : Draw), Drew nm d (ns.foldl (drawNode nm) d) before [] (ns.map (nodeLine nm)) ((ns.flatMap fun n => n.outputs).map Obj.ref) []
  | [], d => drew_refl nm d before
  | n :: ns, d => by
    have h1 : Drew nm d (drawNode nm d n) before [] [nodeLine nm n] (n.outputs.map Obj.ref) [] := ⟨rfl, by simp [drawNode], rfl, by simp [drawNode], fun h => by rw [List.append_nil]; exact h⟩
    have := h1.trans (by simpa using drew_nodes nm before ns (drawNode nm d n))
    simpa using this

theorem useCount_set (c : Dict Nat Nat) (a i b : Nat) : useCount (c.set a i) b = if b = a then i else useCount c b := by
  unfold useCount
  rw [Dict.get?_set]
  by_cases h : a = b
  · subst h; simp
  · rw [if_neg h, if_neg (Ne.symm h)]

theorem drew_edges (nm : Names) : ∀ (es before : List (Obj × Obj)) (d : Draw), Counts nm d before → Drew nm d (es.foldl (drawEdge nm) d) before es (edgeLines nm.args before es) [] (lacking nm.args d.made es)
  | [], before, d, _ => drew_refl nm d before
  | e :: es, before, d, hc => by
    have h1 : Drew nm d (drawEdge nm d e) before [e] [.edge e.1.ref (if e.1.ref ∈ nm.args then some ((before.map fun e => e.1.ref).count e.1.ref) else none) e.2.ref] [] (lacking nm.args d.made [e]) := by
      have hcap : (if e.1.ref ∉ nm.args ∧ e.1.ref ∉ d.made then d.captures ++ [e.1] else d.captures) = d.captures ++ lacking nm.args d.made [e] := by
        unfold lacking
        by_cases h : e.1.ref ∉ nm.args ∧ e.1.ref ∉ d.made
        · rw [if_pos h]; simp [h]
        · rw [if_neg h]; simp [h]
      have hu := hc e.1.ref
      by_cases ha : e.1.ref ∈ nm.args
      · rw [if_pos ha] at hu
        have hd : drawEdge nm d e = { d with captures := d.captures ++ lacking nm.args d.made [e], count := d.count.set e.1.ref (useCount d.count e.1.ref + 1), lines := d.lines ++ [.edge e.1.ref (some (useCount d.count e.1.ref)) e.2.ref], used := d.used ++ [e.1.ref] } := by
          unfold drawEdge
          dsimp only
          rw [if_pos ha, hcap]
        rw [hd]
        refine ⟨by rw [if_pos ha, hu], by simp, by simp, rfl, fun hc a => ?_⟩
        dsimp only
        rw [useCount_set, hc a, List.map_append, List.count_append]
        by_cases hae : a = e.1.ref
        · subst hae
          simp [ha, hu]
        · rw [if_neg hae]
          simp [Ne.symm hae]
      · have hd : drawEdge nm d e = { d with captures := d.captures ++ lacking nm.args d.made [e], lines := d.lines ++ [.edge e.1.ref none e.2.ref], used := d.used ++ [e.1.ref] } := by
          unfold drawEdge
          dsimp only
          rw [if_neg ha, hcap]
        rw [hd]
        refine ⟨by rw [if_neg ha], by simp, by simp, rfl, fun hc a => ?_⟩
        have := hc a
        dsimp only
        rw [this, List.map_append, List.count_append]
        by_cases hae : a = e.1.ref
        · subst hae; simp [ha]
        · simp [Ne.symm hae]
    have h2 := h1.trans (drew_edges nm es (before ++ [e]) (drawEdge nm d e) (h1.counts hc))
    have hm : (drawEdge nm d e).made = d.made := by simpa using h1.made
    rw [hm] at h2
    have hl : lacking nm.args d.made (e :: es) = lacking nm.args d.made [e] ++ lacking nm.args d.made es := by
      unfold lacking
      rw [← List.map_append, ← List.filter_append]
      rfl
    rw [hl]
    exact h2

mutual

theorem drew_graph (nm : Names) : ∀ (g : Graph) (inner : Bool) (depth : Int) (before : List (Obj × Obj)) (d : Draw), Counts nm d before →
    Drew nm d (render nm g inner depth d) before (edgesOf g) (sketch nm g inner depth before) ((outsOf g).map Obj.ref) (captured nm.args g d.made)
  | .mk r t ns es gs, inner, depth, before, d, hc => by
    have hopen : ∀ (l : Line) (d : Draw) (b : List (Obj × Obj)), Drew nm d (if inner then { d with lines := d.lines ++ [l] } else d) b [] (if inner then [l] else []) [] [] := by
      intro l d b
      cases inner
      · exact drew_refl nm d b
      · exact drew_lines nm d b [l]
    rw [render]
    have h1 := hopen (.opening r depth t) d before
    generalize (if inner = true then ({ d with lines := d.lines ++ [Line.opening r depth t] } : Draw) else d) = d1 at h1 ⊢
    have h2 := drew_nodes nm before ns d1
    generalize ns.foldl (drawNode nm) d1 = d2 at h2 ⊢
    have h12 := h1.trans (by rw [List.append_nil]; exact h2)
    simp only [List.nil_append] at h12
    have hc2 : Counts nm d2 before := by have := h12.counts hc; rwa [List.append_nil] at this
    have h3 := drew_graphs nm gs (depth - 1) before d2 hc2
    generalize renderAll nm gs (depth - 1) d2 = d3 at h3 ⊢
    have h123 := h12.trans (by rw [List.append_nil]; exact h3)
    simp only [List.nil_append] at h123
    have h4 := hopen (.closing r) d3 (before ++ edgesOfAll gs)
    generalize (if inner = true then ({ d3 with lines := d3.lines ++ [Line.closing r] } : Draw) else d3) = d4 at h4 ⊢
    have h1234 := h123.trans h4
    simp only [List.append_nil] at h1234
    have h5 := drew_edges nm es (before ++ edgesOfAll gs) d4 (h1234.counts hc)
    have h := h1234.trans h5
    have hm2 := h12.made
    have hm4 := h1234.made
    rw [hm2, hm4] at h
    simpa only [edgesOf, sketch, outsOf, captured, List.append_assoc, List.map_append, List.append_nil] using h

theorem drew_graphs (nm : Names) : ∀ (gs : List Graph) (depth : Int) (before : List (Obj × Obj)) (d : Draw), Counts nm d before →
    Drew nm d (renderAll nm gs depth d) before (edgesOfAll gs) (sketchAll nm gs depth before) ((outsOfAll gs).map Obj.ref) (capturedAll nm.args gs d.made)
  | [], _, before, d, _ => drew_refl nm d before
  | g :: gs, depth, before, d, hc => by
    have h1 := drew_graph nm g true depth before d hc
    have h2 := drew_graphs nm gs depth (before ++ edgesOf g) _ (h1.counts hc)
    have h := h1.trans h2
    rw [h1.made] at h
    rw [renderAll, edgesOfAll, sketchAll, outsOfAll, capturedAll, List.map_append]
    exact h

end

/-! ### The clusters -/

/-- A cluster as read from the lines: its number, the depth that scales its font, its title, nodes and clusters. -/
inductive Cluster where
  | mk (ref : Nat) (depth : Int) (title : Str) (nodes : List Node) (subs : List Cluster)

/-- A cluster whose end has not been read yet. -/
structure Frame where
  ref : Nat
  depth : Int
  title : Str
  nodes : List Node
  subs : List Cluster

/-- Reading one line: clusters open and close, nodes belong to the innermost open cluster, other lines to none.  The end of a cluster must name the cluster that is open. -/
def readLine : List Frame → Line → Option (List Frame)
  | fs, .opening r d t => some (⟨r, d, t, [], []⟩ :: fs)
  | f :: f' :: fs, .closing r => if f.ref = r then some ({ f' with subs := f'.subs ++ [.mk f.ref f.depth f.title f.nodes f.subs] } :: fs) else none
  | f :: fs, .node n _ => some ({ f with nodes := f.nodes ++ [n] } :: fs)
  | f :: fs, .edge _ _ _ => some (f :: fs)
  | f :: fs, .arg _ _ _ => some (f :: fs)
  | f :: fs, .capture _ => some (f :: fs)
  | _, _ => none

/-- Reading lines. -/
def readLines : List Frame → List Line → Option (List Frame)
  | fs, [] => some fs
  | fs, l :: ls => (readLine fs l).bind fun fs => readLines fs ls

mutual

/-- The cluster a graph should be, its depth being given. -/
def clusterOf : Graph → Int → Cluster
  | .mk r t ns _ gs, depth => .mk r depth t ns (clustersOf gs (depth - 1))

/-- The clusters that graphs should be. -/
def clustersOf : List Graph → Int → List Cluster
  | [], _ => []
  | g :: gs, depth => clusterOf g depth :: clustersOf gs depth

end

theorem readLines_append : ∀ (a b : List Line) (fs : List Frame), readLines fs (a ++ b) = (readLines fs a).bind fun fs => readLines fs b
  | [], _, _ => rfl
  | l :: a, b, fs => by
    simp only [List.cons_append, readLines]
    cases readLine fs l with
    | none => rfl
    | some fs' => exact readLines_append a b fs'

theorem read_edges (args : List Nat) (f : Frame) (fs : List Frame) : ∀ (es before : List (Obj × Obj)), readLines (f :: fs) (edgeLines args before es) = some (f :: fs)
  | [], _ => rfl
  | e :: es, before => by
    rw [edgeLines, readLines]
    exact read_edges args f fs es _

theorem read_nodes (nm : Names) (fs : List Frame) : ∀ (ns : List Node) (f : Frame), readLines (f :: fs) (ns.map (nodeLine nm)) = some ({ f with nodes := f.nodes ++ ns } :: fs)
  | [], f => by simp [readLines]
  | n :: ns, f => by
    rw [List.map_cons, readLines]
    refine (read_nodes nm fs ns { f with nodes := f.nodes ++ [n] }).trans ?_
    simp

mutual

theorem read_sketch (nm : Names) : ∀ (g : Graph) (depth : Int) (before : List (Obj × Obj)) (f : Frame) (fs : List Frame),
    readLines (f :: fs) (sketch nm g true depth before) = some ({ f with subs := f.subs ++ [clusterOf g depth] } :: fs)
  | .mk r t ns es gs, depth, before, f, fs => by
    rw [sketch]
    simp only [if_true, List.cons_append, List.nil_append]
    rw [readLines]
    show readLines (⟨r, depth, t, [], []⟩ :: f :: fs) _ = _
    rw [readLines_append, read_nodes]
    show readLines _ _ = _
    rw [readLines_append, read_sketchAll]
    show readLines _ _ = _
    rw [readLines, readLine, if_pos rfl]
    show readLines _ _ = _
    rw [read_edges, clusterOf]
    rfl

theorem read_sketchAll (nm : Names) : ∀ (gs : List Graph) (depth : Int) (before : List (Obj × Obj)) (f : Frame) (fs : List Frame),
    readLines (f :: fs) (sketchAll nm gs depth before) = some ({ f with subs := f.subs ++ clustersOf gs depth } :: fs)
  | [], _, _, f, fs => by simp [sketchAll, clustersOf, readLines]
  | g :: gs, depth, before, f, fs => by
    rw [sketchAll, readLines_append, read_sketch]
    show readLines _ _ = _
    rw [read_sketchAll]
    simp [clustersOf]

end

/-- The lines that declare the copies of arguments. -/
def argLines (used : List Nat) (count : Nat → Nat) (args : List (List Str × Option Obj)) : List Line :=
  args.flatMap fun a => match a.2 with | none => [] | some o => if o.ref ∈ used then (List.range (count o.ref)).map fun i => .arg o i a.1 else []

theorem drawArgs_eq : ∀ (args : List (List Str × Option Obj)) (d : Draw), args.foldl drawArg d = { d with lines := d.lines ++ argLines d.used (useCount d.count) args }
  | [], d => by simp [argLines]
  | a :: args, d => by
    have h : drawArg d a = { d with lines := d.lines ++ argLines d.used (useCount d.count) [a] } := by
      obtain ⟨path, _ | o⟩ := a
      · simp [drawArg, argLines]
      · by_cases ho : o.ref ∈ d.used <;> simp [drawArg, argLines, ho]
    rw [List.foldl_cons, drawArgs_eq args, h]
    simp [argLines]

theorem drawCaptures_eq : ∀ (os : List Obj) (d : Draw), os.foldl drawCapture d = { d with lines := d.lines ++ os.map Line.capture }
  | [], d => by simp
  | o :: os, d => by rw [List.foldl_cons, drawCaptures_eq os]; simp [drawCapture]

/-- The addresses of leaves. -/
def addresses (l : List (List Str × Option Obj)) : List Nat := (leaves l).map Obj.ref

/-- How often an argument is an operand. -/
def uses (g : Graph) (ends : Ends) (a : Nat) : Nat := if a ∈ addresses ends.args then ((edgesOf g).map fun e => e.1.ref).count a else 0

theorem draw_eq {g : Graph} {ends : Ends} {d : Draw} (h : draw g ends = .ok d) :
    ∃ outname, outNames ends.isTuple ends.outs [] = .ok outname ∧ (∀ a, useCount d.count a = uses g ends a) ∧
      d.lines = sketch ⟨addresses ends.args, addresses ends.outs, outname⟩ g false (maxDepth g) [] ++
        (argLines ((edgesOf g).map fun e => e.1.ref) (uses g ends) ends.args ++ (captured (addresses ends.args) g []).map Line.capture) := by
  unfold draw at h
  rcases ho : outNames ends.isTuple ends.outs [] with e | outname
  · rw [ho] at h; cases h
  · rw [ho] at h
    have hd := drew_graph ⟨addresses ends.args, addresses ends.outs, outname⟩ g false (maxDepth g) [] ⟨[], [], [], [], []⟩ (fun a => by simp [useCount, Dict.get?])
    have hc := hd.counts (fun a => by simp [useCount, Dict.get?])
    have he : (ends.args.foldl drawArg (render ⟨addresses ends.args, addresses ends.outs, outname⟩ g false (maxDepth g) ⟨[], [], [], [], []⟩)).captures.foldl drawCapture
        (ends.args.foldl drawArg (render ⟨addresses ends.args, addresses ends.outs, outname⟩ g false (maxDepth g) ⟨[], [], [], [], []⟩)) = d := Except.ok.inj h
    generalize render ⟨addresses ends.args, addresses ends.outs, outname⟩ g false (maxDepth g) ⟨[], [], [], [], []⟩ = d0 at hd hc he
    have hl := hd.lines
    have hu := hd.used
    have hcap := hd.captures
    simp only [List.nil_append] at hl hu hcap
    have hcount : useCount d0.count = uses g ends := funext hc
    subst he
    refine ⟨outname, rfl, ?_, ?_⟩
    · intro a
      rw [drawCaptures_eq, drawArgs_eq]
      exact hc a
    · rw [drawCaptures_eq, drawArgs_eq]
      dsimp only
      rw [hl, hu, hcap, hcount, List.append_assoc]

theorem read_args (f : Frame) (fs : List Frame) : ∀ ls : List Line, (∀ l ∈ ls, (∃ o i p, l = .arg o i p) ∨ ∃ o, l = .capture o) → readLines (f :: fs) ls = some (f :: fs)
  | [], _ => rfl
  | l :: ls, h => by
    rw [readLines]
    rcases h l (by simp) with ⟨o, i, p, rfl⟩ | ⟨o, rfl⟩
    · exact read_args f fs ls fun l hl => h l (by simp [hl])
    · exact read_args f fs ls fun l hl => h l (by simp [hl])

theorem argLines_mem {used : List Nat} {count : Nat → Nat} {args : List (List Str × Option Obj)} {l : Line} :
    l ∈ argLines used count args ↔ ∃ path o i, (path, some o) ∈ args ∧ o.ref ∈ used ∧ i < count o.ref ∧ l = .arg o i path := by
  unfold argLines
  rw [List.mem_flatMap]
  constructor
  · rintro ⟨⟨path, _ | o⟩, ha, hl⟩
    · simp at hl
    · dsimp only at hl
      split at hl
      · rename_i hu
        obtain ⟨i, hi, rfl⟩ := List.mem_map.mp hl
        exact ⟨path, o, i, ha, hu, List.mem_range.mp hi, rfl⟩
      · simp at hl
  · rintro ⟨path, o, i, ha, hu, hi, rfl⟩
    refine ⟨(path, some o), ha, ?_⟩
    dsimp only
    rw [if_pos hu]
    exact List.mem_map.mpr ⟨i, List.mem_range.mpr hi, rfl⟩

/-- C132: read back, the lines are exactly the nodes of the graph and its clusters, each with its title and its own nodes and clusters, properly nested; arguments and captured values are outside of all clusters. -/
theorem clusters_nested {g : Graph} {ends : Ends} {d : Draw} (h : draw g ends = .ok d) :
    ∃ ns es gs, g = .mk g.ref g.title ns es gs ∧ readLines [⟨g.ref, maxDepth g, g.title, [], []⟩] d.lines = some [⟨g.ref, maxDepth g, g.title, ns, clustersOf gs (maxDepth g - 1)⟩] := by
  obtain ⟨outname, -, -, hl⟩ := draw_eq h
  obtain ⟨r, t, ns, es, gs⟩ := g
  refine ⟨ns, es, gs, rfl, ?_⟩
  rw [hl, readLines_append]
  have h1 : readLines [⟨r, maxDepth (.mk r t ns es gs), t, [], []⟩] (sketch ⟨addresses ends.args, addresses ends.outs, outname⟩ (.mk r t ns es gs) false (maxDepth (.mk r t ns es gs)) []) =
      some [⟨r, maxDepth (.mk r t ns es gs), t, ns, clustersOf gs (maxDepth (.mk r t ns es gs) - 1)⟩] := by
    generalize (maxDepth (.mk r t ns es gs) : Int) = dp
    rw [sketch]
    simp only [Bool.false_eq_true, if_false, List.nil_append]
    rw [readLines_append, read_nodes]
    show readLines _ _ = _
    rw [readLines_append, read_sketchAll]
    show readLines _ _ = _
    rw [read_edges]
    simp
  show (readLines [⟨r, maxDepth (.mk r t ns es gs), t, [], []⟩] _).bind _ = _
  rw [h1]
  refine read_args _ _ _ fun l hl => ?_
  rcases List.mem_append.mp hl with hl | hl
  · obtain ⟨path, o, i, -, -, -, rfl⟩ := argLines_mem.mp hl
    exact .inl ⟨o, i, path, rfl⟩
  · obtain ⟨o, -, rfl⟩ := List.mem_map.mp hl
    exact .inr ⟨o, rfl⟩

/-! ### The fonts -/

mutual

/-- Below a cluster with a given font, every cluster has a smaller one, which is at least 19, and so on inside. -/
def Smaller (font : Nat) : Cluster → Prop
  | .mk _ depth _ _ subs => 19 ≤ fontSize depth ∧ fontSize depth < font ∧ SmallerAll (fontSize depth) subs

/-- Below a cluster with a given font, every cluster has a smaller one. -/
def SmallerAll (font : Nat) : List Cluster → Prop
  | [] => True
  | c :: cs => Smaller font c ∧ SmallerAll font cs

end

theorem font_lt (d : Nat) : fontSize ((d : Nat) : Int) < fontSize ((d + 1 : Nat) : Int) := by
  show 14 * 7 ^ d / 5 ^ d < 14 * 7 ^ (d + 1) / 5 ^ (d + 1)
  have h5 : 0 < 5 ^ d := Nat.pow_pos (by decide)
  have h57 : 5 ^ d ≤ 7 ^ d := Nat.pow_le_pow_left (by decide) d
  rw [Nat.lt_div_iff_mul_lt (Nat.pow_pos (by decide)), Nat.pow_succ, Nat.pow_succ]
  have hq : 14 * 7 ^ d / 5 ^ d * 5 ^ d ≤ 14 * 7 ^ d := Nat.div_mul_le_self _ _
  generalize 14 * 7 ^ d / 5 ^ d = q at hq ⊢
  generalize 5 ^ d = x at *
  generalize 7 ^ d = y at *
  have h1 : q * x * 5 ≤ 14 * y * 5 := Nat.mul_le_mul_right 5 hq
  have h2 : q * (x * 5) = q * x * 5 := by rw [Nat.mul_assoc]
  rw [h2]
  omega

theorem font_min : ∀ d : Nat, 1 ≤ d → 19 ≤ fontSize ((d : Nat) : Int)
  | 0, h => absurd h (by decide)
  | 1, _ => by decide
  | d + 2, _ => Nat.le_trans (font_min (d + 1) (by omega)) (Nat.le_of_lt (font_lt (d + 1)))

mutual

theorem smaller_cluster : ∀ (g : Graph) (d : Nat), maxDepth g ≤ d → Smaller (fontSize ((d + 1 : Nat) : Int)) (clusterOf g (d : Nat))
  | .mk r t ns es gs, d, h => by
    have h1 : 1 ≤ d := by
      refine Nat.le_trans ?_ h
      cases gs <;> simp [maxDepth]
    rw [clusterOf]
    refine ⟨font_min d h1, font_lt d, ?_⟩
    obtain ⟨k, rfl⟩ : ∃ k, d = k + 1 := ⟨d - 1, by omega⟩
    have hk : ((k + 1 : Nat) : Int) - 1 = ((k : Nat) : Int) := by omega
    rw [hk]
    refine smaller_clusters gs k ?_
    cases gs with
    | nil => simp [maxDepths]
    | cons g gs => rw [maxDepth] at h; omega

theorem smaller_clusters : ∀ (gs : List Graph) (d : Nat), maxDepths gs ≤ d → SmallerAll (fontSize ((d + 1 : Nat) : Int)) (clustersOf gs (d : Nat))
  | [], _, _ => trivial
  | g :: gs, d, h => by
    rw [maxDepths] at h
    exact ⟨smaller_cluster g d (by omega), smaller_clusters gs d (by omega)⟩

end

/-- C132: the title of a cluster has a smaller font than that of the cluster around it, and no font is smaller than 19. -/
theorem fonts_shrink (g : Graph) : 19 ≤ fontSize (maxDepth g) ∧ ∃ ns es gs, g = .mk g.ref g.title ns es gs ∧ SmallerAll (fontSize (maxDepth g)) (clustersOf gs (maxDepth g - 1)) := by
  obtain ⟨r, t, ns, es, gs⟩ := g
  have h1 : 1 ≤ maxDepth (.mk r t ns es gs) := by cases gs <;> simp [maxDepth]
  refine ⟨font_min _ h1, ns, es, gs, rfl, ?_⟩
  obtain ⟨k, hk⟩ : ∃ k, maxDepth (.mk r t ns es gs) = k + 1 := ⟨maxDepth (.mk r t ns es gs) - 1, by omega⟩
  have hkk : ((k + 1 : Nat) : Int) - 1 = ((k : Nat) : Int) := by omega
  rw [hk, hkk]
  refine smaller_clusters gs k ?_
  cases gs with
  | nil => simp [maxDepths]
  | cons g gs => rw [maxDepth] at hk; omega

-- a function that calls a method which calls a compiled function: three titles in shrinking fonts, around one operation each
example : (draw (.mk 0 "f".toList [⟨arr 10 [2], "neg".toList, [arr 10 [2]]⟩] [(arr 1 [2], arr 10 [2])]
        [.mk 1 "linear".toList [⟨arr 11 [2], "mul".toList, [arr 11 [2]]⟩] [(arr 10 [2], arr 11 [2])] [.mk 2 "jit".toList [⟨arr 12 [2], "exp".toList, [arr 12 [2]]⟩] [(arr 11 [2], arr 12 [2])] []]])
      ⟨[(["0".toList], some (arr 1 [2]))], false, [([], some (arr 12 [2]))]⟩).toOption.map (fun d => d.lines) =
    some [.node ⟨arr 10 [2], "neg".toList, [arr 10 [2]]⟩ none, .opening 1 2 "linear".toList, .node ⟨arr 11 [2], "mul".toList, [arr 11 [2]]⟩ none, .opening 2 1 "jit".toList,
      .node ⟨arr 12 [2], "exp".toList, [arr 12 [2]]⟩ (some "output".toList), .closing 2, .edge 11 none 12, .closing 1, .edge 10 none 11, .edge 1 (some 0) 10, .arg (arr 1 [2]) 0 ["0".toList]] ∧
    (fontSize 3, fontSize 2, fontSize 1) = (38, 27, 19) := by decide +kernel

end Verif.Props.Dot
