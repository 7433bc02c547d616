import Verif.Props.DotEdges
import Verif.Lemmas.Names

/-!
# The text of a drawing
-/

namespace Verif.Props.Dot
open Verif Verif.Shapes Verif.Dot
open Verif.Summarise (simpleDtype join natStr)

/-! ### Labels -/

/-- How a label in the manner of HTML reads: `<br/>` starts a line, other tags are left out, and the five names `html.escape` writes stand for their characters.  The first argument tells whether a tag is being read. -/
def reads : Bool → Str → Str
  | true, [] => []
  | true, c :: s => if c = '>' then reads false s else reads true s
  | false, '<' :: 'b' :: 'r' :: '/' :: '>' :: s => '\n' :: reads false s
  | false, '&' :: 'a' :: 'm' :: 'p' :: ';' :: s => '&' :: reads false s
  | false, '&' :: 'l' :: 't' :: ';' :: s => '<' :: reads false s
  | false, '&' :: 'g' :: 't' :: ';' :: s => '>' :: reads false s
  | false, '&' :: 'q' :: 'u' :: 'o' :: 't' :: ';' :: s => '"' :: reads false s
  | false, '&' :: '#' :: 'x' :: '2' :: '7' :: ';' :: s => '\'' :: reads false s
  | false, [] => []
  | false, c :: s => if c = '<' then reads true s else c :: reads false s

/-- A text that means itself in a label. -/
def Harmless (s : Str) : Prop := ∀ c ∈ s, c ≠ '<' ∧ c ≠ '>' ∧ c ≠ '&'

instance (s : Str) : Decidable (Harmless s) := inferInstanceAs (Decidable (∀ c ∈ s, c ≠ '<' ∧ c ≠ '>' ∧ c ≠ '&'))

theorem reads_char {c : Char} (h : c ≠ '<') (h' : c ≠ '&') (s : Str) : reads false (c :: s) = c :: reads false s := by
  rw [reads]
  · rw [if_neg h]
  all_goals (intros; first | exact h (by assumption) | exact h' (by assumption))

theorem reads_harmless : ∀ (s t : Str), Harmless s → reads false (s ++ t) = s ++ reads false t
  | [], _, _ => rfl
  | c :: s, t, h => by
    have hc := h c (List.mem_cons_self ..)
    rw [List.cons_append, reads_char hc.1 hc.2.2, reads_harmless s t fun d hd => h d (List.mem_cons_of_mem _ hd)]
    rfl

/-- What `html.escape` writes for a character. -/
def escaped (c : Char) : Str :=
  if c = '&' then "&amp;".toList else if c = '<' then "&lt;".toList else if c = '>' then "&gt;".toList else if c = '"' then "&quot;".toList else if c = '\'' then "&#x27;".toList else [c]

theorem substitute_append (c : Char) (new : String) (s t : Str) : substitute c new (s ++ t) = substitute c new s ++ substitute c new t := List.flatMap_append

theorem escape_append (s t : Str) : escape (s ++ t) = escape s ++ escape t := by
  unfold escape
  rw [substitute_append, substitute_append, substitute_append, substitute_append, substitute_append]

theorem substitute_other {c d : Char} (h : d ≠ c) (new : String) : substitute c new [d] = [d] := by
  unfold substitute
  rw [List.flatMap_cons, if_neg h]
  rfl

theorem escape_char (c : Char) : escape [c] = escaped c := by
  unfold escaped
  split
  · next h => subst h; decide
  next h1 =>
  split
  · next h => subst h; decide
  next h2 =>
  split
  · next h => subst h; decide
  next h3 =>
  split
  · next h => subst h; decide
  next h4 =>
  split
  · next h => subst h; decide
  next h5 =>
  unfold escape
  rw [substitute_other h1, substitute_other h2, substitute_other h3, substitute_other h4, substitute_other h5]

theorem escape_cons (c : Char) (s : Str) : escape (c :: s) = escaped c ++ escape s := by
  rw [← escape_char, ← escape_append]
  rfl

theorem reads_escaped (c : Char) (t : Str) : reads false (escaped c ++ t) = c :: reads false t := by
  unfold escaped
  split
  · next h => subst h; rfl
  split
  · next h => subst h; rfl
  split
  · next h => subst h; rfl
  split
  · next h => subst h; rfl
  split
  · next h => subst h; rfl
  next h1 h2 _ _ _ => exact reads_char h2 h1 t

theorem reads_escape : ∀ s t : Str, reads false (escape s ++ t) = s ++ reads false t
  | [], _ => rfl
  | c :: s, t => by rw [escape_cons, List.append_assoc, reads_escaped, reads_escape s t]; rfl

theorem reads_bold (t : Str) : reads false ("<b>".toList ++ t) = reads false t := rfl

theorem reads_bold' (t : Str) : reads false ("</b>".toList ++ t) = reads false t := rfl

theorem reads_break (t : Str) : reads false ("<br/>".toList ++ t) = '\n' :: reads false t := rfl

/-- C137: the label of a graph or of a cluster reads as its title, whatever characters that has. -/
theorem title_reads (title : Str) : reads false (graphLabel title) = title := by
  unfold graphLabel
  rw [List.append_assoc, reads_bold, reads_escape]
  exact List.append_nil title

/-- C137: what is escaped has none of the characters that would end a label, a tag or a quoted text. -/
theorem escape_safe (s : Str) : ∀ c ∈ escape s, c ≠ '<' ∧ c ≠ '>' ∧ c ≠ '"' ∧ c ≠ '\'' := by
  induction s with
  | nil => intro c h; cases h
  | cons d s ih =>
    intro c h
    rw [escape_cons] at h
    rcases List.mem_append.mp h with h | h
    · unfold escaped at h
      split at h
      · exact (by decide : ∀ c ∈ "&amp;".toList, c ≠ '<' ∧ c ≠ '>' ∧ c ≠ '"' ∧ c ≠ '\'') c h
      split at h
      · exact (by decide : ∀ c ∈ "&lt;".toList, c ≠ '<' ∧ c ≠ '>' ∧ c ≠ '"' ∧ c ≠ '\'') c h
      split at h
      · exact (by decide : ∀ c ∈ "&gt;".toList, c ≠ '<' ∧ c ≠ '>' ∧ c ≠ '"' ∧ c ≠ '\'') c h
      split at h
      · exact (by decide : ∀ c ∈ "&quot;".toList, c ≠ '<' ∧ c ≠ '>' ∧ c ≠ '"' ∧ c ≠ '\'') c h
      split at h
      · exact (by decide : ∀ c ∈ "&#x27;".toList, c ≠ '<' ∧ c ≠ '>' ∧ c ≠ '"' ∧ c ≠ '\'') c h
      next h1 h2 h3 h4 h5 =>
      obtain rfl := List.mem_singleton.mp h
      exact ⟨h2, h3, h4, h5⟩
    · exact ih c h

theorem reads_values : ∀ (os : List Obj) (t : Str), (∀ o ∈ os, Harmless (formatVal o)) → reads false ((os.flatMap fun o => "<br/>".toList ++ formatVal o) ++ t) = (os.flatMap fun o => '\n' :: formatVal o) ++ reads false t
  | [], _, _ => rfl
  | o :: os, t, h => by
    rw [List.flatMap_cons, List.append_assoc, List.append_assoc, reads_break, reads_harmless _ _ (h o (List.mem_cons_self ..)), reads_values os t fun p hp => h p (List.mem_cons_of_mem _ hp), List.flatMap_cons]
    simp only [List.cons_append, List.append_assoc]

/-- C137, in part: the label of an operation reads as the name of the output it is, if any, the title, and a line for each value it returns, if these have no `<`, `>` or `&`.  Missing: values that are
no arrays and whose `repr` has; the operations of JAX return arrays. -/
theorem node_reads_partial (n : Node) (out : Option Str) (h : ∀ o ∈ n.outputs, Harmless (formatVal o)) :
    reads false (nodeLabel n out) = (match out with | none => [] | some t => t ++ ['\n']) ++ n.title ++ n.outputs.flatMap fun o => '\n' :: formatVal o := by
  have h0 : reads false ("<b>".toList ++ escape n.title ++ "</b>".toList ++ n.outputs.flatMap fun o => "<br/>".toList ++ formatVal o) = n.title ++ n.outputs.flatMap fun o => '\n' :: formatVal o := by
    rw [List.append_assoc, List.append_assoc, reads_bold, reads_escape, reads_bold']
    have := reads_values n.outputs [] h
    rw [List.append_nil] at this
    rw [this]
    exact congrArg _ (List.append_nil _)
  unfold nodeLabel
  cases out with
  | none => exact h0
  | some t =>
    dsimp only
    rw [List.append_assoc, List.append_assoc, reads_bold, reads_escape]
    have hb : ∀ s, reads false ("</b><br/>".toList ++ s) = '\n' :: reads false s := fun s => rfl
    rw [hb, h0]
    simp only [List.append_assoc, List.cons_append, List.nil_append]

theorem harmless_join : ∀ l : List Str, (∀ s ∈ l, Harmless s) → Harmless (join "/".toList l)
  | [], _ => fun c h => by cases h
  | [s], h => h s (List.mem_singleton.mpr rfl)
  | s :: s' :: l, h => by
    intro c hc
    have ih := harmless_join (s' :: l) fun t ht => h t (List.mem_cons_of_mem _ ht)
    have he : join "/".toList (s :: s' :: l) = s ++ ("/".toList ++ join "/".toList (s' :: l)) := by first | rfl | simp [join]
    rw [he] at hc
    rcases List.mem_append.mp hc with hc | hc
    · exact h s (List.mem_cons_self ..) c hc
    · rcases List.mem_append.mp hc with hc | hc
      · exact (by decide : Harmless "/".toList) c hc
      · exact ih c hc

/-- C137, in part: the label of a copy of an argument reads as the position of the argument, the path to the leaf in it, and the type of the leaf, after a line that tells a copy other than the first; if the keys of the path have no `<`, `>` or `&`.
Missing: keys that have (`key_lost`). -/
theorem arg_reads_partial (o : Obj) (use : Nat) (p : Str) (ps : List Str) (h : ∀ k ∈ ps, Harmless k) : ∃ t, argLabel o use (p :: ps) = .ok t ∧
    reads false t = (if use = 0 then [] else "(reuse)\n".toList) ++ ("args[".toList ++ p ++ "]".toList ++ (if ps = [] then [] else ": ".toList ++ join "/".toList ps) ++ if o.array.isSome then '\n' :: formatVal o else []) := by
  have h1 : reads false ("<b>args[".toList ++ escape p ++ "]".toList ++ (if ps = [] then [] else ": ".toList ++ join "/".toList ps) ++ "</b>".toList ++ if o.array.isSome then "<br/>".toList ++ escape (formatVal o) else []) =
      "args[".toList ++ p ++ "]".toList ++ (if ps = [] then [] else ": ".toList ++ join "/".toList ps) ++ if o.array.isSome then '\n' :: formatVal o else [] := by
    have h2 : reads false ("</b>".toList ++ if o.array.isSome then "<br/>".toList ++ escape (formatVal o) else []) = if o.array.isSome then '\n' :: formatVal o else [] := by
      rw [reads_bold']
      cases o.array.isSome
      · rfl
      · rw [if_pos rfl, if_pos rfl, reads_break]
        have := reads_escape (formatVal o) []
        rw [List.append_nil] at this
        rw [this]
        exact congrArg _ (List.append_nil _)
    have h3 : Harmless (if ps = [] then [] else ": ".toList ++ join "/".toList ps) := by
      split
      · intro c hc; cases hc
      · intro c hc
        rcases List.mem_append.mp hc with hc | hc
        · exact (by decide : Harmless ": ".toList) c hc
        · exact harmless_join ps h c hc
    have h4 : ("<b>args[".toList : Str) = "<b>".toList ++ "args[".toList := rfl
    rw [h4, List.append_assoc, List.append_assoc, List.append_assoc, List.append_assoc, List.append_assoc, reads_bold, reads_harmless _ _ (by decide), reads_escape, reads_harmless _ _ (by decide), reads_harmless _ _ h3, h2]
    simp only [List.append_assoc]
  refine ⟨_, rfl, ?_⟩
  by_cases hu : use = 0
  · rw [if_neg (by omega), if_pos hu, h1]
    rfl
  · rw [if_pos (by omega), if_neg hu]
    have h5 : ∀ t, reads false ("<b>(reuse)</b><br/>".toList ++ t) = "(reuse)\n".toList ++ reads false t := fun t => rfl
    rw [h5, h1]

/-- C137, in part: the label of a captured value reads as its only element or else its type, if the element's text has no `<`, `>` or `&`.  Missing: elements whose text has, which those of arrays of numbers do not have. -/
theorem capture_reads_partial (o : Obj) (h : ∀ t, o.item = some t → Harmless t) : reads false (captureLabel o) = o.item.getD (formatVal o) := by
  unfold captureLabel
  cases hi : o.item with
  | none =>
    dsimp only
    rw [List.append_assoc, reads_bold, reads_escape]
    exact List.append_nil _
  | some t =>
    dsimp only
    rw [List.append_assoc, reads_bold, reads_harmless _ _ (h t hi)]
    exact List.append_nil _

/-- C137 is false as it stands: an argument under the key `a<b` has a label that reads as if the key were `a`, with an angle bracket that is not closed. -/
theorem key_lost : ∃ t, argLabel (arr 1 [2]) 0 ["0".toList, "a<b".toList] = .ok t ∧ reads false t = "args[0]: a\nf32[2]".toList ∧ t.count '<' ≠ t.count '>' := ⟨_, rfl, by decide +kernel, by decide +kernel⟩

example : reads false (graphLabel "a < b & \"c\"".toList) = "a < b & \"c\"".toList ∧ graphLabel "a<b".toList = "<b>a&lt;b</b>".toList := by decide

example : reads false (nodeLabel ⟨arr 10 [2], "x<y".toList, [arr 10 [2]]⟩ (some "output[0]".toList)) = "output[0]\nx<y\nf32[2]".toList := by decide +kernel

example : (argLabel (arr 1 [2, 3]) 1 ["0".toList, "w".toList, "b".toList]).toOption.map (reads false) = some "(reuse)\nargs[0]: w/b\nf32[2,3]".toList := by decide +kernel

example : reads false (captureLabel ⟨5, some ([], "float32".toList), [], some "1.5".toList⟩) = "1.5".toList ∧ reads false (captureLabel (arr 5 [2])) = "f32[2]".toList := by decide +kernel

/-! ### Names -/

theorem natStr_inj {a b : Nat} (h : natStr a = natStr b) : a = b := by
  have := congrArg (fun s => Nat.ofDigitChars 10 s 0) h
  simpa [natStr, Nat.ofDigitChars_ten_toDigits] using this

theorem natStr_ne_nil (n : Nat) : natStr n ≠ [] := by
  unfold natStr
  exact Nat.toDigits_ne_nil

theorem dotName_inj {a b : Nat} (hl : (natStr a).length = (natStr b).length) {u v : Option Nat} (h : dotName a u = dotName b v) : a = b ∧ u = v := by
  unfold dotName at h
  obtain ⟨h1, h2⟩ := List.append_inj h hl
  refine ⟨natStr_inj h1, ?_⟩
  cases u <;> cases v
  · rfl
  · exact absurd h2.symm (natStr_ne_nil _)
  · exact absurd h2 (natStr_ne_nil _)
  · rw [natStr_inj h2]

/-- C136: in the text, an edge is written between the names under which its ends are declared: the name of an operation or a captured value is its address, that of a copy of an argument its address followed by its number. -/
theorem name_texts : (∀ l a u, declares l = some (a, u) → ∀ ts, l.text = .ok ts → ∃ t, ts = [natStr a ++ (match u with | none => [] | some i => natStr i) ++ " [label=<".toList ++ t]) ∧
    ∀ l a u b, asEdge l = some (a, u, b) → l.text = .ok [natStr a ++ (match u with | none => [] | some i => natStr i) ++ " -> ".toList ++ natStr b ++ ";".toList] := by
  refine ⟨fun l a u h ts ht => ?_, fun l a u b h => ?_⟩
  · cases l with
    | opening r dp t => cases h
    | node n out =>
      obtain ⟨rfl, rfl⟩ := Prod.mk.inj (Option.some.inj h)
      obtain rfl := Except.ok.inj ht
      simp only [List.append_assoc, List.append_nil]
      exact ⟨_, rfl⟩
    | closing r => cases h
    | edge x y z => cases h
    | arg o use path =>
      obtain ⟨rfl, rfl⟩ := Prod.mk.inj (Option.some.inj h)
      rw [Line.text] at ht
      cases hl : argLabel o use path with
      | error e => rw [hl] at ht; cases ht
      | ok label =>
        rw [hl] at ht
        obtain rfl := Except.ok.inj ht
        simp only [List.append_assoc, dotName]
        exact ⟨_, rfl⟩
    | capture o =>
      obtain ⟨rfl, rfl⟩ := Prod.mk.inj (Option.some.inj h)
      obtain rfl := Except.ok.inj ht
      simp only [List.append_assoc, List.append_nil]
      exact ⟨_, rfl⟩
  · cases l with
    | edge x y z =>
      obtain ⟨rfl, h'⟩ := Prod.mk.inj (Option.some.inj h)
      obtain ⟨rfl, rfl⟩ := Prod.mk.inj h'
      rfl
    | _ => cases h

/-- C136, in part: if the addresses of everything declared have equally many digits, different things are declared under different names.  Missing: addresses of different lengths (`names_collide`). -/
theorem names_differ_partial {ls : List Line} (hl : ∀ x ∈ ls.filterMap declares, ∀ y ∈ ls.filterMap declares, (natStr x.1).length = (natStr y.1).length) :
    ∀ x ∈ ls.filterMap declares, ∀ y ∈ ls.filterMap declares, dotName x.1 x.2 = dotName y.1 y.2 → x = y := by
  intro x hx y hy h
  obtain ⟨h1, h2⟩ := dotName_inj (hl x hx y hy) h
  exact Prod.ext h1 h2

/-- C136 is false as it stands: the first copy of an argument at the address 1 and an operation that returns a value at the address 10 have the same name. -/
theorem names_collide : ∃ d, draw (.mk 0 "f".toList [⟨arr 10 [2], "neg".toList, [arr 10 [2]]⟩] [(arr 1 [2], arr 10 [2])] []) ⟨[(["0".toList], some (arr 1 [2]))], false, [([], some (arr 10 [2]))]⟩ = .ok d ∧
    d.lines.filterMap declares = [(10, none), (1, some 0)] ∧ dotName 10 none = dotName 1 (some 0) := ⟨_, rfl, by decide, by decide +kernel⟩

-- the addresses of the split function, moved to have two digits
example : ∃ d, draw (.mk 0 "f".toList [⟨arr 20 [2], "neg".toList, [arr 20 [2]]⟩] [(arr 10 [2], arr 20 [2])] []) ⟨[(["0".toList], some (arr 10 [2]))], false, [([], some (arr 20 [2]))]⟩ = .ok d ∧
    d.lines.filterMap declares = [(20, none), (10, some 0)] ∧ ∀ x ∈ d.lines.filterMap declares, ∀ y ∈ d.lines.filterMap declares, (natStr x.1).length = (natStr y.1).length := ⟨_, rfl, by decide, by decide +kernel⟩

/-- The address of the graph whose cluster a line opens. -/
def opens : Line → Option Nat
  | .opening r _ _ => some r
  | _ => none

theorem opens_nodes (nm : Names) : ∀ ns : List Node, (ns.map (nodeLine nm)).filterMap opens = []
  | [] => rfl
  | _ :: ns => by rw [List.map_cons, List.filterMap_cons_none rfl, opens_nodes nm ns]

theorem opens_edges (args : List Nat) : ∀ es before : List (Obj × Obj), (edgeLines args before es).filterMap opens = []
  | [], _ => rfl
  | _ :: es, before => by rw [edgeLines, List.filterMap_cons_none rfl, opens_edges args es]

mutual

theorem sketch_opens (nm : Names) : ∀ (g : Graph) (depth : Int) (before : List (Obj × Obj)), (sketch nm g true depth before).filterMap opens = refs g
  | .mk r t ns es gs, depth, before => by
    rw [sketch, refs, if_pos rfl, if_pos rfl]
    simp only [List.filterMap_append]
    have h1 : [Line.opening r depth t].filterMap opens = [r] := rfl
    have h2 : [Line.closing r].filterMap opens = [] := rfl
    rw [h1, h2, opens_nodes, sketchAll_opens nm gs, opens_edges]
    simp

theorem sketchAll_opens (nm : Names) : ∀ (gs : List Graph) (depth : Int) (before : List (Obj × Obj)), (sketchAll nm gs depth before).filterMap opens = refsAll gs
  | [], _, _ => rfl
  | g :: gs, depth, before => by rw [sketchAll, refsAll, List.filterMap_append, sketch_opens nm g, sketchAll_opens nm gs]

end

/-- C136: no two clusters of a recorded graph have the same name. -/
theorem cluster_names {m : Mem} {name : Str} {body : List Step} {r : Nat} (hr : (toGraph m name body).2 = .ok r) {g : Graph} (hs : Stored (toGraph m name body).1.cells g) (hg : g.ref = r) {ends : Ends} {d : Draw} (h : draw g ends = .ok d) :
    ((d.lines.filterMap opens).map fun r => "cluster_".toList ++ natStr r).Nodup ∧
    ∀ l r, opens l = some r → ∃ rest, l.text = .ok (("subgraph ".toList ++ ("cluster_".toList ++ natStr r) ++ " {".toList) :: rest) := by
  constructor
  · have hn : (refs g).Nodup := by
      have hrec := (to_graph_records m name body).2
      rcases hq : seenAll body m.named with ⟨p, n, e⟩
      rw [hq] at hrec
      cases e with
      | some e => dsimp only at hrec; rw [hrec] at hr; cases hr
      | none =>
        obtain ⟨r', hr', g', ⟨-, -, -, hn⟩, hu⟩ := hrec
        obtain rfl := Except.ok.inj (hr'.symm.trans hr)
        rwa [← hu g hs hg] at hn
    obtain ⟨outname, -, -, hl⟩ := draw_eq h
    have ho : d.lines.filterMap opens = (refs g).tail := by
      rw [hl, List.filterMap_append, List.filterMap_append]
      have h1 : (argLines ((edgesOf g).map fun e => e.1.ref) (uses g ends) ends.args).filterMap opens = [] := by
        rw [List.filterMap_eq_nil_iff]
        intro l hm
        obtain ⟨p, o, i, -, -, -, rfl⟩ := argLines_mem.mp hm
        rfl
      have h2 : ((captured (addresses ends.args) g []).map Line.capture).filterMap opens = [] := by
        rw [List.filterMap_eq_nil_iff]
        intro l hm
        obtain ⟨o, -, rfl⟩ := List.mem_map.mp hm
        rfl
      rw [h1, h2, List.append_nil, List.append_nil]
      obtain ⟨r, t, ns, es, gs⟩ := g
      generalize (maxDepth (.mk r t ns es gs) : Int) = dp
      rw [sketch, refs]
      simp only [List.filterMap_append]
      rw [opens_nodes, sketchAll_opens, opens_edges]
      simp
    rw [ho]
    obtain ⟨r, t, ns, es, gs⟩ := g
    rw [refs] at hn ⊢
    rw [List.tail_cons]
    unfold List.Nodup
    rw [List.pairwise_map]
    exact (List.nodup_cons.mp hn).2.imp fun hab he => hab (natStr_inj (List.append_cancel_left he))
  · intro l r h
    cases l with
    | opening r' dp t =>
      obtain rfl := Option.some.inj h
      exact ⟨_, rfl⟩
    | _ => cases h

example : ∃ d, draw halvesGraph halvesEnds = .ok d ∧ ((d.lines.filterMap opens).map fun r => "cluster_".toList ++ natStr r).Nodup := ⟨_, rfl, (cluster_names halves_recorded.1 halves_recorded.2.1 rfl (ends := halvesEnds) rfl).1⟩

/-! ### Outputs -/

/-- The address of the operation a line declares, and the name of the output it is marked as. -/
def marks : Line → Option (Nat × Option Str)
  | .node n out => some (n.id.ref, out)
  | _ => none

/-- How the output at a path is called. -/
def outputName (isTuple : Bool) : List Str → Str
  | [] => "output".toList
  | p :: ps =>
    if isTuple then if ps = [] then "output[".toList ++ p ++ "]".toList else "output[".toList ++ p ++ "]: ".toList ++ join "/".toList ps
    else "output: ".toList ++ join "/".toList (p :: ps)

/-- The paths of the leaves at an address. -/
def pathsOf (outs : List (List Str × Option Obj)) (a : Nat) : List (List Str) := (outs.filter fun p => p.2.map Obj.ref = some a).map Prod.fst

theorem formatPath_eq {isTuple : Bool} {path : List Str} {t : Str} (h : formatPath isTuple path = .ok t) : t = outputName isTuple path := by
  unfold formatPath at h
  cases isTuple with
  | true =>
    rw [if_pos rfl] at h
    cases path with
    | nil => cases h
    | cons p ps =>
      obtain rfl := Except.ok.inj h
      rw [outputName, if_pos rfl]
      by_cases hp : ps = []
      · rw [if_pos hp, if_pos hp]; exact List.append_nil _
      · rw [if_neg hp, if_neg hp]
        have : ("]: ".toList : Str) = "]".toList ++ ": ".toList := rfl
        rw [this]
        simp only [List.append_assoc]
  | false =>
    rw [if_neg (by decide)] at h
    obtain rfl := Except.ok.inj h
    cases path with
    | nil => rfl
    | cons p ps =>
      rw [outputName, if_neg (by simp), if_neg Bool.false_ne_true]
      rfl

theorem outNames_get (isTuple : Bool) : ∀ (outs : List (List Str × Option Obj)) (d d' : Dict Nat Str), outNames isTuple outs d = .ok d' → ∀ a, d'.get? a = match (pathsOf outs a).getLast? with | some path => some (outputName isTuple path) | none => d.get? a
  | [], d, d', h, a => by
    obtain rfl := Except.ok.inj h
    rfl
  | (path, o) :: rest, d, d', h, a => by
    unfold outNames at h
    cases ht : formatPath isTuple path with
    | error e => rw [ht] at h; cases h
    | ok t =>
      rw [ht] at h
      obtain rfl := formatPath_eq ht
      cases o with
      | none =>
        have ih := outNames_get isTuple rest d d' h a
        have : pathsOf ((path, none) :: rest) a = pathsOf rest a := by simp [pathsOf]
        rw [this, ih]
      | some o =>
        have ih := outNames_get isTuple rest _ d' h a
        rw [ih, Dict.get?_set]
        by_cases hr : o.ref = a
        · have : pathsOf ((path, some o) :: rest) a = path :: pathsOf rest a := by simp [pathsOf, hr]
          rw [this, List.getLast?_cons]
          cases (pathsOf rest a).getLast? with
          | none => simp [hr]
          | some q => simp
        · have : pathsOf ((path, some o) :: rest) a = pathsOf rest a := by simp [pathsOf, hr]
          rw [this]
          cases (pathsOf rest a).getLast? with
          | none => simp [hr]
          | some q => simp

theorem marks_nodes (nm : Names) : ∀ ns : List Node, (ns.map (nodeLine nm)).filterMap marks = ns.map fun n => (n.id.ref, if n.id.ref ∈ nm.outs then some ((nm.outname.get? n.id.ref).getD []) else none)
  | [] => rfl
  | n :: ns => by rw [List.map_cons, List.map_cons, List.filterMap_cons, ← marks_nodes nm ns]; rfl

theorem marks_edges (args : List Nat) : ∀ es before : List (Obj × Obj), (edgeLines args before es).filterMap marks = []
  | [], _ => rfl
  | e :: es, before => by rw [edgeLines, List.filterMap_cons_none rfl, marks_edges args es]

mutual

theorem sketch_marks (nm : Names) : ∀ (g : Graph) (inner : Bool) (depth : Int) (before : List (Obj × Obj)), (sketch nm g inner depth before).filterMap marks =
    (nodesIn g).map fun n => (n.id.ref, if n.id.ref ∈ nm.outs then some ((nm.outname.get? n.id.ref).getD []) else none)
  | .mk r t ns es gs, inner, depth, before => by
    rw [sketch, nodesIn]
    simp only [List.filterMap_append, List.map_append]
    rw [marks_nodes, sketchAll_marks nm gs, marks_edges]
    cases inner
    · simp
    · have h1 : [Line.opening r depth t].filterMap marks = [] := rfl
      have h2 : [Line.closing r].filterMap marks = [] := rfl
      simp [h1, h2]

theorem sketchAll_marks (nm : Names) : ∀ (gs : List Graph) (depth : Int) (before : List (Obj × Obj)), (sketchAll nm gs depth before).filterMap marks =
    (nodesInAll gs).map fun n => (n.id.ref, if n.id.ref ∈ nm.outs then some ((nm.outname.get? n.id.ref).getD []) else none)
  | [], _, _ => rfl
  | g :: gs, depth, before => by rw [sketchAll, nodesInAll, List.filterMap_append, List.map_append, sketch_marks nm g, sketchAll_marks nm gs]

end

theorem pathsOf_nil {outs : List (List Str × Option Obj)} {a : Nat} : pathsOf outs a = [] ↔ a ∉ addresses outs := by
  rw [mem_addresses]
  unfold pathsOf
  rw [List.map_eq_nil_iff, List.filter_eq_nil_iff]
  constructor
  · rintro h ⟨path, o, hm, rfl⟩
    exact h _ hm (by simp)
  · rintro h ⟨path, o⟩ hm hd
    cases o with
    | none => simp at hd
    | some o => exact h ⟨path, o, hm, by simpa using hd⟩

/-- C138, in part: an operation is marked as an output exactly if the value it returns first is one of the returned values, and then with the last path under which it was returned.  Missing: other values an operation returns (`output_unmarked`)
and arguments returned as they are, which have no mark. -/
theorem outputs_marked_partial {g : Graph} {ends : Ends} {d : Draw} (h : draw g ends = .ok d) :
    d.lines.filterMap marks = (nodesIn g).map fun n => (n.id.ref, (pathsOf ends.outs n.id.ref).getLast?.map (outputName ends.isTuple)) := by
  obtain ⟨outname, ho, -, hl⟩ := draw_eq h
  rw [hl, List.filterMap_append, List.filterMap_append, sketch_marks]
  have h1 : (argLines ((edgesOf g).map fun e => e.1.ref) (uses g ends) ends.args).filterMap marks = [] := by
    rw [List.filterMap_eq_nil_iff]
    intro l hm
    obtain ⟨p, o, i, -, -, -, rfl⟩ := argLines_mem.mp hm
    rfl
  have h2 : ((captured (addresses ends.args) g []).map Line.capture).filterMap marks = [] := by
    rw [List.filterMap_eq_nil_iff]
    intro l hm
    obtain ⟨o, -, rfl⟩ := List.mem_map.mp hm
    rfl
  rw [h1, h2, List.append_nil, List.append_nil]
  refine List.map_congr_left fun n _ => ?_
  dsimp only
  rw [outNames_get _ _ _ _ ho]
  by_cases hm : n.id.ref ∈ addresses ends.outs
  · rw [if_pos hm]
    cases hp : (pathsOf ends.outs n.id.ref).getLast? with
    | none => exact absurd (List.getLast?_eq_none_iff.mp hp) fun hn => pathsOf_nil.mp hn hm
    | some q => rfl
  · rw [if_neg hm, pathsOf_nil.mpr hm]
    rfl

/-- C138 is false as it stands: the second half that the operation returns is returned, and nothing is marked as an output. -/
theorem output_unmarked : ∃ d, draw (.mk 0 "f".toList [⟨arr 10 [2], "split".toList, [arr 10 [2], arr 11 [2]]⟩] [(arr 1 [4], arr 10 [2])] []) ⟨[(["0".toList], some (arr 1 [4]))], false, [([], some (arr 11 [2]))]⟩ = .ok d ∧
    d.lines.filterMap marks = [(10, none)] := ⟨_, rfl, by decide⟩

-- a value returned twice has the later of its names
example : ∃ d, draw halvesGraph { halvesEnds with isTuple := true, outs := [(["0".toList], some (arr 12 [2])), (["1".toList, "x".toList], some (arr 12 [2]))] } = .ok d ∧
    d.lines.filterMap marks = [(10, none), (12, some "output[1]: x".toList)] := ⟨_, rfl, by decide⟩

/-! ### Drawing does not fail -/

theorem outNames_ok (isTuple : Bool) : ∀ (outs : List (List Str × Option Obj)) (d : Dict Nat Str), (isTuple = true → ∀ p ∈ outs, p.1 ≠ []) → ∃ d', outNames isTuple outs d = .ok d'
  | [], d, _ => ⟨d, rfl⟩
  | (path, o) :: rest, d, h => by
    have hf : ∃ t, formatPath isTuple path = .ok t := by
      unfold formatPath
      cases isTuple with
      | false => exact ⟨_, rfl⟩
      | true =>
        cases path with
        | nil => exact absurd rfl (h rfl _ (List.mem_cons_self ..))
        | cons p ps => exact ⟨_, rfl⟩
    obtain ⟨t, ht⟩ := hf
    have ih := fun d => outNames_ok isTuple rest d fun hi p hp => h hi p (List.mem_cons_of_mem _ hp)
    unfold outNames
    rw [ht]
    cases o with
    | none => exact ih d
    | some o => exact ih _

theorem mapM_ok {ls : List Line} (h : ∀ l ∈ ls, ∃ ts, l.text = .ok ts) : ∃ body, ls.mapM Line.text = .ok body ∧ ls.map Line.text = body.map Except.ok := by
  induction ls with
  | nil => exact ⟨[], rfl, rfl⟩
  | cons l ls ih =>
    obtain ⟨ts, ht⟩ := h l (List.mem_cons_self ..)
    obtain ⟨body, hb, hf⟩ := ih fun l hl => h l (List.mem_cons_of_mem _ hl)
    refine ⟨ts :: body, ?_, by rw [List.map_cons, List.map_cons, ht, hf]⟩
    rw [List.mapM_cons, ht, hb]
    rfl

theorem edges_no_arg (args : List Nat) (o : Obj) (i : Nat) (path : List Str) : ∀ es before : List (Obj × Obj), Line.arg o i path ∉ edgeLines args before es
  | [], _ => by intro h; cases h
  | e :: es, before => by
    rw [edgeLines]
    intro h
    rcases List.mem_cons.mp h with h | h
    · cases h
    · exact edges_no_arg args o i path es _ h

mutual

theorem sketch_no_arg (nm : Names) : ∀ (g : Graph) (inner : Bool) (depth : Int) (before : List (Obj × Obj)) (o : Obj) (i : Nat) (path : List Str), Line.arg o i path ∉ sketch nm g inner depth before
  | .mk r t ns es gs, inner, depth, before, o, i, path => by
    rw [sketch]
    intro h
    rcases List.mem_append.mp h with h | h
    · cases inner <;> simp at h
    rcases List.mem_append.mp h with h | h
    · obtain ⟨n, -, he⟩ := List.mem_map.mp h
      cases he
    rcases List.mem_append.mp h with h | h
    · exact sketchAll_no_arg nm gs _ _ o i path h
    rcases List.mem_append.mp h with h | h
    · cases inner <;> simp at h
    · exact edges_no_arg _ o i path _ _ h

theorem sketchAll_no_arg (nm : Names) : ∀ (gs : List Graph) (depth : Int) (before : List (Obj × Obj)) (o : Obj) (i : Nat) (path : List Str), Line.arg o i path ∉ sketchAll nm gs depth before
  | [], _, _, _, _, _ => by rw [sketchAll]; intro h; cases h
  | g :: gs, depth, before, o, i, path => by
    rw [sketchAll]
    intro h
    rcases List.mem_append.mp h with h | h
    · exact sketch_no_arg nm g _ _ _ o i path h
    · exact sketchAll_no_arg nm gs _ _ o i path h

end

/-- C139: drawing never fails: the arguments of a function are a tuple, so that each of their leaves has a path that is not empty, and so has each leaf of a tuple the function returns.  The text is the head, the text of each line in turn, and the
closing brace. -/
theorem drawing_total (g : Graph) (ends : Ends) (ha : ∀ p ∈ ends.args, p.1 ≠ []) (ho : ends.isTuple = true → ∀ p ∈ ends.outs, p.1 ≠ []) : ∃ (d : Draw) (body : List (List Str)), draw g ends = .ok d ∧ d.lines.map Line.text = body.map Except.ok ∧
    graphToDot g ends = .ok (join "\n".toList (headLines g d.count ++ body.flatten ++ ["} // digraph G".toList]) ++ "\n".toList) := by
  obtain ⟨outname, hn⟩ := outNames_ok ends.isTuple ends.outs [] ho
  have hd : ∃ d, draw g ends = .ok d := by
    unfold draw
    rw [hn]
    exact ⟨_, rfl⟩
  obtain ⟨d, hd⟩ := hd
  obtain ⟨_, -, -, hl⟩ := draw_eq hd
  have ht : ∀ l ∈ d.lines, ∃ ts, l.text = .ok ts := by
    intro l hm
    cases l with
    | arg o i path =>
      rw [hl] at hm
      have hp : path ≠ [] := by
        rcases List.mem_append.mp hm with hm | hm
        · exact absurd hm (sketch_no_arg _ g false _ _ o i path)
        · rcases List.mem_append.mp hm with hm | hm
          · obtain ⟨path', o', i', hp, -, -, he⟩ := argLines_mem.mp hm
            obtain ⟨-, -, rfl⟩ := Line.arg.inj he
            exact ha _ hp
          · obtain ⟨o', -, he⟩ := List.mem_map.mp hm
            cases he
      obtain ⟨p, ps, rfl⟩ := List.exists_cons_of_ne_nil hp
      exact ⟨_, rfl⟩
    | _ => exact ⟨_, rfl⟩
  obtain ⟨body, hb, hf⟩ := mapM_ok ht
  refine ⟨d, body, hd, hf, ?_⟩
  unfold graphToDot
  rw [hd]
  show (do let body ← d.lines.mapM Line.text; _) = _
  rw [hb]
  rfl

-- the text of a function that negates its argument
example : graphToDot (.mk 0 "f".toList [⟨arr 20 [2], "neg".toList, [arr 20 [2]]⟩] [(arr 10 [2], arr 20 [2])] []) ⟨[(["0".toList], some (arr 10 [2]))], false, [([], some (arr 20 [2]))]⟩ = .ok
    (join "\n".toList (headLines (.mk 0 "f".toList [] [] []) [(10, 1)] ++ [
      "20 [label=<<b>output</b><br/><b>neg</b><br/>f32[2]>,  id=\"node20\", shape=rect, style=\"filled,bold\", tooltip=\" \", fontcolor=\"black\", color=\"#0053D6\", fillcolor=\"#AABFFF\"];".toList,
      "100 -> 20;".toList,
      "100 [label=<<b>args[0]</b><br/>f32[2]> id=\"node100\", shape=rect, style=\"filled\", fontcolor=\"black\", color=\"#FF8A4F\", fillcolor=\"#FFDEAF\"];".toList] ++ ["} // digraph G".toList]) ++ "\n".toList) := by decide +kernel

end Verif.Props.Dot
