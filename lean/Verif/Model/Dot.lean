import Verif.Model.Summarise

/-!
# Graphs of the operations of a function

Models `/repo/haiku/_src/dot.py`: how `to_graph` records the operations of a function, clustered by the calls of methods of modules and of compiled functions, and the text `_graph_to_dot` writes.  What the function does is given by
the operations JAX sees, as a tree.  Objects have an address; that of an array also gives its shape and dtype.  JAX's tracers are not modelled: an operation is given by the values it gets and those it returns.
-/

namespace Verif.Dot
open Verif Verif.Shapes
open Verif.Summarise (simpleDtype join natStr)

/-- A Python object: `id(o)`, its shape and the name of its dtype if it has them, `repr(o)`, and `str(o.item())` if it has no `aval` and its `size` is 1 (`/repo/haiku/_src/dot.py` 239-244, 385-390). -/
structure Obj where
  ref : Nat
  array : Option (List Nat × Str)
  repr : Str
  item : Option Str
  deriving DecidableEq, Repr

/-- `Node` (`/repo/haiku/_src/dot.py` 37). -/
structure Node where
  id : Obj
  title : Str
  outputs : List Obj
  deriving DecidableEq, Repr

/-- A `Graph` object (`/repo/haiku/_src/dot.py` 41-55) with its address and everything reached from it. -/
inductive Graph where
  | mk (ref : Nat) (title : Str) (nodes : List Node) (edges : List (Obj × Obj)) (subgraphs : List Graph)

/-- `id(g)` (`/repo/haiku/_src/dot.py` 293). -/
def Graph.ref : Graph → Nat
  | .mk r _ _ _ _ => r

/-- `g.title` (`/repo/haiku/_src/dot.py` 44). -/
def Graph.title : Graph → Str
  | .mk _ t _ _ _ => t

/-! ### Recording -/

/-- A `Graph` object in memory: its lists hold references (`/repo/haiku/_src/dot.py` 41-51).  `none` is the title of `Graph.create()`. -/
structure Cell where
  title : Option Str
  nodes : List Node
  edges : List (Obj × Obj)
  subs : List Nat
  deriving DecidableEq, Repr

/-- What recording changes: all `Graph` objects, the place of each being its address; `graph_stack`, top first; and `modules_with_named_call` (`/repo/haiku/_src/dot.py` 36, `/repo/haiku/_src/module.py` 44-58). -/
structure Mem where
  cells : List Cell
  stack : List Nat
  named : Bool
  deriving DecidableEq, Repr

/-- What a function does, as JAX sees it: operations with the values they get and return; calls of methods of modules, by `module_name` and method; calls of functions compiled or mapped by JAX, by the primitive and the function; functions
with derivatives of their own; `try: … except: …`; an exception; `hk.profiler_name_scopes(…)` (`/repo/haiku/_src/dot.py` 145-153, 203-236). -/
inductive Step where
  | prim (title : Str) (inputs outputs : List Obj)
  | method (module method : Str) (body : List Step)
  | call (primitive fn : Str) (body : List Step)
  | custom (body : List Step)
  | attempt (body handler : List Step)
  | raise (e : Err)
  | scopes (enabled : Bool)

/-- `Graph.create(title)` (`/repo/haiku/_src/dot.py` 49-51): the new object is the last one. -/
def Mem.create (m : Mem) (title : Option Str) : Mem := { m with cells := m.cells ++ [⟨title, [], [], []⟩] }

/-- A change of the lists of the graph on top of the stack (`graph_stack.peek()` at `/repo/haiku/_src/dot.py` 153, 209-212, 219). -/
def Mem.onTop (m : Mem) (f : Cell → Cell) : Mem :=
  match m.stack with
  | [] => m
  | r :: _ => { m with cells := m.cells.modify r f }

/-- `with graph_stack(elem):` (`/repo/haiku/_src/data_structures.py` 72-78). -/
def Mem.within (m : Mem) (elem : Nat) (body : Mem → Mem × Option Err) : Mem × Option Err :=
  let (m', e) := body { m with stack := elem :: m.stack }
  match m'.stack with
  | [] => (m', some .index)
  | top :: rest => ({ m' with stack := rest }, if top = elem then e else some .assertion)

/-- The title of the cluster of a call of a method (`/repo/haiku/_src/dot.py` 150-152). -/
def methodTitle (module method : Str) : Str := if method = "__call__".toList then module else module ++ " (".toList ++ method ++ ")".toList

/-- The title of the cluster of a call of a compiled function (`/repo/haiku/_src/dot.py` 218). -/
def callTitle (primitive fn : Str) : Str := primitive ++ " (".toList ++ fn ++ ")".toList

/-- `process_primitive` (`/repo/haiku/_src/dot.py` 203-214). -/
def recordPrim (m : Mem) (title : Str) (inputs outputs : List Obj) : Mem × Option Err :=
  match outputs with
  | [] => (m, some .index)
  | o :: _ => (m.onTop fun c => { c with nodes := c.nodes ++ [⟨o, title, outputs⟩], edges := c.edges ++ inputs.map fun i => (i, o) }, none)

/-- `process_call` and `process_map` (`/repo/haiku/_src/dot.py` 216-225): the graph is among the subgraphs before the function runs. -/
def recordCall (m : Mem) (title : Str) (body : Mem → Mem × Option Err) : Mem × Option Err :=
  let r := m.cells.length
  ((m.create (some title)).onTop fun c => { c with subs := c.subs ++ [r] }).within r body

/-- `method_hook` around a call of a method (`/repo/haiku/_src/dot.py` 145-153): only if the call returns, a graph with the title and the lists of `subg` is put among the subgraphs.  Simplification: `evolve` copies the lists, which
nobody changes any more. -/
def recordMethod (m : Mem) (title : Str) (body : Mem → Mem × Option Err) : Mem × Option Err :=
  let r := m.cells.length
  let (m, e) := (m.create none).within r body
  match e with
  | some e => (m, some e)
  | none =>
    match m.cells[r]? with
    | none => (m, some .index)
    | some c =>
      let r' := m.cells.length
      ({ m with cells := m.cells ++ [{ c with title := some title }] }.onTop fun c => { c with subs := c.subs ++ [r'] }, none)

mutual

/-- One thing the function does (`/repo/haiku/_src/dot.py` 145-153, 203-236).  With named calls on, a `__call__` runs in a compiled function of its own (`/repo/haiku/_src/module.py` 419-421); the name shown is taken to be that of the module. -/
def exec : Step → Mem → Mem × Option Err
  | .prim title inputs outputs, m => recordPrim m title inputs outputs
  | .method module method body, m =>
    recordMethod m (methodTitle module method) fun m =>
      if m.named = true ∧ method = "__call__".toList then recordCall m (callTitle "named_call".toList module) (execAll body) else execAll body m
  | .call primitive fn body, m => recordCall m (callTitle primitive fn) (execAll body)
  | .custom body, m => execAll body m
  | .attempt body handler, m =>
    match execAll body m with
    | (m, none) => (m, none)
    | (m, some _) => execAll handler m
  | .raise e, m => (m, some e)
  | .scopes enabled, m => ({ m with named := enabled }, none)

/-- The things a function does, up to the first exception (`/repo/haiku/_src/dot.py` 158). -/
def execAll : List Step → Mem → Mem × Option Err
  | [], m => (m, none)
  | s :: ss, m =>
    match exec s m with
    | (m, none) => execAll ss m
    | (m, some e) => (m, some e)

end

/-- `to_graph(fun)(*args)` (`/repo/haiku/_src/dot.py` 135-163): the address of the graph.  Simplification: no function recorded uses `to_graph` itself. -/
def toGraph (m : Mem) (name : Str) (body : List Step) : Mem × Except Err Nat :=
  let r := m.cells.length
  let (m, e) := (m.create (some name)).within r (execAll body)
  (m, match e with | none => .ok r | some e => .error e)

/-! ### Texts -/

/-- `_format_val` (`/repo/haiku/_src/dot.py` 239-244). -/
def formatVal (o : Obj) : Str :=
  match o.array with
  | none => o.repr
  | some (shape, dtype) => simpleDtype dtype ++ "[".toList ++ join ",".toList (shape.map natStr) ++ "]".toList

/-- `s.replace(c, new)` for one character `c`, in `html.escape` (`/repo/haiku/_src/dot.py` 248). -/
def substitute (c : Char) (new : String) (s : Str) : Str := s.flatMap fun d => if d = c then new.toList else [d]

/-- `escape` (`/repo/haiku/_src/dot.py` 247-248): `html.escape` replaces one character after the other. -/
def escape (s : Str) : Str := substitute '\'' "&#x27;" (substitute '"' "&quot;" (substitute '>' "&gt;" (substitute '<' "&lt;" (substitute '&' "&amp;" s))))

mutual

/-- `_max_depth` (`/repo/haiku/_src/dot.py` 252-256). -/
def maxDepth : Graph → Nat
  | .mk _ _ _ _ [] => 1
  | .mk _ _ _ _ (g :: gs) => 1 + max 0 (maxDepths (g :: gs))

/-- The greatest of the depths of the subgraphs, at least 0 (`/repo/haiku/_src/dot.py` 254). -/
def maxDepths : List Graph → Nat
  | [] => 0
  | g :: gs => max (maxDepth g) (maxDepths gs)

end

/-- `_scaled_font_size` (`/repo/haiku/_src/dot.py` 259-260), in exact arithmetic. -/
def fontSize : Int → Nat
  | .ofNat d => 14 * 7 ^ d / 5 ^ d
  | .negSucc d => 14 * 5 ^ (d + 1) / 7 ^ (d + 1)

/-- `format_path` (`/repo/haiku/_src/dot.py` 268-277); a path is given by the texts of its keys. -/
def formatPath (isTuple : Bool) (path : List Str) : Except Err Str :=
  if isTuple then
    match path with
    | [] => .error .index
    | p :: ps => .ok ("output[".toList ++ p ++ "]".toList ++ if ps = [] then [] else ": ".toList ++ join "/".toList ps)
  else .ok ("output".toList ++ if path = [] then [] else ": ".toList ++ join "/".toList path)

/-! ### Drawing -/

/-- The lines of the text: the head of a cluster, with the depth that scales its font; a node, with the name of the output it is; the end of a cluster; an edge, with the number of the copy of an argument it starts from; a copy of an
argument, with its path; a captured value (`/repo/haiku/_src/dot.py` 292-301, 320-327, 333, 343-345, 375-381, 392-397). -/
inductive Line where
  | opening (ref : Nat) (depth : Int) (title : Str)
  | node (n : Node) (out : Option Str)
  | closing (ref : Nat)
  | edge (a : Nat) (use : Option Nat) (b : Nat)
  | arg (o : Obj) (use : Nat) (path : List Str)
  | capture (o : Obj)
  deriving DecidableEq, Repr

/-- What drawing changes: `lines`, `used_argids`, `argid_usecount`, `op_outids` and `captures` (`/repo/haiku/_src/dot.py` 279-283). -/
structure Draw where
  lines : List Line
  used : List Nat
  count : Dict Nat Nat
  made : List Nat
  captures : List Obj
  deriving DecidableEq, Repr

/-- What does not change: `argids`, `outids` and `outname` (`/repo/haiku/_src/dot.py` 284-286). -/
structure Names where
  args : List Nat
  outs : List Nat
  outname : Dict Nat Str
  deriving DecidableEq, Repr

/-- `argid_usecount[a]`: missing keys of a `Counter` count 0 (`/repo/haiku/_src/dot.py` 341). -/
def useCount (count : Dict Nat Nat) (a : Nat) : Nat := (count.get? a).getD 0

/-- The loop over the nodes (`/repo/haiku/_src/dot.py` 303-327).  Simplification: `outname` is taken to have every address in `outids`. -/
def drawNode (nm : Names) (d : Draw) (n : Node) : Draw :=
  { d with made := d.made ++ n.outputs.map Obj.ref
           lines := d.lines ++ [.node n (if n.id.ref ∈ nm.outs then some ((nm.outname.get? n.id.ref).getD []) else none)] }

/-- The loop over the edges (`/repo/haiku/_src/dot.py` 335-346). -/
def drawEdge (nm : Names) (d : Draw) (e : Obj × Obj) : Draw :=
  let captures := if e.1.ref ∉ nm.args ∧ e.1.ref ∉ d.made then d.captures ++ [e.1] else d.captures
  if e.1.ref ∈ nm.args then
    let i := useCount d.count e.1.ref
    { d with captures := captures, count := d.count.set e.1.ref (i + 1), lines := d.lines ++ [.edge e.1.ref (some i) e.2.ref], used := d.used ++ [e.1.ref] }
  else { d with captures := captures, lines := d.lines ++ [.edge e.1.ref none e.2.ref], used := d.used ++ [e.1.ref] }

mutual

/-- `render_graph` (`/repo/haiku/_src/dot.py` 288-346); `inner` is whether there is a parent. -/
def render (nm : Names) : Graph → Bool → Int → Draw → Draw
  | .mk ref title nodes edges subgraphs, inner, depth, d =>
    let d := if inner then { d with lines := d.lines ++ [.opening ref depth title] } else d
    let d := nodes.foldl (drawNode nm) d
    let d := renderAll nm subgraphs (depth - 1) d
    let d := if inner then { d with lines := d.lines ++ [.closing ref] } else d
    edges.foldl (drawEdge nm) d

/-- `for s in g.subgraphs: render_graph(s, parent=g, depth=depth - 1)` (`/repo/haiku/_src/dot.py` 329-330). -/
def renderAll (nm : Names) : List Graph → Int → Draw → Draw
  | [], _, d => d
  | g :: gs, depth, d => renderAll nm gs depth (render nm g true depth d)

end

/-- The loop over the arguments (`/repo/haiku/_src/dot.py` 352-381). -/
def drawArg (d : Draw) (a : List Str × Option Obj) : Draw :=
  match a.2 with
  | none => d
  | some o => if o.ref ∉ d.used then d else { d with lines := d.lines ++ (List.range (useCount d.count o.ref)).map fun i => .arg o i a.1 }

/-- The loop over the captured values (`/repo/haiku/_src/dot.py` 383-397). -/
def drawCapture (d : Draw) (o : Obj) : Draw := { d with lines := d.lines ++ [.capture o] }

/-- What a function got and returned: the leaves of `args` with their paths, `none` being `None`; whether `outputs` is a tuple, and its leaves (`/repo/haiku/_src/dot.py` 263, 284-286, 352). -/
structure Ends where
  args : List (List Str × Option Obj)
  isTuple : Bool
  outs : List (List Str × Option Obj)
  deriving DecidableEq, Repr

/-- The `outname` of the leaves (`/repo/haiku/_src/dot.py` 286): of two paths of one object the later one is kept. -/
def outNames (isTuple : Bool) : List (List Str × Option Obj) → Dict Nat Str → Except Err (Dict Nat Str)
  | [], d => .ok d
  | (path, o) :: rest, d => do
    let t ← formatPath isTuple path
    match o with
    | none => outNames isTuple rest d
    | some o => outNames isTuple rest (d.set o.ref t)

/-- The leaves `jax.tree_leaves` gives, which leaves out `None` (`/repo/haiku/_src/dot.py` 284-285). -/
def leaves (l : List (List Str × Option Obj)) : List Obj := l.filterMap Prod.snd

/-- All lines of the body (`/repo/haiku/_src/dot.py` 279-397). -/
def draw (g : Graph) (ends : Ends) : Except Err Draw := do
  let outname ← outNames ends.isTuple ends.outs []
  let nm : Names := ⟨(leaves ends.args).map Obj.ref, (leaves ends.outs).map Obj.ref, outname⟩
  let d := render nm g false (maxDepth g) ⟨[], [], [], [], []⟩
  let d := ends.args.foldl drawArg d
  .ok (d.captures.foldl drawCapture d)

/-! ### The text -/

/-- The label of a node (`/repo/haiku/_src/dot.py` 304-311). -/
def nodeLabel (n : Node) (out : Option Str) : Str :=
  let label := "<b>".toList ++ escape n.title ++ "</b>".toList ++ n.outputs.flatMap fun o => "<br/>".toList ++ formatVal o
  match out with
  | none => label
  | some t => "<b>".toList ++ escape t ++ "</b><br/>".toList ++ label

/-- The label of a copy of an argument (`/repo/haiku/_src/dot.py` 361-371). -/
def argLabel (o : Obj) (use : Nat) (path : List Str) : Except Err Str :=
  match path with
  | [] => .error .index
  | p :: ps =>
    let label := "<b>args[".toList ++ escape p ++ "]".toList ++ (if ps = [] then [] else ": ".toList ++ join "/".toList ps) ++ "</b>".toList
    let label := label ++ if o.array.isSome then "<br/>".toList ++ escape (formatVal o) else []
    .ok (if use > 0 then "<b>(reuse)</b><br/>".toList ++ label else label)

/-- The label of a captured value (`/repo/haiku/_src/dot.py` 385-390). -/
def captureLabel (o : Obj) : Str :=
  match o.item with
  | some t => "<b>".toList ++ t ++ "</b>".toList
  | none => "<b>".toList ++ escape (formatVal o) ++ "</b>".toList

/-- The label of a graph (`/repo/haiku/_src/dot.py` 299, 403). -/
def graphLabel (title : Str) : Str := "<b>".toList ++ escape title ++ "</b>".toList

/-- `f'{a}{i}'` (`/repo/haiku/_src/dot.py` 343, 375), or the address alone (`/repo/haiku/_src/dot.py` 320, 345, 392). -/
def dotName (a : Nat) (use : Option Nat) : Str :=
  natStr a ++ match use with | none => [] | some i => natStr i

/-- The text of a line; that of the head of a cluster has more than one (`/repo/haiku/_src/dot.py` 292-301, 320-327, 333, 343-345, 375-381, 392-397). -/
def Line.text : Line → Except Err (List Str)
  | .opening ref depth title => .ok [
      "subgraph cluster_".toList ++ natStr ref ++ " {".toList,
      "  style=\"rounded,filled\";".toList,
      "  fillcolor=\"#F0F5F5\";".toList,
      "  color=\"#14234B;\";".toList,
      "  pad=0.1;".toList,
      "  fontsize=".toList ++ natStr (fontSize depth) ++ ";".toList,
      "  label = <".toList ++ graphLabel title ++ ">;".toList,
      "  labelloc = t;".toList]
  | .node n out =>
    let (color, fillcolor, style) := if out.isSome then ("#0053D6", "#AABFFF", "filled,bold") else ("#FFDB13", "#FFF26E", "filled")
    .ok [natStr n.id.ref ++ " [label=<".toList ++ nodeLabel n out ++ ">, ".toList ++ " id=\"node".toList ++ natStr n.id.ref ++ "\",".toList ++ " shape=rect,".toList ++ " style=\"".toList ++ style.toList ++ "\",".toList ++
      " tooltip=\" \",".toList ++ " fontcolor=\"black\",".toList ++ " color=\"".toList ++ color.toList ++ "\",".toList ++ " fillcolor=\"".toList ++ fillcolor.toList ++ "\"];".toList]
  | .closing ref => .ok ["}  // subgraph cluster_".toList ++ natStr ref]
  | .edge a use b => .ok [dotName a use ++ " -> ".toList ++ natStr b ++ ";".toList]
  | .arg o use path => do
    let label ← argLabel o use path
    let (fillcolor, fontcolor) := if use > 0 then ("#FFEACC", "#565858") else ("#FFDEAF", "black")
    .ok [dotName o.ref (some use) ++ " [label=<".toList ++ label ++ ">".toList ++ " id=\"node".toList ++ dotName o.ref (some use) ++ "\",".toList ++ " shape=rect,".toList ++ " style=\"filled\",".toList ++
      " fontcolor=\"".toList ++ fontcolor.toList ++ "\",".toList ++ " color=\"#FF8A4F\",".toList ++ " fillcolor=\"".toList ++ fillcolor.toList ++ "\"];".toList]
  | .capture o => .ok [natStr o.ref ++ " [label=<".toList ++ captureLabel o ++ ">".toList ++ " shape=rect,".toList ++ " style=\"filled\",".toList ++ " fontcolor=\"black\",".toList ++ " color=\"#A261FF\",".toList ++
      " fillcolor=\"#E6D6FF\"];".toList]

/-- The lines for one argument used more than once (`/repo/haiku/_src/dot.py` 417-428). -/
def hovers (p : Nat × Nat) : List Str :=
  if p.2 = 1 then []
  else (List.range p.2).flatMap fun a => (List.range p.2).map fun b =>
    if a = b then "%23node".toList ++ dotName p.1 (some a) ++ ":hover ".toList ++ "{ stroke-width: 0.2em; }".toList
    else "%23node".toList ++ dotName p.1 (some a) ++ ":hover ~ %23node".toList ++ dotName p.1 (some b) ++ " ".toList ++ "{ stroke-width: 0.2em; }".toList

/-- `head` (`/repo/haiku/_src/dot.py` 399-429). -/
def headLines (g : Graph) (count : Dict Nat Nat) : List Str :=
  ["digraph G {".toList, "rankdir = TD;".toList, "compound = true;".toList, "label = <".toList ++ graphLabel g.title ++ ">;".toList, "fontsize=".toList ++ natStr (fontSize (maxDepth g)) ++ ";".toList, "labelloc = t;".toList,
   "stylesheet = <".toList, "  data:text/css,".toList, "  @import url(https://fonts.googleapis.com/css?family=Roboto:400,700);".toList, "  svg text {".toList, "    font-family: 'Roboto';".toList, "  }".toList, "  .node text {".toList,
   "    font-size: 12px;".toList, "  }".toList] ++ count.flatMap hovers ++ [">".toList]

/-- `_graph_to_dot` (`/repo/haiku/_src/dot.py` 263-432), with dm-tree installed. -/
def graphToDot (g : Graph) (ends : Ends) : Except Err Str := do
  let d ← draw g ends
  let body ← d.lines.mapM Line.text
  .ok (join "\n".toList (headLines g d.count ++ body.flatten ++ ["} // digraph G".toList]) ++ "\n".toList)

/-- `to_dot(fun)(*args)` (`/repo/haiku/_src/dot.py` 80-90) up to drawing: named calls are off during the run and as before afterwards. -/
def toDotGraph (m : Mem) (name : Str) (body : List Step) : Mem × Except Err Nat :=
  let current := m.named
  let (m, r) := toGraph { m with named := false } name body
  ({ m with named := current }, r)

end Verif.Dot
