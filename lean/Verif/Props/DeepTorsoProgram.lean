import Verif.Props.AnyProgram

/-!
# The deep torso of the IMPALA example, with any number of sections and blocks, through `hk.transform` (C202)

`AtariDeepTorso` makes its convolutions and residual blocks in loops in `__call__`, while it calls them.  The convolutions have no names of their own and are numbered, the blocks have names with two numbers in
them.  Here it is a program in the sense of C197, for any list of sections.  What is computed with arrays is any function.
-/

set_option linter.unusedVariables false

namespace Verif.Props.DeepTorsoProgram
open Verif Names Frame Verif.Props.Names Verif.Props.ModuleTree Verif.Props.AnyProgram
open Verif.Props.Stack (Bare left keyNo)
open Verif.Props.StraightLine (Fresh bundle dir fresh_plain letter letter_plain number_fmt)
open Verif.Props.ModuleTree.Net (ident)

/-! ### The program -/

/-- The array functions in it, any functions here: `draw` is the initialiser of weights (haiku/_src/conv.py 185-190, haiku/_src/basic.py 168-172), `conv w b x` is the convolution with the bias added (haiku/_src/conv.py 195-215),
`dot w b x` is `jnp.dot(x, w) + b`, `scale x` is `x / 255.`, `pool` is `hk.max_pool`, `add` is `+`, `flat` is `hk.Flatten` (examples/impala/haiku_nets.py 79-130). -/
structure Ops where
  draw : List Nat → DType → Key → List Int
  conv : Arr → Arr → Val → Val
  dot : Arr → Arr → Val → Val
  scale : Val → Val
  pool : Val → Val
  relu : Val → Val
  add : Val → Val → Val
  flat : Val → Val

/-- The default name of the torso (examples/impala/haiku_nets.py 104, haiku/_src/utils.py 78-96). -/
def sTorso : Str := "atari_deep_torso".toList
/-- The default name of a convolution (haiku/_src/conv.py 285, haiku/_src/utils.py 78-96). -/
def sConv : Str := "conv2_d".toList
/-- The default name of a `Sequential` (haiku/_src/basic.py 87, haiku/_src/utils.py 78-96). -/
def sSequential : Str := "sequential".toList
/-- The default name of a `Flatten` (haiku/_src/reshape.py 121, haiku/_src/utils.py 78-96). -/
def sFlatten : Str := "flatten".toList
/-- The default name of a linear layer (haiku/_src/basic.py 130, haiku/_src/utils.py 78-96). -/
def sLinear : Str := "linear".toList
/-- The name of a block, `'residual_{}_{}'.format(i, j)` (examples/impala/haiku_nets.py 123). -/
def blockArg (i j : Nat) : Str := fmt (fmt "residual".toList i) j

/-- The array in a value. -/
def arr : Val → Arr
  | .arr a => a
  | _ => ⟨[], .f32, []⟩

/-- A layer with weights of shape `sw` and a bias of shape `sb`, of which it computes `g` (haiku/_src/conv.py 185-215, haiku/_src/basic.py 159-181).  The shapes are given, not read off the input. -/
def layer (draw : List Nat → DType → Key → List Int) (g : Arr → Arr → Val → Val) (sw sb : List Nat) (x : Val) : Code :=
  .ask (.param ['w'] sw .f32 (some fun sh dt => .draw fun k => .ret ⟨sh, dt, draw sh dt k⟩)) fun w =>
  .ask (.param ['b'] sb .f32 (some fun sh dt => .ret ⟨sh, dt, List.replicate sh.prod 0⟩)) fun b => .ret (g (arr w) (arr b) x)

/-- `hk.Conv2D(c, kernel_shape=[3, 3], ...)` on `cin` channels (haiku/_src/conv.py 151-215). -/
def conv (o : Ops) (cin c : Nat) (x : Val) : Code := layer o.draw o.conv [3, 3, cin, c] [c] x

/-- `ResidualBlock.__call__` (examples/impala/haiku_nets.py 86-101), where `m` modules are in scope: the convolutions are made first, then the `Sequential`, which calls them. -/
def block (o : Ops) (m c : Nat) (x : Val) : Code :=
  .make (.node sConv 0 []) (fun _ x => conv o c c x) <| .make (.node sConv 0 []) (fun _ x => conv o c c x) <|
  .make (.node sSequential 0 []) (fun _ x => .call m (o.relu x) fun y => .call (m + 1) (o.relu y) .ret) <|
  .call (m + 2) x fun y => .ret (o.add y x)

/-- The loop over blocks of section `i`, from block `j` on, of which there are `rem` (examples/impala/haiku_nets.py 122-124); `k` is what is done then. -/
def blocks (o : Ops) (i c : Nat) : Nat → Nat → Nat → Val → (Nat → Val → Code) → Code
  | _, 0, m, x, k => k m x
  | j, rem + 1, m, x, k => .make (.node (blockArg i j) 0 []) (fun _ x => block o m c x) <| .call m x fun y => blocks o i c (j + 1) rem (m + 1) y k

/-- The loop over sections (examples/impala/haiku_nets.py 112-124). -/
def sections (o : Ops) : Nat → Nat → List (Nat × Nat) → Nat → Val → (Nat → Val → Code) → Code
  | _, _, [], m, x, k => k m x
  | i, cin, (c, nb) :: ss, m, x, k =>
    .make (.node sConv 0 []) (fun _ x => conv o cin c x) <| .call m x fun y => blocks o i c 0 nb (m + 1) (o.pool y) fun m z => sections o (i + 1) c ss m z k

/-- The end of `AtariDeepTorso.__call__` (examples/impala/haiku_nets.py 126-130); `n` is the size of a flattened input. -/
def tail (o : Ops) (n : Nat) (m : Nat) (z : Val) : Code :=
  .make (.node sFlatten 0 []) (fun _ x => .ret (o.flat x)) <| .call m (o.relu z) fun y => .make (.node sLinear 0 []) (fun _ x => layer o.draw o.dot [n, 256] [256] x) <| .call (m + 1) y fun v => .ret (o.relu v)

/-- `AtariDeepTorso()(x)` (examples/impala/haiku_nets.py 104-130) on images of `cin` channels, with sections `ss`, where the example has `[(16, 2), (32, 2), (32, 2)]`.  In the example it is called in a `BatchApply` in another module. -/
def torso (o : Ops) (cin n : Nat) (ss : List (Nat × Nat)) (x : Val) : Code :=
  .make (.node sTorso 0 []) (fun _ x => sections o 0 cin ss 0 (o.scale x) (tail o n)) (.call 0 x .ret)

/-! ### Specification -/

/-- The name of the convolution of section `i`. -/
def convName (i : Nat) : Str := "atari_deep_torso/conv2_d".toList ++ if i = 0 then [] else '_' :: (toString i).toList
/-- The name of block `j` of section `i`. -/
def blockName (i j : Nat) : Str := "atari_deep_torso/residual_".toList ++ (toString i).toList ++ '_' :: (toString j).toList
/-- The names of its convolutions. -/
def first (i j : Nat) : Str := blockName i j ++ "/conv2_d".toList
def second (i j : Nat) : Str := blockName i j ++ "/conv2_d_1".toList
/-- The name of the linear layer. -/
def lastName : Str := "atari_deep_torso/linear".toList

/-- A layer with parameters. -/
structure Req where
  name : Str
  w : List Nat
  b : List Nat

/-- The layers of blocks. -/
def blockReqs (i c : Nat) : Nat → Nat → List Req
  | _, 0 => []
  | j, rem + 1 => ⟨first i j, [3, 3, c, c], [c]⟩ :: ⟨second i j, [3, 3, c, c], [c]⟩ :: blockReqs i c (j + 1) rem

/-- The layers of sections. -/
def sectionReqs : Nat → Nat → List (Nat × Nat) → List Req
  | _, _, [] => []
  | i, cin, (c, nb) :: ss => ⟨convName i, [3, 3, cin, c], [c]⟩ :: (blockReqs i c 0 nb ++ sectionReqs (i + 1) c ss)

/-- All layers. -/
def reqs (cin n : Nat) (ss : List (Nat × Nat)) : List Req := sectionReqs 0 cin ss ++ [⟨lastName, [n, 256], [256]⟩]

/-- The values of blocks, given the weights. -/
def blocksValue (o : Ops) (get : Str → Arr × Arr) (i : Nat) : Nat → Nat → Val → Val
  | _, 0, x => x
  | j, rem + 1, x => blocksValue o get i (j + 1) rem
      (o.add (o.conv (get (second i j)).1 (get (second i j)).2 (o.relu (o.conv (get (first i j)).1 (get (first i j)).2 (o.relu x)))) x)

/-- The values of sections. -/
def sectionsValue (o : Ops) (get : Str → Arr × Arr) : Nat → List (Nat × Nat) → Val → Val
  | _, [], x => x
  | i, (_, nb) :: ss, x => sectionsValue o get (i + 1) ss (blocksValue o get i 0 nb (o.pool (o.conv (get (convName i)).1 (get (convName i)).2 x)))

/-- The value of the torso. -/
def value (o : Ops) (get : Str → Arr × Arr) (ss : List (Nat × Nat)) (x : Val) : Val :=
  o.relu (o.dot (get lastName).1 (get lastName).2 (o.flat (o.relu (sectionsValue o get 0 ss (o.scale x)))))

/-- What a layer begins with. -/
def fresh (o : Ops) (k : Key) (r : Req) : Arr × Arr := (⟨r.w, .f32, o.draw r.w .f32 k⟩, ⟨r.b, .f32, List.replicate r.b.prod 0⟩)

/-- The parameters of layers, where layer number `i` has key number `i`. -/
def built (o : Ops) (k : Key) (rs : List Req) : PDict := rs.mapIdx fun i r => (r.name, [(['w'], (fresh o (keyNo k i) r).1), (['b'], (fresh o (keyNo k i) r).2)])

/-! ### Names -/

theorem digits (n : Nat) : (toString n).toList = Nat.toDigits 10 n := by simp [toString, Nat.repr]

theorem blockName_eq (i j : Nat) : dir (some sTorso) ++ blockArg i j = blockName i j := by
  unfold blockArg blockName fmt
  rw [digits, digits]
  show _ = "atari_deep_torso/residual_".toList ++ Nat.toDigits 10 i ++ _
  rw [show "atari_deep_torso/residual_".toList = dir (some sTorso) ++ ("residual".toList ++ ['_']) by decide]
  simp only [List.append_assoc, List.cons_append, List.nil_append]

theorem block_inj {i j i' j' : Nat} (h : blockArg i j = blockArg i' j') : i = i' ∧ j = j' :=
  ⟨(fmt_injective (fmt_injective h).1).2, (fmt_injective h).2⟩

theorem block_ident (i j : Nat) : IsIdent (blockArg i j) := by
  have hd : ∀ n, ∀ c ∈ Nat.toDigits 10 n, c.isAlphanum = true := fun n c hc => by
    unfold Char.isAlphanum
    rw [Nat.isDigit_of_mem_toDigits (b := 10) (n := n) (by omega) (by omega) hc, Bool.or_true]
  refine ⟨by simp [blockArg, fmt], fun c hc => ?_, fun c hc => ?_⟩
  · unfold blockArg fmt at hc
    rcases List.mem_append.1 hc with hc | hc
    · rcases List.mem_append.1 hc with hc | hc
      · exact (ident (s := "residual".toList) (by decide) (by decide)).2.1 c hc
      · rcases List.mem_cons.1 hc with rfl | hc
        · exact .inr rfl
        · exact .inl (hd _ c hc)
    · rcases List.mem_cons.1 hc with rfl | hc
      · exact .inr rfl
      · exact .inl (hd _ c hc)
  · have e : blockArg i j = 'r' :: ("esidual".toList ++ '_' :: Nat.toDigits 10 i ++ '_' :: Nat.toDigits 10 j) := rfl
    rw [e] at hc
    injection hc with hc
    rw [← hc]
    decide

/-- What names were asked for in the torso: `n` convolutions, and blocks before block `j` of section `i`. -/
structure Used (n i j : Nat) (used : List Str) : Prop where
  count : used.count sConv = n
  names : ∀ s ∈ used, s = sConv ∨ ∃ a b, s = blockArg a b ∧ (a < i ∨ a = i ∧ b < j)

theorem conv_plain : ¬ EndsInNumber sConv := letter_plain (by decide)

theorem conv_block (i j : Nat) : sConv ≠ blockArg i j := fun h => conv_plain (h ▸ number_fmt _ _)

theorem Used.fmt_not {n i j : Nat} {used : List Str} (h : Used n i j used) {s : Str} (hs : ∀ a, s ≠ fmt "residual".toList a) (d : Nat) : fmt s d ∉ used := fun hm => by
  rcases h.names _ hm with e | ⟨a, b, e, -⟩
  · exact conv_plain (e ▸ number_fmt _ _)
  · exact hs a (fmt_injective e).1

theorem head_ne {s : Str} (h : s.head? ≠ some 'r') (a : Nat) : s ≠ fmt "residual".toList a := fun e => h (by rw [e]; rfl)

theorem Used.plain_not {n i j : Nat} {used : List Str} (h : Used n i j used) {s : Str} (hs : ¬ EndsInNumber s) (hc : s ≠ sConv) : s ∉ used := fun hm => by
  rcases h.names _ hm with e | ⟨a, b, e, -⟩
  · exact hc e
  · exact hs (e ▸ number_fmt _ _)

theorem Used.block_not {n i j : Nat} {used : List Str} (h : Used n i j used) : blockArg i j ∉ used := fun hm => by
  rcases h.names _ hm with e | ⟨a, b, e, hab⟩
  · exact conv_block i j e.symm
  · obtain ⟨rfl, rfl⟩ := block_inj e
    omega

theorem Used.fresh_conv {n i j : Nat} {used : List Str} (h : Used n i j used) : Fresh used sConv :=
  ⟨ident (by decide) (by decide), .inl ⟨conv_plain, h.fmt_not (head_ne (by decide))⟩⟩

theorem Used.fresh_block {n i j : Nat} {used : List Str} (h : Used n i j used) : Fresh used (blockArg i j) := by
  refine ⟨block_ident i j, .inr ⟨fmt "residual".toList i, j, rfl, h.block_not, h.fmt_not (fun a e => ?_) i⟩⟩
  have := congrArg List.length e
  simp [fmt] at this

theorem Used.block {n i j : Nat} {used : List Str} (h : Used n i j used) : Used n i (j + 1) (used ++ [blockArg i j]) where
  count := by rw [List.count_append, h.count, List.count_singleton, if_neg (by simpa using (conv_block i j).symm), Nat.add_zero]
  names := fun s hs => by
    rcases List.mem_append.1 hs with hs | hs
    · exact (h.names s hs).imp id fun ⟨a, b, e, hab⟩ => ⟨a, b, e, by omega⟩
    · exact .inr ⟨i, j, List.mem_singleton.1 hs, by omega⟩

theorem Used.conv {n i j : Nat} {used : List Str} (h : Used n i j used) : Used (n + 1) i j (used ++ [sConv]) where
  count := by rw [List.count_append, h.count, List.count_singleton_self]
  names := fun s hs => by
    rcases List.mem_append.1 hs with hs | hs
    · exact h.names s hs
    · exact .inl (List.mem_singleton.1 hs)

theorem Used.next {n i j : Nat} {used : List Str} (h : Used n i j used) : Used n (i + 1) 0 used where
  count := h.count
  names := fun s hs => (h.names s hs).imp id fun ⟨a, b, e, hab⟩ => ⟨a, b, e, by omega⟩

theorem Used.nil : Used 0 0 0 [] := ⟨rfl, fun s hs => by cases hs⟩

theorem numbered_new {used : List Str} {n : Str} (h : n ∉ used) : numbered used n = n := by
  unfold numbered
  rw [if_pos (List.count_eq_zero.2 h)]

theorem Used.conv_name {i j k : Nat} {used : List Str} (h : Used i j k used) : dir (some sTorso) ++ numbered used sConv = convName i := by
  unfold numbered convName
  rw [h.count]
  split
  · rw [List.append_nil]
    decide
  · rw [← List.append_assoc]
    congr 1

/-! ### The names can be asked for -/

theorem layer_ok (draw : List Nat → DType → Key → List Int) (g : Arr → Arr → Val → Val) (sw sb : List Nat) (x : Val) (m : Nat) (used : List Str) : Ok (layer draw g sw sb x) m used := fun _ _ => trivial

theorem block_ok (o : Ops) (m c : Nat) (x : Val) : Ok (block o m c x) m [] := by
  have h1 : ∀ used : List Str, (∀ m ∈ used, letter m = true) → Fresh used sConv := fun used h => fresh_plain (ident (by decide) (by decide)) (letter_plain (by decide)) fun m hm => letter_plain (h m hm)
  have h2 : ∀ used : List Str, (∀ m ∈ used, letter m = true) → Fresh used sSequential := fun used h => fresh_plain (ident (by decide) (by decide)) (letter_plain (by decide)) fun m hm => letter_plain (h m hm)
  refine ⟨⟨h1 _ (by decide), fun x => layer_ok _ _ _ _ _ _ _, trivial⟩, ⟨h1 _ (by decide), fun x => layer_ok _ _ _ _ _ _ _, trivial⟩, ⟨h2 _ (by decide), fun x => ?_, trivial⟩, by omega, fun _ => trivial⟩
  exact ⟨by simp only [List.length_nil]; omega, fun _ => ⟨by simp only [List.length_nil]; omega, fun _ => trivial⟩⟩

theorem blocks_ok (o : Ops) (i c : Nat) {k : Nat → Val → Code} : ∀ (rem n j m : Nat) (x : Val) (used : List Str), Used n i j used →
    (∀ m x used, Used n i (j + rem) used → Ok (k m x) m used) → Ok (blocks o i c j rem m x k) m used
  | 0, n, j, m, x, used, h, hk => hk m x used h
  | rem + 1, n, j, m, x, used, h, hk => by
    refine ⟨⟨h.fresh_block, fun x => block_ok o m c x, trivial⟩, by omega, fun v => ?_⟩
    refine blocks_ok o i c rem n (j + 1) (m + 1) v _ h.block fun m x used hu => hk m x used ?_
    have e : j + 1 + rem = j + (rem + 1) := by omega
    rw [← e]
    exact hu

theorem sections_ok (o : Ops) {k : Nat → Val → Code} : ∀ (ss : List (Nat × Nat)) (i cin m : Nat) (x : Val) (used : List Str), Used i i 0 used →
    (∀ m x i used, Used i i 0 used → Ok (k m x) m used) → Ok (sections o i cin ss m x k) m used
  | [], i, cin, m, x, used, h, hk => hk m x i used h
  | (c, nb) :: ss, i, cin, m, x, used, h, hk => by
    refine ⟨⟨h.fresh_conv, fun x => layer_ok _ _ _ _ _ _ _, trivial⟩, by omega, fun v => ?_⟩
    exact blocks_ok o i c nb (i + 1) 0 (m + 1) _ _ h.conv fun m x used hu => sections_ok o ss (i + 1) c m x used hu.next hk

theorem tail_ok (o : Ops) (n m : Nat) (x : Val) {i : Nat} {used : List Str} (h : Used i i 0 used) : Ok (tail o n m x) m used := by
  have h1 : Fresh used sFlatten := ⟨ident (by decide) (by decide), .inl ⟨letter_plain (by decide), h.fmt_not (head_ne (by decide))⟩⟩
  have h2 : Fresh (used ++ [sFlatten]) sLinear := ⟨ident (by decide) (by decide), .inl ⟨letter_plain (by decide), fun d hm => by
    rcases List.mem_append.1 hm with hm | hm
    · exact h.fmt_not (head_ne (by decide)) d hm
    · exact letter_plain (m := sFlatten) (by decide) (List.mem_singleton.1 hm ▸ number_fmt _ _)⟩⟩
  exact ⟨⟨h1, fun _ => trivial, trivial⟩, by omega, fun _ => ⟨⟨h2, fun x => layer_ok _ _ _ _ _ _ _, trivial⟩, by omega, fun _ => trivial⟩⟩

theorem torso_ok (o : Ops) (cin n : Nat) (ss : List (Nat × Nat)) (x : Val) : Ok (torso o cin n ss x) 0 [] :=
  ⟨⟨fresh_plain (ident (by decide) (by decide)) (letter_plain (by decide)) (fun m hm => by cases hm), fun x => sections_ok o ss 0 cin 0 _ [] .nil fun m x i used h => tail_ok o n m x h, trivial⟩, by decide, fun _ => trivial⟩

/-! ### Running it -/

/-- A module that is made and called at once. -/
theorem step {frozen : Bool} {n : Str} {c : Nat → Val → Code} {k : Val → Code} {w : Option Str} {used : List Str} {ds : List Den} {m m' : Mem} {x v : Val} {q : Str} (hq : dir w ++ numbered used n = q)
    (h : flat frozen (c 0 x) (some q) [] ds m = .ok (v, m')) {l : Nat} (hl : l = ds.length) :
    ∃ D : Den, flat frozen (.make (.node n 0 []) c (.call l x k)) w used ds m = flat frozen (k v) w (used ++ [n]) (ds ++ [D]) m' := by
  subst hl
  refine ⟨denO (fun l q ks x m => flat frozen (c l x) (some q) [] (ds ++ ks) m) (dir w) used (.node n 0 []), ?_⟩
  rw [flat, flat, List.getElem?_concat_length]
  dsimp only
  have e : denO (fun l q ks x m => flat frozen (c l x) (some q) [] (ds ++ ks) m) (dir w) used (.node n 0 []) x m = .ok (v, m') := by
    rw [denO, denOs, hq, List.append_nil]
    exact h
  rw [e]
  rfl

/-- The layer `r` turns memory `m` to `m'`, and its weights are those of `get`. -/
def Runs (frozen : Bool) (o : Ops) (get : Str → Arr × Arr) (r : Req) (m m' : Mem) : Prop :=
  ∀ g x ds, flat frozen (layer o.draw g r.w r.b x) (some r.name) [] ds m = .ok (g (get r.name).1 (get r.name).2 x, m')

theorem block_flat {frozen : Bool} {o : Ops} {get : Str → Arr × Arr} {i j c : Nat} {m m' m'' : Mem} (h1 : Runs frozen o get ⟨first i j, [3, 3, c, c], [c]⟩ m m') (h2 : Runs frozen o get ⟨second i j, [3, 3, c, c], [c]⟩ m' m'') (x : Val)
    (ds : List Den) : flat frozen (block o ds.length c x) (some (blockName i j)) [] ds m =
      .ok (o.add (o.conv (get (second i j)).1 (get (second i j)).2 (o.relu (o.conv (get (first i j)).1 (get (first i j)).2 (o.relu x)))) x, m'') := by
  have n1 : dir (some (blockName i j)) ++ numbered [] sConv = first i j := by
    rw [show numbered [] sConv = sConv by decide]
    show blockName i j ++ ['/'] ++ sConv = _
    rw [List.append_assoc]
    rfl
  have n2 : dir (some (blockName i j)) ++ numbered [sConv] sConv = second i j := by
    rw [show numbered [sConv] sConv = "conv2_d_1".toList by decide]
    show blockName i j ++ ['/'] ++ _ = _
    rw [List.append_assoc]
    rfl
  let f : Nat → Str → List Den → Den := fun l q ks x m => flat frozen (conv o c c x) (some q) [] (ds ++ ks) m
  let d1 : Den := fun x m => flat frozen (conv o c c x) (some (first i j)) [] (ds ++ []) m
  let d2 : Den := fun x m => flat frozen (conv o c c x) (some (second i j)) [] (ds ++ [d1] ++ []) m
  let d3 : Den := fun x m => flat frozen (.call ds.length (o.relu x) fun y => .call (ds.length + 1) (o.relu y) .ret) (some (dir (some (blockName i j)) ++ numbered [sConv, sConv] sSequential)) [] (ds ++ [d1] ++ [d2] ++ []) m
  have e : flat frozen (block o ds.length c x) (some (blockName i j)) [] ds m = flat frozen (.call (ds.length + 2) x fun y => .ret (o.add y x)) (some (blockName i j)) [sConv, sConv, sSequential] (ds ++ [d1] ++ [d2] ++ [d3]) m := by
    rw [block, flat, denO, denOs, n1, flat, denO, denOs]
    erw [n2]
    rw [flat, denO, denOs]
    rfl
  have g1 : (ds ++ [d1] ++ [d2] ++ [])[ds.length]? = some d1 := by simp
  have g2 : (ds ++ [d1] ++ [d2] ++ [])[ds.length + 1]? = some d2 := by simp
  have g3 : (ds ++ [d1] ++ [d2] ++ [d3])[ds.length + 2]? = some d3 := by simp
  have v1 : ∀ x, d1 x m = .ok (o.conv (get (first i j)).1 (get (first i j)).2 x, m') := fun x => h1 o.conv x _
  have v2 : ∀ x, d2 x m' = .ok (o.conv (get (second i j)).1 (get (second i j)).2 x, m'') := fun x => h2 o.conv x _
  have v3 : d3 x m = .ok (o.conv (get (second i j)).1 (get (second i j)).2 (o.relu (o.conv (get (first i j)).1 (get (first i j)).2 (o.relu x))), m'') := by
    show flat frozen (.call ds.length (o.relu x) fun y => .call (ds.length + 1) (o.relu y) .ret) _ [] (ds ++ [d1] ++ [d2] ++ []) m = _
    rw [flat, g1]
    dsimp only
    rw [v1]
    dsimp only
    rw [flat, g2]
    dsimp only
    rw [v2]
    rfl
  rw [e, flat, g3]
  dsimp only
  rw [v3]
  rfl

theorem blocks_flat {frozen : Bool} {o : Ops} {get : Str → Arr × Arr} {i c : Nat} {k : Nat → Val → Code} (M : Nat → Mem) : ∀ (rem n j r : Nat) (x : Val) (used : List Str) (ds : List Den), Used n i j used →
    (∀ t q, (blockReqs i c j rem)[t]? = some q → Runs frozen o get q (M (r + t)) (M (r + t + 1))) →
    ∃ used' ds', Used n i (j + rem) used' ∧ flat frozen (blocks o i c j rem ds.length x k) (some sTorso) used ds (M r) =
      flat frozen (k ds'.length (blocksValue o get i j rem x)) (some sTorso) used' ds' (M (r + (blockReqs i c j rem).length))
  | 0, n, j, r, x, used, ds, h, hM => ⟨used, ds, h, rfl⟩
  | rem + 1, n, j, r, x, used, ds, h, hM => by
    have b := block_flat (hM 0 _ rfl) (hM 1 _ rfl) x ds
    obtain ⟨D, e⟩ := step (c := fun _ x => block o ds.length c x) (k := fun y => blocks o i c (j + 1) rem (ds.length + 1) y k) (w := some sTorso) (used := used) (n := blockArg i j)
      (by rw [numbered_new h.block_not, blockName_eq]) b rfl
    have hl : ds.length + 1 = (ds ++ [D]).length := by simp
    obtain ⟨used', ds', i1, i2⟩ := blocks_flat (k := k) M rem n (j + 1) (r + 2) (o.add (o.conv (get (second i j)).1 (get (second i j)).2 (o.relu (o.conv (get (first i j)).1 (get (first i j)).2 (o.relu x)))) x)
      (used ++ [blockArg i j]) (ds ++ [D]) h.block fun t q hq => by
        have := hM (t + 2) q hq
        have e : r + (t + 2) = r + 2 + t := by omega
        rw [e] at this
        exact this
    refine ⟨used', ds', ?_, ?_⟩
    · have e : j + 1 + rem = j + (rem + 1) := by omega
      rw [← e]
      exact i1
    · rw [blocks]
      refine e.trans ?_
      rw [hl]
      refine i2.trans ?_
      rw [blocksValue, blockReqs, List.length_cons, List.length_cons]
      have e : r + 2 + (blockReqs i c (j + 1) rem).length = r + ((blockReqs i c (j + 1) rem).length + 1 + 1) := by omega
      rw [e]

theorem sections_flat {frozen : Bool} {o : Ops} {get : Str → Arr × Arr} {k : Nat → Val → Code} (M : Nat → Mem) : ∀ (ss : List (Nat × Nat)) (i cin r : Nat) (x : Val) (used : List Str) (ds : List Den), Used i i 0 used →
    (∀ t q, (sectionReqs i cin ss)[t]? = some q → Runs frozen o get q (M (r + t)) (M (r + t + 1))) →
    ∃ i' used' ds', Used i' i' 0 used' ∧ flat frozen (sections o i cin ss ds.length x k) (some sTorso) used ds (M r) =
      flat frozen (k ds'.length (sectionsValue o get i ss x)) (some sTorso) used' ds' (M (r + (sectionReqs i cin ss).length))
  | [], i, cin, r, x, used, ds, h, hM => ⟨i, used, ds, h, rfl⟩
  | (c, nb) :: ss, i, cin, r, x, used, ds, h, hM => by
    have b := hM 0 _ rfl o.conv x ds
    obtain ⟨D, e⟩ := step (c := fun _ x => conv o cin c x) (k := fun y => blocks o i c 0 nb (ds.length + 1) (o.pool y) fun m z => sections o (i + 1) c ss m z k) (w := some sTorso) (used := used) (n := sConv) h.conv_name b rfl
    have hl : ds.length + 1 = (ds ++ [D]).length := by simp
    obtain ⟨used1, ds1, i1, i2⟩ := blocks_flat (o := o) (c := c) (k := fun m z => sections o (i + 1) c ss m z k) M nb (i + 1) 0 (r + 1) (o.pool (o.conv (get (convName i)).1 (get (convName i)).2 x)) (used ++ [sConv]) (ds ++ [D]) h.conv
      fun t q hq => by
        have := hM (t + 1) q (by
          rw [sectionReqs, List.getElem?_cons_succ, List.getElem?_append_left (List.getElem?_eq_some_iff.1 hq).1]
          exact hq)
        have e : r + (t + 1) = r + 1 + t := by omega
        rw [e] at this
        exact this
    obtain ⟨i', used', ds', j1, j2⟩ := sections_flat (k := k) M ss (i + 1) c (r + 1 + (blockReqs i c 0 nb).length) (blocksValue o get i 0 nb (o.pool (o.conv (get (convName i)).1 (get (convName i)).2 x))) used1 ds1 i1.next
      fun t q hq => by
        have := hM ((blockReqs i c 0 nb).length + t + 1) q (by
          rw [sectionReqs, List.getElem?_cons_succ, List.getElem?_append_right (by omega), Nat.add_sub_cancel_left]
          exact hq)
        have e : r + ((blockReqs i c 0 nb).length + t + 1) = r + 1 + (blockReqs i c 0 nb).length + t := by omega
        rw [e] at this
        exact this
    refine ⟨i', used', ds', j1, ?_⟩
    rw [sections]
    refine e.trans ?_
    rw [hl]
    refine i2.trans (j2.trans ?_)
    rw [sectionsValue, sectionReqs, List.length_cons, List.length_append]
    have e : r + 1 + (blockReqs i c 0 nb).length + (sectionReqs (i + 1) c ss).length = r + ((blockReqs i c 0 nb).length + (sectionReqs (i + 1) c ss).length + 1) := by omega
    rw [e]

theorem torso_flat {frozen : Bool} {o : Ops} {get : Str → Arr × Arr} (M : Nat → Mem) (cin n : Nat) (ss : List (Nat × Nat)) (x : Val)
    (hM : ∀ t q, (reqs cin n ss)[t]? = some q → Runs frozen o get q (M t) (M (t + 1))) :
    flat frozen (torso o cin n ss x) none [] [] (M 0) = .ok (value o get ss x, M (reqs cin n ss).length) := by
  have key : flat frozen (sections o 0 cin ss 0 (o.scale x) (tail o n)) (some sTorso) [] [] (M 0) = .ok (value o get ss x, M (reqs cin n ss).length) := by
    obtain ⟨i', used', ds', i1, i2⟩ := sections_flat (frozen := frozen) (o := o) (get := get) (k := tail o n) M ss 0 cin 0 (o.scale x) [] [] .nil fun t q hq => by
      rw [Nat.zero_add]
      exact hM t q (by rw [reqs, List.getElem?_append_left (List.getElem?_eq_some_iff.1 hq).1]; exact hq)
    refine i2.trans ?_
    rw [Nat.zero_add, tail]
    obtain ⟨D, e⟩ := step (frozen := frozen) (c := fun _ x => .ret (o.flat x)) (k := fun y => .make (.node sLinear 0 []) (fun _ x => layer o.draw o.dot [n, 256] [256] x) <| .call (ds'.length + 1) y fun v => .ret (o.relu v))
      (w := some sTorso) (used := used') (n := sFlatten) (ds := ds') (m := M (sectionReqs 0 cin ss).length) (x := o.relu (sectionsValue o get 0 ss (o.scale x))) rfl rfl rfl
    refine e.trans ?_
    have hl := hM (sectionReqs 0 cin ss).length ⟨lastName, [n, 256], [256]⟩ (by rw [reqs, List.getElem?_concat_length])
      o.dot (o.flat (o.relu (sectionsValue o get 0 ss (o.scale x)))) (ds' ++ [D])
    have hn : dir (some sTorso) ++ numbered (used' ++ [sFlatten]) sLinear = lastName := by
      rw [numbered_new fun hm => ?_]
      · decide
      · rcases List.mem_append.1 hm with hm | hm
        · exact i1.plain_not (letter_plain (by decide)) (by decide) hm
        · exact absurd (List.mem_singleton.1 hm) (by decide)
    obtain ⟨D', e'⟩ := step (c := fun _ x => layer o.draw o.dot [n, 256] [256] x) (k := fun v => .ret (o.relu v)) (l := ds'.length + 1) hn hl (by simp)
    refine e'.trans ?_
    rw [reqs, List.length_append, List.length_singleton]
    rfl
  obtain ⟨D, e⟩ := step (frozen := frozen) (c := fun _ x => sections o 0 cin ss 0 (o.scale x) (tail o n)) (k := .ret) (w := none) (used := []) (n := sTorso) (ds := []) (l := 0) (q := sTorso) (by decide) key rfl
  rw [torso]
  exact e.trans rfl

/-! ### Layers -/

theorem layer_apply (o : Ops) (get : Str → Arr × Arr) {r : Req} (hw : (get r.name).1.shape = r.w) (hb : (get r.name).2.shape = r.b) {m : Mem} (h1 : lookup2 m.params r.name ['w'] = some (get r.name).1)
    (h2 : lookup2 m.params r.name ['b'] = some (get r.name).2) (frozen : Bool) : Runs frozen o get r m m := fun g x ds => by
  rw [layer, flat, answer, show bundle (some r.name) = r.name from rfl, h1]
  dsimp only
  rw [if_pos hw]
  dsimp only
  rw [flat, answer, show bundle (some r.name) = r.name from rfl, h2]
  dsimp only
  rw [if_pos hb]
  rfl

theorem layer_init (o : Ops) (get : Str → Arr × Arr) {r : Req} {P : PDict} (h : r.name ∉ P.keys) (S : SDict) (k : Key) (c : Nat) (hg : get r.name = fresh o (keyNo k c) r) :
    Runs false o get r ⟨P, S, some ⟨left k c, []⟩⟩ ⟨P ++ [(r.name, [(['w'], (fresh o (keyNo k c) r).1), (['b'], (fresh o (keyNo k c) r).2)])], S, some ⟨left k (c + 1), []⟩⟩ := fun g x ds => by
  have hn : (PRNGSeq.mk (left k c) []).next = (some (keyNo k c), ⟨left k (c + 1), []⟩) := rfl
  have hp : P.get? r.name = none := (Dict.get?_eq_none_iff P _).2 h
  have hl : ∀ s, lookup2 P r.name s = none := fun s => by simp [lookup2, hp]
  have s2 : ∀ v u, store2 (store2 P r.name ['w'] v) r.name ['b'] u = P ++ [(r.name, [(['w'], v), (['b'], u)])] := fun v u => by
    unfold store2
    rw [Dict.get?_set_self, Dict.set_set, Dict.set_append h, hp]
    rfl
  have hl2 : ∀ v, lookup2 (store2 P r.name ['w'] v) r.name ['b'] = none := fun v => by rw [lookup2_store2, if_neg (fun h => absurd h.2 (by decide)), hl]
  rw [hg, layer, flat, answer, show bundle (some r.name) = r.name from rfl, hl]
  dsimp only
  rw [if_neg (by simp), draws, hn]
  dsimp only [draws]
  rw [if_pos rfl]
  dsimp only
  rw [flat, answer, show bundle (some r.name) = r.name from rfl]
  dsimp only
  rw [hl2]
  dsimp only [draws]
  rw [if_neg (by simp), if_pos rfl]
  dsimp only
  rw [s2, flat, fresh]
  rfl

/-! ### No name is there twice -/

theorem slash {t t' : Str} : ∀ {s s' : Str}, '/' ∉ s → '/' ∉ s' → s ++ '/' :: t = s' ++ '/' :: t' → s = s' ∧ t = t'
  | [], [], _, _, h => ⟨rfl, (List.cons.inj h).2⟩
  | [], c :: s', _, h2, h => absurd (List.mem_cons.2 (.inl (List.cons.inj h).1)) h2
  | c :: s, [], h1, _, h => absurd (List.mem_cons.2 (.inl (List.cons.inj h).1.symm)) h1
  | c :: s, c' :: s', h1, h2, h => by
    obtain ⟨e1, e2⟩ := List.cons.inj h
    obtain ⟨i1, i2⟩ := slash (fun hm => h1 (List.mem_cons_of_mem _ hm)) (fun hm => h2 (List.mem_cons_of_mem _ hm)) e2
    exact ⟨by rw [e1, i1], i2⟩

theorem fmt_slash {s : Str} (h : '/' ∉ s) (d : Nat) : '/' ∉ fmt s d := fun hm => by
  unfold fmt at hm
  rcases List.mem_append.1 hm with hm | hm
  · exact h hm
  · rcases List.mem_cons.1 hm with e | hm
    · exact absurd e (by decide)
    · exact absurd (Nat.isDigit_of_mem_toDigits (b := 10) (n := d) (by omega) (by omega) hm) (by decide)

theorem block_slash (i j : Nat) : '/' ∉ blockArg i j := fmt_slash (fmt_slash (by decide) i) j

/-- The name of a convolution in the torso. -/
def short (i : Nat) : Str := if i = 0 then sConv else fmt sConv i

theorem short_slash (i : Nat) : '/' ∉ short i := by
  unfold short
  split
  · decide
  · exact fmt_slash (by decide) i

theorem convName_eq (i : Nat) : convName i = dir (some sTorso) ++ short i := by
  unfold convName short
  split
  · decide
  · rw [digits]
    unfold fmt
    rw [← List.append_assoc]
    congr 1

theorem first_eq (i j : Nat) : first i j = dir (some sTorso) ++ (blockArg i j ++ '/' :: sConv) := by
  rw [first, ← blockName_eq, List.append_assoc]
  rfl

theorem second_eq (i j : Nat) : second i j = dir (some sTorso) ++ (blockArg i j ++ '/' :: "conv2_d_1".toList) := by
  rw [second, ← blockName_eq, List.append_assoc]
  rfl

theorem conv_inj {i j : Nat} (h : convName i = convName j) : i = j := by
  rw [convName_eq, convName_eq] at h
  have h := List.append_cancel_left h
  unfold short at h
  split at h <;> split at h
  · omega
  · exact absurd (h ▸ number_fmt _ _) conv_plain
  · exact absurd (h ▸ number_fmt _ _) conv_plain
  · exact (fmt_injective h).2

/-- Names of convolutions in block `j` of section `i`. -/
def InBlock (i j : Nat) (q : Str) : Prop := q = first i j ∨ q = second i j

theorem InBlock.eq {i j i' j' : Nat} {q : Str} (h : InBlock i j q) (h' : InBlock i' j' q) : i = i' ∧ j = j' := by
  have key : ∀ t t', dir (some sTorso) ++ (blockArg i j ++ '/' :: t) = dir (some sTorso) ++ (blockArg i' j' ++ '/' :: t') → i = i' ∧ j = j' := fun t t' e =>
    block_inj (slash (block_slash i j) (block_slash i' j') (List.append_cancel_left e)).1
  rcases h with rfl | rfl <;> rcases h' with e | e
  · rw [first_eq, first_eq] at e
    exact key _ _ e
  · rw [first_eq, second_eq] at e
    exact key _ _ e
  · rw [second_eq, first_eq] at e
    exact key _ _ e
  · rw [second_eq, second_eq] at e
    exact key _ _ e

theorem first_second (i j : Nat) : first i j ≠ second i j := fun e => by
  rw [first_eq, second_eq] at e
  exact absurd (slash (block_slash i j) (block_slash i j) (List.append_cancel_left e)).2 (by decide)

theorem InBlock.slash {i j : Nat} {q s : Str} (h : InBlock i j q) (hs : '/' ∉ s) : q ≠ dir (some sTorso) ++ s := fun e => by
  have key : ∀ t, dir (some sTorso) ++ (blockArg i j ++ '/' :: t) ≠ dir (some sTorso) ++ s := fun t e => by
    have := List.append_cancel_left e
    exact hs (this ▸ List.mem_append_right _ List.mem_cons_self)
  rcases h with rfl | rfl
  · rw [first_eq] at e
    exact key _ e
  · rw [second_eq] at e
    exact key _ e

theorem block_names (i c : Nat) : ∀ (rem j : Nat) (q : Str), q ∈ (blockReqs i c j rem).map Req.name → ∃ b, j ≤ b ∧ InBlock i b q
  | 0, j, q, h => by cases h
  | rem + 1, j, q, h => by
    rw [blockReqs, List.map_cons, List.map_cons, List.mem_cons, List.mem_cons] at h
    rcases h with h | h | h
    · exact ⟨j, Nat.le_refl _, .inl h⟩
    · exact ⟨j, Nat.le_refl _, .inr h⟩
    · obtain ⟨b, h1, h2⟩ := block_names i c rem (j + 1) q h
      exact ⟨b, by omega, h2⟩

theorem blocks_nodup (i c : Nat) : ∀ rem j : Nat, ((blockReqs i c j rem).map Req.name).Nodup
  | 0, j => List.nodup_nil
  | rem + 1, j => by
    rw [blockReqs, List.map_cons, List.map_cons, List.nodup_cons, List.nodup_cons, List.mem_cons]
    refine ⟨fun h => ?_, fun h => ?_, blocks_nodup i c rem (j + 1)⟩
    · rcases h with h | h
      · exact first_second i j h
      · obtain ⟨b, h1, h2⟩ := block_names i c rem (j + 1) _ h
        have := (h2.eq (.inl rfl)).2
        omega
    · obtain ⟨b, h1, h2⟩ := block_names i c rem (j + 1) _ h
      have := (h2.eq (.inr rfl)).2
      omega

theorem section_names : ∀ (ss : List (Nat × Nat)) (i cin : Nat) (q : Str), q ∈ (sectionReqs i cin ss).map Req.name → ∃ a, i ≤ a ∧ (q = convName a ∨ ∃ b, InBlock a b q)
  | [], i, cin, q, h => by cases h
  | (c, nb) :: ss, i, cin, q, h => by
    rw [sectionReqs, List.map_cons, List.map_append, List.mem_cons, List.mem_append] at h
    rcases h with h | h | h
    · exact ⟨i, Nat.le_refl _, .inl h⟩
    · obtain ⟨b, -, h2⟩ := block_names i c nb 0 q h
      exact ⟨i, Nat.le_refl _, .inr ⟨b, h2⟩⟩
    · obtain ⟨a, h1, h2⟩ := section_names ss (i + 1) c q h
      exact ⟨a, by omega, h2⟩

theorem sections_nodup : ∀ (ss : List (Nat × Nat)) (i cin : Nat), ((sectionReqs i cin ss).map Req.name).Nodup
  | [], i, cin => List.nodup_nil
  | (c, nb) :: ss, i, cin => by
    rw [sectionReqs, List.map_cons, List.map_append, List.nodup_cons, List.mem_append, List.nodup_append]
    refine ⟨fun h => ?_, blocks_nodup i c nb 0, sections_nodup ss (i + 1) c, fun q hq q' hq' e => ?_⟩
    · rcases h with h | h
      · obtain ⟨b, -, h2⟩ := block_names i c nb 0 _ h
        exact h2.slash (short_slash i) (convName_eq i)
      · obtain ⟨a, h1, h2 | ⟨b, h2⟩⟩ := section_names ss (i + 1) c _ h
        · have := conv_inj h2
          omega
        · exact h2.slash (short_slash i) (convName_eq i)
    · subst e
      obtain ⟨b, -, h2⟩ := block_names i c nb 0 _ hq
      obtain ⟨a, h1, h3 | ⟨b', h3⟩⟩ := section_names ss (i + 1) c _ hq'
      · exact h2.slash (short_slash a) (h3.trans (convName_eq a))
      · have := (h2.eq h3).1
        omega

theorem reqs_nodup (cin n : Nat) (ss : List (Nat × Nat)) : ((reqs cin n ss).map Req.name).Nodup := by
  have hl : lastName = dir (some sTorso) ++ sLinear := by decide
  rw [reqs, List.map_append, List.nodup_append]
  refine ⟨sections_nodup ss 0 cin, List.nodup_singleton _, fun q hq q' hq' e => ?_⟩
  have e' : q = lastName := e.trans (List.mem_singleton.1 hq')
  obtain ⟨a, -, h2 | ⟨b, h2⟩⟩ := section_names ss 0 cin _ hq
  · rw [h2, hl, convName_eq] at e'
    have e' := List.append_cancel_left e'
    unfold short at e'
    split at e'
    · exact absurd e' (by decide)
    · exact absurd (e' ▸ number_fmt _ _) (letter_plain (m := sLinear) (by decide))
  · exact h2.slash (s := sLinear) (by decide) (e'.trans hl)

theorem built_snoc (o : Ops) (k : Key) (rs : List Req) (r : Req) : built o k (rs ++ [r]) = built o k rs ++ [(r.name, [(['w'], (fresh o (keyNo k rs.length) r).1), (['b'], (fresh o (keyNo k rs.length) r).2)])] := by
  unfold built
  rw [List.mapIdx_append, List.mapIdx_singleton, Nat.zero_add]

theorem built_keys (o : Ops) (k : Key) (rs : List Req) : (built o k rs).keys = rs.map Req.name := by
  induction rs using List.reverseRecOn with
  | nil => rfl
  | append_singleton rs r ih =>
    rw [built_snoc, List.map_append, ← ih]
    exact List.map_append

/-- The weights that `init` draws, by name. -/
def drawn (o : Ops) (k : Key) (rs : List Req) (q : Str) : Arr × Arr :=
  ((lookup2 (built o k rs) q ['w']).getD ⟨[], .f32, []⟩, (lookup2 (built o k rs) q ['b']).getD ⟨[], .f32, []⟩)

theorem drawn_at (o : Ops) (k : Key) {rs : List Req} (h : (rs.map Req.name).Nodup) {t : Nat} {r : Req} (hr : rs[t]? = some r) : drawn o k rs r.name = fresh o (keyNo k t) r := by
  have hm : (r.name, [(['w'], (fresh o (keyNo k t) r).1), (['b'], (fresh o (keyNo k t) r).2)]) ∈ built o k rs := by
    unfold built
    refine List.mem_of_getElem? (i := t) ?_
    rw [List.getElem?_mapIdx, hr]
    rfl
  have hg : (built o k rs).get? r.name = some [(['w'], (fresh o (keyNo k t) r).1), (['b'], (fresh o (keyNo k t) r).2)] := Dict.get?_of_mem (by rw [built_keys]; exact h) hm
  unfold drawn lookup2
  rw [hg]
  rfl

/-! ### Theorems -/

/-- C202: `init` makes exactly these parameters, in order: for each section a convolution `conv2_d`, `conv2_d_1`, `conv2_d_2` and so on, followed by `conv2_d` and `conv2_d_1` in its blocks `residual_i_j`, and at the end
`linear`, all of them under `atari_deep_torso` and none under `sequential`; layer number `t` is drawn with key number `t`, biases are 0; no name is there twice. -/
theorem torso_init {w : World} (hw : Bare w) (o : Ops) (cin n : Nat) (ss : List (Nat × Nat)) (x : Val) (k : Key) :
    ((Prog.initT (.key k) (program (torso o cin n ss x))).run stackMach w).1 = .ok (.pair (.bundle (built o k (reqs cin n ss))) (.bundle [])) ∧ ((reqs cin n ss).map Req.name).Nodup := by
  refine ⟨?_, reqs_nodup cin n ss⟩
  have hr : (RngArg.key k).toSeq = .ok (some ⟨left k 0, []⟩) := rfl
  rw [init_code hw (torso_ok o cin n ss x) hr]
  have h := torso_flat (frozen := false) (o := o) (get := drawn o k (reqs cin n ss)) (fun t => ⟨built o k ((reqs cin n ss).take t), [], some ⟨left k t, []⟩⟩) cin n ss x fun t q hq => by
    obtain ⟨ht, e⟩ := List.getElem?_eq_some_iff.1 hq
    have hn : q.name ∉ (built o k ((reqs cin n ss).take t)).keys := by
      rw [built_keys]
      have := reqs_nodup cin n ss
      rw [← List.take_append_drop t (reqs cin n ss), List.map_append, List.nodup_append] at this
      refine fun hm => this.2.2 _ hm _ ?_ rfl
      rw [List.drop_eq_getElem_cons ht, e]
      exact List.mem_cons_self
    have hl := layer_init o (drawn o k (reqs cin n ss)) hn [] k t (drawn_at o k (reqs_nodup cin n ss) hq)
    have es : (reqs cin n ss).take (t + 1) = (reqs cin n ss).take t ++ [q] := by rw [List.take_succ_eq_append_getElem ht, e]
    rw [es, built_snoc, List.length_take, Nat.min_eq_left (by omega)]
    exact hl
  rw [List.take_length] at h
  exact congrArg (Except.map _) h

/-- C202: with parameters of these shapes, and whatever others there are, `apply` takes the input through the sections, each a convolution, a pooling and its blocks, with any rng or none; then comes the linear layer. -/
theorem torso_apply {w : World} (hw : Bare w) (o : Ops) (cin n : Nat) (ss : List (Nat × Nat)) (x : Val) {rng : RngArg} {r : Option PRNGSeq} (hr : rng.toSeq = .ok r) {P : PDict} (S : PDict) {get : Str → Arr × Arr}
    (hP : ∀ q ∈ reqs cin n ss, (get q.name).1.shape = q.w ∧ (get q.name).2.shape = q.b ∧ lookup2 (dict2 P) q.name ['w'] = some (get q.name).1 ∧ lookup2 (dict2 P) q.name ['b'] = some (get q.name).2) :
    ((Prog.applyT (some P) (some S) rng (program (torso o cin n ss x))).run stackMach w).1 = .ok (.pair (value o get ss x) (.bundle (dict2 S))) := by
  rw [apply_code hw (torso_ok o cin n ss x) hr]
  have h := torso_flat (frozen := true) (o := o) (get := get) (fun t => ⟨dict2 P, pairs (dict2 S), r⟩) cin n ss x fun t q hq => by
    obtain ⟨h1, h2, h3, h4⟩ := hP q (List.mem_of_getElem? hq)
    exact layer_apply o get h1 h2 h3 h4 true
  refine (congrArg (Except.map _) h).trans ?_
  exact congrArg (fun d => Except.ok (Val.pair _ (.bundle d))) (extract_new [] S r w)

/-! ### Example -/

/-- The layers of the example, with sections of 16, 32 and 32 channels and two blocks in each. -/
example (n : Nat) : (reqs 3 n [(16, 2), (32, 2), (32, 2)]).map (fun r => (String.ofList r.name, r.w)) = [
    ("atari_deep_torso/conv2_d", [3, 3, 3, 16]),
    ("atari_deep_torso/residual_0_0/conv2_d", [3, 3, 16, 16]), ("atari_deep_torso/residual_0_0/conv2_d_1", [3, 3, 16, 16]),
    ("atari_deep_torso/residual_0_1/conv2_d", [3, 3, 16, 16]), ("atari_deep_torso/residual_0_1/conv2_d_1", [3, 3, 16, 16]),
    ("atari_deep_torso/conv2_d_1", [3, 3, 16, 32]),
    ("atari_deep_torso/residual_1_0/conv2_d", [3, 3, 32, 32]), ("atari_deep_torso/residual_1_0/conv2_d_1", [3, 3, 32, 32]),
    ("atari_deep_torso/residual_1_1/conv2_d", [3, 3, 32, 32]), ("atari_deep_torso/residual_1_1/conv2_d_1", [3, 3, 32, 32]),
    ("atari_deep_torso/conv2_d_2", [3, 3, 32, 32]),
    ("atari_deep_torso/residual_2_0/conv2_d", [3, 3, 32, 32]), ("atari_deep_torso/residual_2_0/conv2_d_1", [3, 3, 32, 32]),
    ("atari_deep_torso/residual_2_1/conv2_d", [3, 3, 32, 32]), ("atari_deep_torso/residual_2_1/conv2_d_1", [3, 3, 32, 32]),
    ("atari_deep_torso/linear", [n, 256])] := rfl

namespace Demo
open Verif.Props.Stack.Net (world)

/-- Arrays of one number. -/
def ops : Ops where
  draw := fun sh _ k => [(Verif.Props.Stack.depth k : Int)]
  conv := fun w b x => .arr ⟨[], .f32, [w.data.sum * (arr x).data.sum]⟩
  dot := fun w b x => .arr ⟨[], .f32, [w.data.sum * (arr x).data.sum]⟩
  scale := id
  pool := fun x => .arr ⟨[], .f32, [(arr x).data.sum + 1]⟩
  relu := fun x => .arr ⟨[], .f32, [max 0 (arr x).data.sum]⟩
  add := fun x y => .arr ⟨[], .f32, [(arr x).data.sum + (arr y).data.sum]⟩
  flat := id

def x : Val := .arr ⟨[], .f32, [7]⟩

example : ((Prog.initT (.key (.root 0)) (program (torso ops 3 9 [(2, 1)] x))).run stackMach world).1 = .ok (.pair (.bundle [
    ("atari_deep_torso/conv2_d".toList, [(['w'], ⟨[3, 3, 3, 2], .f32, [1]⟩), (['b'], ⟨[2], .f32, [0, 0]⟩)]),
    ("atari_deep_torso/residual_0_0/conv2_d".toList, [(['w'], ⟨[3, 3, 2, 2], .f32, [2]⟩), (['b'], ⟨[2], .f32, [0, 0]⟩)]),
    ("atari_deep_torso/residual_0_0/conv2_d_1".toList, [(['w'], ⟨[3, 3, 2, 2], .f32, [3]⟩), (['b'], ⟨[2], .f32, [0, 0]⟩)]),
    ("atari_deep_torso/linear".toList, [(['w'], ⟨[9, 256], .f32, [4]⟩), (['b'], ⟨[256], .f32, List.replicate 256 0⟩)])]) (.bundle [])) :=
  (torso_init ⟨rfl, rfl⟩ ops 3 9 [(2, 1)] x (.root 0)).1

/-- Weights 2 everywhere. -/
def two (q : Req) : Str × List (Str × Arr) := (q.name, [(['w'], ⟨q.w, .f32, [2]⟩), (['b'], ⟨q.b, .f32, []⟩)])
def get (q : Str) : Arr × Arr := ((lookup2 ((reqs 3 9 [(2, 1)]).map two) q ['w']).getD ⟨[], .f32, []⟩, (lookup2 ((reqs 3 9 [(2, 1)]).map two) q ['b']).getD ⟨[], .f32, []⟩)

example : ((Prog.applyT (some ((reqs 3 9 [(2, 1)]).map two)) (some []) .none (program (torso ops 3 9 [(2, 1)] x))).run stackMach world).1 = .ok (.pair (.arr ⟨[], .f32, [150]⟩) (.bundle [])) :=
  torso_apply ⟨rfl, rfl⟩ ops 3 9 [(2, 1)] x rfl [] (get := get) (by
    intro q hq
    simp only [reqs, sectionReqs, blockReqs, List.append_nil, List.cons_append, List.nil_append, List.mem_cons, List.not_mem_nil, or_false] at hq
    rcases hq with rfl | rfl | rfl | rfl <;> exact ⟨by decide, by decide, by decide, by decide⟩)

end Demo

end Verif.Props.DeepTorsoProgram
