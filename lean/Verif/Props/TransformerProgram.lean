import Verif.Props.StraightLine
import Mathlib.Data.List.Nodup

/-!
# The language model of examples/transformer as a program, for any number of layers (C196)
-/

set_option linter.unusedVariables false

namespace Verif.Props.TransformerProgram
open Verif Names Frame Verif.Props.Names Verif.Props.ModuleTree
open Verif.Props.Stack (Start Spec left keyNo Same Bare)
open Verif.Props.StraightLine

/-! ### Modules that are made and called at once -/

/-- Programs in which modules are called once, where they are made: `use n c f r` is `n(…)(f values)` (haiku/_src/module.py 383-445, 474-500); the rest as in `Body` (haiku/_src/base.py 239-338, 602-619). -/
inductive Net where
  | ret (f : List Val → Val)
  | fn (f : List Val → Val) (rest : Net)
  | param (p : Spec) (rest : Net)
  | key (rest : Net)
  | use (name : Str) (call : Net) (f : List Val → Val) (rest : Net)

/-- As programs of C195, where `m` modules are in scope (haiku/_src/module.py 383-445, 474-500). -/
def Net.body : Net → Nat → Body
  | .ret f, _ => .ret f
  | .fn f r, m => .fn f (r.body m)
  | .param p r, m => .param p (r.body m)
  | .key r, m => .key (r.body m)
  | .use n c f r, m => .make n (c.body m) (.call m f (r.body (m + 1)))

/-- What is asked for. -/
def Net.events : Net → Option Str → List Str → List StraightLine.Event
  | .ret _, _, _ => []
  | .fn _ r, w, used => r.events w used
  | .param p r, w, used => .param (bundle w) p :: r.events w used
  | .key r, w, used => .key :: r.events w used
  | .use n c _ r, w, used => c.events (some (dir w ++ numbered used n)) [] ++ r.events w (used ++ [n])

/-- What is computed. -/
def Net.value (get : Str → Str → Arr) (keys : Nat → Key) : Net → Option Str → List Str → List Val → Nat → Val × Nat
  | .ret f, _, _, vs, n => (f vs, n)
  | .fn f r, w, used, vs, n => r.value get keys w used (vs ++ [f vs]) n
  | .param p r, w, used, vs, n => r.value get keys w used (vs ++ [.arr (get (bundle w) p.name)]) n
  | .key r, w, used, vs, n => r.value get keys w used (vs ++ [.key (keys n)]) (n + 1)
  | .use name c f r, w, used, vs, n =>
    let y := c.value get keys (some (dir w ++ numbered used name)) [] (vs ++ [f vs]) n
    r.value get keys w (used ++ [name]) (vs ++ [y.1]) y.2

/-- Names can be asked for where they are. -/
def Net.Ok : Net → List Str → Prop
  | .ret _, _ => True
  | .fn _ r, used => r.Ok used
  | .param _ r, used => r.Ok used
  | .key r, used => r.Ok used
  | .use n c _ r, used => Fresh used n ∧ c.Ok [] ∧ r.Ok (used ++ [n])

theorem body_ok : ∀ (b : Net) (m : Nat) (used : List Str), b.Ok used → StraightLine.Ok (b.body m) m used
  | .ret f, m, used, h => trivial
  | .fn f r, m, used, h => body_ok r m used h
  | .param p r, m, used, h => body_ok r m used h
  | .key r, m, used, h => body_ok r m used h
  | .use n c f r, m, used, h => ⟨h.1, body_ok c m [] h.2.1, Nat.lt_succ_self m, body_ok r (m + 1) _ h.2.2⟩

theorem body_events : ∀ (b : Net) (m : Nat) (w : Option Str) (used : List Str) (ms : List (List StraightLine.Event)), ms.length = m → StraightLine.events (b.body m) w used ms = b.events w used
  | .ret f, m, w, used, ms, h => rfl
  | .fn f r, m, w, used, ms, h => body_events r m w used ms h
  | .param p r, m, w, used, ms, h => by
    rw [Net.body, StraightLine.events, Net.events, body_events r m w used ms h]
  | .key r, m, w, used, ms, h => by
    rw [Net.body, StraightLine.events, Net.events, body_events r m w used ms h]
  | .use n c f r, m, w, used, ms, h => by
    rw [Net.body, StraightLine.events, StraightLine.events, Net.events, body_events c m _ _ ms h, body_events r (m + 1) _ _ _ (by rw [List.length_append, h]; rfl),
      List.getElem?_append_right (by omega), h, Nat.sub_self]
    rfl

theorem body_value (get : Str → Str → Arr) (keys : Nat → Key) : ∀ (b : Net) (m : Nat) (w : Option Str) (used : List Str) (ds : List (Val → Nat → Val × Nat)) (vs : List Val) (n : Nat), ds.length = m →
    StraightLine.value get keys (b.body m) w used ds vs n = b.value get keys w used vs n
  | .ret f, m, w, used, ds, vs, n, h => rfl
  | .fn f r, m, w, used, ds, vs, n, h => body_value get keys r m w used ds _ n h
  | .param p r, m, w, used, ds, vs, n, h => body_value get keys r m w used ds _ n h
  | .key r, m, w, used, ds, vs, n, h => body_value get keys r m w used ds _ _ h
  | .use name c f r, m, w, used, ds, vs, n, h => by
    rw [Net.body, StraightLine.value, StraightLine.value, List.getElem?_append_right (by omega), h, Nat.sub_self]
    dsimp only [List.getElem?_cons_zero]
    rw [body_value get keys r (m + 1) _ _ _ _ _ (by rw [List.length_append, h]; rfl), body_value get keys c m _ _ ds _ n h, Net.value]

/-! ### Parameters module by module -/

/-- What a program asks for, module by module. -/
inductive Item where
  | params (q : Str) (ps : List Spec)
  | key

/-- As events. -/
def Item.events : Item → List StraightLine.Event
  | .params q ps => ps.map (.param q)
  | .key => [.key]

/-- The initial values of the parameters of a module. -/
def initials (k : Key) : Nat → List Spec → Dict Str Arr
  | _, [] => []
  | c, p :: ps => (p.name, p.value k c) :: initials k (c + p.keys) ps

/-- The keys for them. -/
def needs (ps : List Spec) : Nat := (ps.map Spec.keys).sum

/-- One entry for each module. -/
def entries (k : Key) : Nat → List Item → PDict
  | _, [] => []
  | c, .params q ps :: is => (q, initials k c ps) :: entries k (c + needs ps) is
  | c, .key :: is => entries k (c + 1) is

/-- How many keys are taken. -/
def Item.keys : Item → Nat
  | .params _ ps => needs ps
  | .key => 1

/-- The names of the modules. -/
def names : List Item → List Str
  | [] => []
  | .params q _ :: is => q :: names is
  | .key :: is => names is

theorem entries_append (k : Key) : ∀ (a b : List Item) (c : Nat), entries k c (a ++ b) = entries k c a ++ entries k (c + (a.map Item.keys).sum) b
  | [], b, c => rfl
  | .params q ps :: a, b, c => by
    show (q, initials k c ps) :: entries k (c + needs ps) (a ++ b) = _
    rw [entries_append k a b, List.map_cons, List.sum_cons, ← Nat.add_assoc]
    rfl
  | .key :: a, b, c => by
    show entries k (c + 1) (a ++ b) = _
    rw [entries_append k a b, List.map_cons, List.sum_cons, ← Nat.add_assoc]
    rfl

theorem names_append : ∀ a b : List Item, names (a ++ b) = names a ++ names b
  | [], b => rfl
  | .params q ps :: a, b => congrArg (q :: ·) (names_append a b)
  | .key :: a, b => names_append a b

theorem names_flatMap {α : Type} (f : α → List Item) : ∀ l : List α, names (l.flatMap f) = l.flatMap fun a => names (f a)
  | [] => rfl
  | a :: l => by rw [List.flatMap_cons, names_append, names_flatMap f l, List.flatMap_cons]

/-- The parameters of one module, some of which are there. -/
theorem fold_params (k : Key) {q : Str} {d : PDict} (hq : q ∉ d.keys) : ∀ (ps : List Spec) (old : Dict Str Arr) (c : Nat), (old.keys ++ ps.map Spec.name).Nodup →
    (ps.map (StraightLine.Event.param q)).foldl (take k) (d ++ [(q, old)], c) = (d ++ [(q, old ++ initials k c ps)], c + needs ps)
  | [], old, c, h => by
    show (d ++ [(q, old)], c) = _
    rw [initials, List.append_nil]
    rfl
  | p :: ps, old, c, h => by
    have hget : Dict.get? (d ++ [(q, old)]) q = some old := by
      rw [Dict.get?_append, (Dict.get?_eq_none_iff d q).2 hq]
      show (Dict.get? [(q, old)] q) = _
      rw [Dict.get?_cons, if_pos rfl]
    have hset : ∀ v, Dict.set (d ++ [(q, old)]) q v = d ++ [(q, v)] := fun v => by
      rw [← Dict.set_append hq, Dict.set_set, Dict.set_append hq]
    have hp : p.name ∉ old.keys := fun hm => (List.nodup_append.1 h).2.2 _ hm _ List.mem_cons_self rfl
    rw [List.map_cons, List.foldl_cons, take]
    dsimp only
    rw [if_neg (by
      unfold lookup2
      rw [hget]
      show ¬ (Dict.get? old p.name).isSome = true
      rw [(Dict.get?_eq_none_iff _ _).2 hp]
      simp)]
    have : store2 (d ++ [(q, old)]) q p.name (p.value k c) = d ++ [(q, old ++ [(p.name, p.value k c)])] := by
      unfold store2
      rw [hget, hset, Option.getD_some, Dict.set_append hp]
    rw [this, fold_params k hq ps (old ++ [(p.name, p.value k c)]) (c + p.keys) (by
      have e : Dict.keys (old ++ [(p.name, p.value k c)]) = old.keys ++ [p.name] := by simp [Dict.keys]
      rw [e, List.append_assoc]
      exact h)]
    rw [initials, List.append_assoc, needs, needs, List.map_cons, List.sum_cons, ← Nat.add_assoc]
    rfl

/-- All parameters, if modules differ in their names and the parameters of a module as well. -/
theorem fold_items (k : Key) : ∀ (is : List Item) (d : PDict) (c : Nat), (d.keys ++ names is).Nodup → (∀ q ps, Item.params q ps ∈ is → ps ≠ [] ∧ (ps.map Spec.name).Nodup) →
    (is.flatMap Item.events).foldl (take k) (d, c) = (d ++ entries k c is, c + (is.map Item.keys).sum)
  | [], d, c, h, hp => by
    show (d, c) = _
    rw [entries, List.append_nil]
    rfl
  | .key :: is, d, c, h, hp => by
    rw [List.flatMap_cons, List.foldl_append]
    show (is.flatMap Item.events).foldl (take k) (d, c + 1) = _
    rw [fold_items k is d (c + 1) h fun q ps hm => hp q ps (List.mem_cons_of_mem _ hm), List.map_cons, List.sum_cons, ← Nat.add_assoc]
    rfl
  | .params q ps :: is, d, c, h, hp => by
    obtain ⟨hne, hnd⟩ := hp q ps List.mem_cons_self
    have hq : q ∉ d.keys := fun hm => (List.nodup_append.1 h).2.2 _ hm _ List.mem_cons_self rfl
    rw [List.flatMap_cons, List.foldl_append]
    have first : (Item.events (.params q ps)).foldl (take k) (d, c) = (d ++ [(q, initials k c ps)], c + needs ps) := by
      cases ps with
      | nil => exact absurd rfl hne
      | cons p ps =>
        have hg : d.get? q = none := (Dict.get?_eq_none_iff d q).2 hq
        have e : take k (d, c) (.param q p) = (d ++ [(q, [(p.name, p.value k c)])], c + p.keys) := by
          rw [take]
          dsimp only
          rw [if_neg (by unfold lookup2; rw [hg]; simp)]
          unfold store2
          rw [hg, Dict.set_append hq]
          rfl
        show (ps.map (StraightLine.Event.param q)).foldl (take k) (take k (d, c) (.param q p)) = _
        rw [e, fold_params k hq ps [(p.name, p.value k c)] (c + p.keys) hnd, needs, needs, List.map_cons, List.sum_cons, ← Nat.add_assoc]
        rfl
    rw [first, fold_items k is _ _ (by
      have e : Dict.keys (d ++ [(q, initials k c ps)]) = d.keys ++ [q] := by simp [Dict.keys]
      rw [e, List.append_assoc]
      exact h) fun q ps hm => hp q ps (List.mem_cons_of_mem _ hm), List.map_cons, List.sum_cons, ← Nat.add_assoc, List.append_assoc]
    rfl

/-! ### The model -/

/-- The value that was computed `i` steps before the last. -/
def back (vs : List Val) (i : Nat) : Val := vs.reverse.getD i .unit

@[simp] theorem back_zero (vs : List Val) (v : Val) : back (vs ++ [v]) 0 = v := by simp [back]
@[simp] theorem back_succ (vs : List Val) (v : Val) (i : Nat) : back (vs ++ [v]) (i + 1) = back vs i := by simp [back]

/-- The array that a value is. -/
def arr : Val → Arr
  | .arr a => a
  | _ => ⟨[], .f32, []⟩

/-- The first of a pair. -/
def fst : Val → Val
  | .pair a _ => a
  | _ => .unit

/-- The second of a pair. -/
def snd : Val → Val
  | .pair _ b => b
  | _ => .unit

/-- What is not in the model: the initializers (`VarianceScaling` with the scale of the model for attention and dense blocks, the default of `hk.Linear`, and `TruncatedNormal` for embeddings), and the operations
on arrays.  `attend` is everything in attention between the projections, with the causal mask (haiku/_src/attention.py 73-82, 94, examples/transformer/model.py 38-40); `drop` is `hk.dropout` with the
rate (examples/transformer/model.py 93, 106, 110); `embed` looks up tokens (haiku/_src/embed.py 124-170); `mask` says which tokens are not padding (examples/transformer/train.py 71). -/
structure Ops where
  scaled : List Nat → DType → Key → List Int
  plain : List Nat → DType → Key → List Int
  normal : List Nat → DType → Key → List Int
  dot : Arr → Arr → Val → Val
  norm : Arr → Arr → Val → Val
  attend : Val → Val → Val → Val → Val
  gelu : Val → Val
  add : Val → Val → Val
  drop : Val → Val → Val
  embed : Arr → Val → Val
  mask : Val → Val

/-- The sizes: `d_model`, `num_heads * 64`, `vocab_size`, the length of texts, and the number of layers, which must not be 0 as the scale of initial values is two divided by it
(examples/transformer/train.py 63-64, examples/transformer/model.py 92). -/
structure Dims where
  model : Nat
  heads : Nat
  vocab : Nat
  length : Nat
  layers : Nat
  some_layer : 0 < layers

/-- An initializer that draws with a key, as `VarianceScaling` and `TruncatedNormal` do (haiku/_src/initializers.py 85-200; what is drawn is not in the model). -/
def drawn' (draw : List Nat → DType → Key → List Int) : Start := .random fun shape dtype k => ⟨shape, dtype, draw shape dtype k⟩
/-- `jnp.zeros` and `jnp.ones` (haiku/_src/basic.py 157, haiku/_src/layer_norm.py 87-88). -/
def filled (v : Int) : Start := .constant fun shape dtype => ⟨shape, dtype, List.replicate shape.prod v⟩

/-- The parameters of `hk.Linear` (haiku/_src/basic.py 166-175). -/
def linearSpecs (draw : List Nat → DType → Key → List Int) (n m : Nat) : List Spec := [⟨['w'], [n, m], .f32, drawn' draw⟩, ⟨['b'], [m], .f32, filled 0⟩]

/-- The parameters of `hk.LayerNorm` (haiku/_src/layer_norm.py 124-137). -/
def normSpecs (d : Nat) : List Spec := [⟨"scale".toList, [d], .f32, filled 1⟩, ⟨"offset".toList, [d], .f32, filled 0⟩]

/-- `Linear.__call__` on arrays whose last dimension is `n` (haiku/_src/basic.py 159-181). -/
def linear (o : Ops) (draw : List Nat → DType → Key → List Int) (n m : Nat) : Net :=
  .param ⟨['w'], [n, m], .f32, drawn' draw⟩ <| .param ⟨['b'], [m], .f32, filled 0⟩ <| .ret fun vs => o.dot (arr (back vs 1)) (arr (back vs 0)) (back vs 2)

/-- `LayerNorm.__call__` with `create_scale` and `create_offset` (haiku/_src/layer_norm.py 90-145, examples/transformer/model.py 117-122). -/
def layerNorm (o : Ops) (d : Nat) : Net :=
  .param ⟨"scale".toList, [d], .f32, filled 1⟩ <| .param ⟨"offset".toList, [d], .f32, filled 0⟩ <| .ret fun vs => o.norm (arr (back vs 1)) (arr (back vs 0)) (back vs 2)

/-- `CausalSelfAttention.__call__` (examples/transformer/model.py 28-42), which calls `MultiHeadAttention.__call__` (haiku/_src/attention.py 61-84); `_linear_projection` is transparent, so its layers are
made as if in `__call__` (haiku/_src/attention.py 86-94).  The input is the pair of hidden values and mask.  Simplification: the call of `super().__call__` enters the same module a second time, which
gives the same names. -/
def attention (o : Ops) (d m : Nat) : Net :=
  .use "query".toList (linear o o.scaled d m) (fun vs => fst (back vs 0)) <|
  .use "key".toList (linear o o.scaled d m) (fun vs => fst (back vs 1)) <|
  .use "value".toList (linear o o.scaled d m) (fun vs => fst (back vs 2)) <|
  .use "linear".toList (linear o o.scaled m m) (fun vs => o.attend (back vs 2) (back vs 1) (back vs 0) (snd (back vs 3))) <|
  .ret fun vs => back vs 0

/-- `DenseBlock.__call__` with the default widening (examples/transformer/model.py 56-61). -/
def dense (o : Ops) (d : Nat) : Net :=
  .use "linear".toList (linear o o.scaled d (4 * d)) (fun vs => back vs 0) <| .fn (fun vs => o.gelu (back vs 0)) <| .use "linear".toList (linear o o.scaled (4 * d) d) (fun vs => back vs 0) <| .ret fun vs => back vs 0

/-- `f'h{i}_…'` (examples/transformer/model.py 100-109). -/
def hname (i : Nat) (s : Str) : Str := 'h' :: (Nat.toDigits 10 i ++ '_' :: s)

/-- The loop over layers from layer `i` on, and the rest (examples/transformer/model.py 99-112). The value carried along is the pair of `h` and the mask. -/
def layers (o : Ops) (d m : Nat) : Nat → Nat → Net → Net
  | 0, _, r => r
  | n + 1, i, r =>
    .use (hname i "ln_1".toList) (layerNorm o d) (fun vs => fst (back vs 0)) <|
    .use (hname i "attn".toList) (attention o d m) (fun vs => .pair (back vs 0) (snd (back vs 1))) <|
    .key <| .fn (fun vs => .pair (o.add (fst (back vs 3)) (o.drop (back vs 0) (back vs 1))) (snd (back vs 3))) <|
    .use (hname i "ln_2".toList) (layerNorm o d) (fun vs => fst (back vs 0)) <|
    .use (hname i "mlp".toList) (dense o d) (fun vs => back vs 0) <|
    .key <| .fn (fun vs => .pair (o.add (fst (back vs 3)) (o.drop (back vs 0) (back vs 1))) (snd (back vs 3))) <|
    layers o d m n (i + 1) r

/-- `Transformer.__call__` (examples/transformer/model.py 77-114). -/
def transformer (o : Ops) (s : Dims) : Net := layers o s.model s.heads s.layers 0 <| .use "ln_f".toList (layerNorm o s.model) (fun vs => fst (back vs 0)) <| .ret fun vs => back vs 0

/-- `forward_fn` (examples/transformer/train.py 67-88), of the tokens. The property `embeddings` of `hk.Embed` (haiku/_src/embed.py 119-122) asks for a parameter of the module. -/
def forward (o : Ops) (s : Dims) : Net :=
  .use "embed".toList (.param ⟨"embeddings".toList, [s.vocab, s.model], .f32, drawn' o.normal⟩ <| .ret fun vs => o.embed (arr (back vs 0)) (back vs 1)) (fun vs => back vs 0) <|
  .param ⟨"pos_embs".toList, [s.length, s.model], .f32, drawn' o.normal⟩ <|
  .use "transformer".toList (transformer o s) (fun vs => .pair (o.add (back vs 1) (back vs 0)) (o.mask (back vs 2))) <|
  .use "linear".toList (linear o o.plain s.model s.vocab) (fun vs => back vs 0) <| .ret fun vs => back vs 0

/-! ### What it should ask for, and compute -/

/-- The full name of a module in layer `i`. -/
def full (i : Nat) (s : Str) : Str := "transformer/".toList ++ hname i s

/-- A layer: normalisation, the four projections of attention, a key for dropout, normalisation, the two layers of the dense block, a key for dropout. -/
def layerItems (o : Ops) (s : Dims) (i : Nat) : List Item :=
  [.params (full i "ln_1".toList) (normSpecs s.model), .params (full i "attn/query".toList) (linearSpecs o.scaled s.model s.heads), .params (full i "attn/key".toList) (linearSpecs o.scaled s.model s.heads),
    .params (full i "attn/value".toList) (linearSpecs o.scaled s.model s.heads), .params (full i "attn/linear".toList) (linearSpecs o.scaled s.heads s.heads), .key,
    .params (full i "ln_2".toList) (normSpecs s.model), .params (full i "mlp/linear".toList) (linearSpecs o.scaled s.model (4 * s.model)),
    .params (full i "mlp/linear_1".toList) (linearSpecs o.scaled (4 * s.model) s.model), .key]

/-- The embeddings. -/
def firstItems (o : Ops) (s : Dims) : List Item :=
  [.params "embed".toList [⟨"embeddings".toList, [s.vocab, s.model], .f32, drawn' o.normal⟩], .params ['~'] [⟨"pos_embs".toList, [s.length, s.model], .f32, drawn' o.normal⟩]]

/-- The last normalisation and the output layer. -/
def lastItems (o : Ops) (s : Dims) : List Item := [.params "transformer/ln_f".toList (normSpecs s.model), .params "linear".toList (linearSpecs o.plain s.model s.vocab)]

/-- All that should be asked for. -/
def allItems (o : Ops) (s : Dims) : List Item := firstItems o s ++ (List.range s.layers).flatMap (layerItems o s) ++ lastItems o s

section value
variable (o : Ops) (get : Str → Str → Arr) (keys : Nat → Key)

/-- A linear layer with the parameters under `q`. -/
def lin (q : Str) (x : Val) : Val := o.dot (get q ['w']) (get q ['b']) x
/-- A normalisation with the parameters under `q`. -/
def nrm (q : Str) (x : Val) : Val := o.norm (get q "scale".toList) (get q "offset".toList) x

/-- Attention of layer `i`. -/
def att (i : Nat) (x mask : Val) : Val :=
  lin o get (full i "attn/linear".toList) (o.attend (lin o get (full i "attn/query".toList) x) (lin o get (full i "attn/key".toList) x) (lin o get (full i "attn/value".toList) x) mask)

/-- The dense block of layer `i`. -/
def mlp (i : Nat) (x : Val) : Val := lin o get (full i "mlp/linear_1".toList) (o.gelu (lin o get (full i "mlp/linear".toList) x))

/-- Layer `i`, with two keys of its own. -/
def step (mask h : Val) (i : Nat) : Val :=
  let h' := o.add h (o.drop (.key (keys (2 * i))) (att o get i (nrm o get (full i "ln_1".toList) h) mask))
  o.add h' (o.drop (.key (keys (2 * i + 1))) (mlp o get i (nrm o get (full i "ln_2".toList) h')))

/-- The whole model. -/
def logits (layers : Nat) (tokens : Val) : Val :=
  let h := o.add (o.embed (get "embed".toList "embeddings".toList) tokens) (.arr (get ['~'] "pos_embs".toList))
  lin o get "linear".toList (nrm o get "transformer/ln_f".toList ((List.range layers).foldl (step o get keys (o.mask tokens)) h))
end value

/-! ### Names -/

theorem digits_mem {i : Nat} {c : Char} (h : c ∈ Nat.toDigits 10 i) : c.isDigit = true := Nat.isDigit_of_mem_toDigits (b := 10) (n := i) (by omega) (by omega) h

theorem split_first : ∀ {a b s t : Str}, '_' ∉ a → '_' ∉ b → a ++ '_' :: s = b ++ '_' :: t → a = b ∧ s = t
  | [], [], s, t, _, _, h => ⟨rfl, by injection h⟩
  | [], c :: b, s, t, _, hb, h => by
    injection h with h1
    exact absurd (h1 ▸ List.mem_cons_self) hb
  | c :: a, [], s, t, ha, _, h => by
    injection h with h1
    exact absurd (h1 ▸ List.mem_cons_self) ha
  | c :: a, d :: b, s, t, ha, hb, h => by
    injection h with h1 h2
    obtain ⟨rfl, rfl⟩ := split_first (fun hm => ha (List.mem_cons_of_mem _ hm)) (fun hm => hb (List.mem_cons_of_mem _ hm)) h2
    exact ⟨by rw [h1], rfl⟩

theorem hname_inj {i j : Nat} {s t : Str} (h : hname i s = hname j t) : i = j ∧ s = t := by
  unfold hname at h
  injection h with _ h
  have no : ∀ i, '_' ∉ Nat.toDigits 10 i := fun i hm => absurd (digits_mem hm) (by decide)
  obtain ⟨h1, h2⟩ := split_first (no i) (no j) h
  have := congrArg (fun ds => Nat.ofDigitChars 10 ds 0) h1
  refine ⟨?_, h2⟩
  have e : fmt [] i = fmt [] j := by
    unfold fmt
    rw [h1]
  exact (fmt_injective e).2

theorem full_inj {i j : Nat} {s t : Str} (h : full i s = full j t) : i = j ∧ s = t := hname_inj (List.append_cancel_left h)

theorem hname_fmt (i : Nat) (s : Str) (d : Nat) : fmt (hname i s) d = hname i (fmt s d) := by
  simp [fmt, hname]

theorem hname_ident (i : Nat) {s : Str} (h : ∀ c ∈ s, IdChar c) : IsIdent (hname i s) := by
  refine ⟨by simp [hname], fun c hc => ?_, fun c hc => ?_⟩
  · unfold hname at hc
    rcases List.mem_cons.1 hc with rfl | hc
    · exact .inl (by decide)
    rcases List.mem_append.1 hc with hc | hc
    · left
      unfold Char.isAlphanum
      rw [digits_mem hc, Bool.or_true]
    rcases List.mem_cons.1 hc with rfl | hc
    · exact .inr rfl
    · exact h c hc
  · unfold hname at hc
    injection hc with hc
    rw [← hc]
    decide

theorem hname_plain (i : Nat) {s : Str} (hs : s ≠ []) (h : letter s = true) : ¬ EndsInNumber (hname i s) := letter_plain (by
  unfold letter at h ⊢
  unfold hname
  have : ('h' :: (Nat.toDigits 10 i ++ '_' :: s)).getLast? = s.getLast? := by
    rw [List.getLast?_cons, List.getLast?_append, List.getLast?_cons]
    cases hl : s.getLast? with
    | none => exact absurd (List.getLast?_eq_none_iff.1 hl) hs
    | some c => rfl
  rw [this]
  exact h)

/-- Only names of layers before `i` were asked for. -/
def Before (i : Nat) (used : List Str) : Prop := ∀ m ∈ used, ∃ j < i, ∃ s, m = hname j s

/-- The names of layer `i`. -/
def four (i : Nat) : List Str := [hname i "ln_1".toList, hname i "attn".toList, hname i "ln_2".toList, hname i "mlp".toList]

theorem Before.next {i : Nat} {used : List Str} (h : Before i used) : Before (i + 1) (used ++ four i) := fun m hm => by
  rcases List.mem_append.1 hm with hm | hm
  · obtain ⟨j, hj, s, e⟩ := h m hm
    exact ⟨j, by omega, s, e⟩
  · simp only [four, List.mem_cons, List.not_mem_nil, or_false] at hm
    rcases hm with rfl | rfl | rfl | rfl <;> exact ⟨i, by omega, _, rfl⟩

theorem Before.not {i : Nat} {used : List Str} (h : Before i used) {l : List Str} {s : Str} (hs : s ∉ l) : hname i s ∉ used ++ l.map (hname i) := fun hm => by
  rcases List.mem_append.1 hm with hm | hm
  · obtain ⟨j, hj, t, e⟩ := h _ hm
    have := (hname_inj e).1
    omega
  · obtain ⟨t, ht, e⟩ := List.mem_map.1 hm
    exact hs ((hname_inj e).2 ▸ ht)

theorem numbered_new {used : List Str} {n : Str} (h : n ∉ used) : numbered used n = n := by
  unfold numbered
  rw [if_pos (List.count_eq_zero.2 h)]

theorem full_sub (i : Nat) (s t : Str) : full i s ++ '/' :: t = full i (s ++ '/' :: t) := by
  unfold full hname
  rw [List.append_assoc, List.cons_append, List.append_assoc, List.cons_append]

theorem snoc4 {used : List Str} {i : Nat} : used ++ [hname i "ln_1".toList] ++ [hname i "attn".toList] ++ [hname i "ln_2".toList] ++ [hname i "mlp".toList] = used ++ four i := by
  rw [List.append_assoc, List.append_assoc, List.append_assoc]
  rfl

/-! ### Names can be asked for -/

open Verif.Props.ModuleTree.Net (ident)

theorem fresh_lit {n : Str} (hv : validIdentifier n = true) (hl : '\n' ∉ n) (hn : letter n = true) {used : List Str} (h : ∀ m ∈ used, letter m = true) : Fresh used n :=
  fresh_plain (ident hv hl) (letter_plain hn) fun m hm => letter_plain (h m hm)

theorem linear_ok (o : Ops) (draw : List Nat → DType → Key → List Int) (n m : Nat) : (linear o draw n m).Ok [] := trivial

theorem attention_ok (o : Ops) (d m : Nat) : (attention o d m).Ok [] :=
  ⟨fresh_lit (by decide) (by decide) (by decide) (by decide), trivial, fresh_lit (by decide) (by decide) (by decide) (by decide), trivial, fresh_lit (by decide) (by decide) (by decide) (by decide), trivial,
    fresh_lit (by decide) (by decide) (by decide) (by decide), trivial, trivial⟩

theorem dense_ok (o : Ops) (d : Nat) : (dense o d).Ok [] :=
  ⟨fresh_lit (by decide) (by decide) (by decide) (by decide), trivial, fresh_lit (by decide) (by decide) (by decide) (by decide), trivial, trivial⟩

theorem idchars {s : Str} (h : s.all (fun c => c.isAlphanum || c == '_') = true) : ∀ c ∈ s, IdChar c := fun c hc => by
  have := List.all_eq_true.1 h c hc
  simpa [IdChar] using this

theorem fresh1 {i : Nat} {used : List Str} (h : Before i used) : Fresh used (hname i "ln_1".toList) := by
  refine ⟨hname_ident i (idchars (by decide)), .inr ⟨hname i "ln".toList, 1, ?_, ?_, ?_⟩⟩
  · rw [hname_fmt]
    rfl
  · have := h.not (l := []) (s := "ln_1".toList) (by decide)
    rwa [List.map_nil, List.append_nil] at this
  · have := h.not (l := []) (s := "ln".toList) (by decide)
    rwa [List.map_nil, List.append_nil] at this

theorem fresh2 {i : Nat} {used : List Str} (h : Before i used) : Fresh (used ++ [hname i "ln_1".toList]) (hname i "attn".toList) := by
  refine ⟨hname_ident i (idchars (by decide)), .inl ⟨hname_plain i (by decide) (by decide), fun d => ?_⟩⟩
  rw [hname_fmt]
  exact h.not (l := ["ln_1".toList]) (fun hm => by
    rw [List.mem_singleton] at hm
    exact absurd (show some 'a' = some 'l' from congrArg List.head? hm) (by decide))

theorem fresh3 {i : Nat} {used : List Str} (h : Before i used) : Fresh (used ++ [hname i "ln_1".toList] ++ [hname i "attn".toList]) (hname i "ln_2".toList) := by
  rw [List.append_assoc]
  refine ⟨hname_ident i (idchars (by decide)), .inr ⟨hname i "ln".toList, 2, ?_, ?_, ?_⟩⟩
  · rw [hname_fmt]
    rfl
  · exact h.not (l := ["ln_1".toList, "attn".toList]) (by decide)
  · exact h.not (l := ["ln_1".toList, "attn".toList]) (by decide)

theorem fresh4 {i : Nat} {used : List Str} (h : Before i used) : Fresh (used ++ [hname i "ln_1".toList] ++ [hname i "attn".toList] ++ [hname i "ln_2".toList]) (hname i "mlp".toList) := by
  rw [List.append_assoc, List.append_assoc]
  refine ⟨hname_ident i (idchars (by decide)), .inl ⟨hname_plain i (by decide) (by decide), fun d => ?_⟩⟩
  rw [hname_fmt]
  exact h.not (l := ["ln_1".toList, "attn".toList, "ln_2".toList]) (fun hm => by
    simp only [List.mem_cons, List.not_mem_nil, or_false] at hm
    rcases hm with hm | hm | hm
    · exact absurd (show some 'm' = some 'l' from congrArg List.head? hm) (by decide)
    · exact absurd (show some 'm' = some 'a' from congrArg List.head? hm) (by decide)
    · exact absurd (show some 'm' = some 'l' from congrArg List.head? hm) (by decide))

theorem layers_ok (o : Ops) (d m : Nat) {r : Net} : ∀ (n i : Nat) (used : List Str), Before i used → (∀ used', Before (i + n) used' → r.Ok used') → (layers o d m n i r).Ok used
  | 0, i, used, h, hr => hr used h
  | n + 1, i, used, h, hr => by
    refine ⟨fresh1 h, trivial, fresh2 h, attention_ok o d m, fresh3 h, trivial, fresh4 h, dense_ok o d, ?_⟩
    rw [snoc4]
    exact layers_ok o d m n (i + 1) _ h.next fun used' h' => hr used' (by rw [Nat.add_right_comm] at h'; exact h')

theorem transformer_ok (o : Ops) (s : Dims) : (transformer o s).Ok [] := layers_ok o s.model s.heads s.layers 0 [] (fun m hm => by cases hm) fun used h =>
  ⟨⟨ident (by decide) (by decide), .inl ⟨letter_plain (by decide), fun d hd => by
    obtain ⟨j, -, t, e⟩ := h _ hd
    have := congrArg List.head? e
    exact absurd this (by show some 'l' ≠ some 'h'; decide)⟩⟩, trivial, trivial⟩

theorem forward_ok (o : Ops) (s : Dims) : (forward o s).Ok [] :=
  ⟨fresh_lit (by decide) (by decide) (by decide) (by decide), trivial, fresh_lit (by decide) (by decide) (by decide) (by decide), transformer_ok o s,
    fresh_lit (by decide) (by decide) (by decide) (by decide), trivial, trivial⟩

/-! ### What is asked for -/

theorem linear_events (o : Ops) (draw : List Nat → DType → Key → List Int) (n m : Nat) (q : Str) : (linear o draw n m).events (some q) [] = (Item.params q (linearSpecs draw n m)).events := rfl
theorem norm_events (o : Ops) (d : Nat) (q : Str) : (layerNorm o d).events (some q) [] = (Item.params q (normSpecs d)).events := rfl

theorem under (q t : Str) : dir (some q) ++ t = q ++ '/' :: t := by
  show q ++ ['/'] ++ t = _
  rw [List.append_assoc]
  rfl

theorem attention_events (o : Ops) (d m : Nat) (i : Nat) : (attention o d m).events (some (full i "attn".toList)) [] =
    (Item.params (full i "attn/query".toList) (linearSpecs o.scaled d m)).events ++ (Item.params (full i "attn/key".toList) (linearSpecs o.scaled d m)).events ++
    (Item.params (full i "attn/value".toList) (linearSpecs o.scaled d m)).events ++ (Item.params (full i "attn/linear".toList) (linearSpecs o.scaled m m)).events := by
  have e1 : full i "attn/query".toList = full i "attn".toList ++ '/' :: "query".toList := by rw [full_sub]; exact congrArg (full i) (by decide)
  have e2 : full i "attn/key".toList = full i "attn".toList ++ '/' :: "key".toList := by rw [full_sub]; exact congrArg (full i) (by decide)
  have e3 : full i "attn/value".toList = full i "attn".toList ++ '/' :: "value".toList := by rw [full_sub]; exact congrArg (full i) (by decide)
  have e4 : full i "attn/linear".toList = full i "attn".toList ++ '/' :: "linear".toList := by rw [full_sub]; exact congrArg (full i) (by decide)
  rw [e1, e2, e3, e4, ← under, ← under, ← under, ← under]
  rfl

theorem second : numbered ([] ++ ["linear".toList]) "linear".toList = "linear_1".toList := by decide

theorem dense_events (o : Ops) (d : Nat) (i : Nat) : (dense o d).events (some (full i "mlp".toList)) [] =
    (Item.params (full i "mlp/linear".toList) (linearSpecs o.scaled d (4 * d))).events ++ (Item.params (full i "mlp/linear_1".toList) (linearSpecs o.scaled (4 * d) d)).events := by
  have e1 : full i "mlp/linear".toList = full i "mlp".toList ++ '/' :: "linear".toList := by rw [full_sub]; exact congrArg (full i) (by decide)
  have e2 : full i "mlp/linear_1".toList = full i "mlp".toList ++ '/' :: "linear_1".toList := by rw [full_sub]; exact congrArg (full i) (by decide)
  rw [e1, e2, ← under, ← under, ← second]
  rfl

theorem inside (i : Nat) (s : Str) {used : List Str} (h : hname i s ∉ used) : dir (some "transformer".toList) ++ numbered used (hname i s) = full i s := by
  rw [numbered_new h]
  rfl

theorem layers_events (o : Ops) (s : Dims) (r : Net) : ∀ (n i : Nat) (used : List Str), Before i used → ∃ used', Before (i + n) used' ∧
    (layers o s.model s.heads n i r).events (some "transformer".toList) used = ((List.range' i n).flatMap (layerItems o s)).flatMap Item.events ++ r.events (some "transformer".toList) used'
  | 0, i, used, h => ⟨used, h, rfl⟩
  | n + 1, i, used, h => by
    obtain ⟨used', h1, h2⟩ := layers_events o s r n (i + 1) (used ++ four i) h.next
    refine ⟨used', by rw [Nat.add_right_comm] at h1; exact h1, ?_⟩
    have n1 := h.not (l := []) (s := "ln_1".toList) (by decide)
    rw [List.map_nil, List.append_nil] at n1
    have n2 : hname i "attn".toList ∉ used ++ [hname i "ln_1".toList] := h.not (l := ["ln_1".toList]) (by decide)
    have n3 : hname i "ln_2".toList ∉ used ++ [hname i "ln_1".toList] ++ [hname i "attn".toList] := by
      rw [List.append_assoc]
      exact h.not (l := ["ln_1".toList, "attn".toList]) (by decide)
    have n4 : hname i "mlp".toList ∉ used ++ [hname i "ln_1".toList] ++ [hname i "attn".toList] ++ [hname i "ln_2".toList] := by
      rw [List.append_assoc, List.append_assoc]
      exact h.not (l := ["ln_1".toList, "attn".toList, "ln_2".toList]) (by decide)
    rw [layers, Net.events, Net.events, Net.events, Net.events, Net.events, Net.events, Net.events, Net.events, snoc4, h2, inside i _ n1, inside i _ n2, inside i _ n3, inside i _ n4, norm_events, norm_events,
      attention_events, dense_events, List.range'_succ, List.flatMap_cons, List.flatMap_append]
    simp only [layerItems, List.flatMap_cons, List.flatMap_nil, List.append_assoc, List.append_nil, Item.events, List.cons_append, List.nil_append]

theorem forward_events (o : Ops) (s : Dims) : (forward o s).events none [] = (allItems o s).flatMap Item.events := by
  obtain ⟨used, hu, he⟩ := layers_events o s (.use "ln_f".toList (layerNorm o s.model) (fun vs => fst (back vs 0)) (.ret fun vs => back vs 0)) s.layers 0 [] (fun m hm => by cases hm)
  have hf : "ln_f".toList ∉ used := fun hm => by
    obtain ⟨j, -, t, e⟩ := hu _ hm
    exact absurd (congrArg List.head? e) (by show some 'l' ≠ some 'h'; decide)
  rw [Net.events, norm_events, numbered_new hf, Net.events, List.append_nil] at he
  rw [forward, Net.events, Net.events, Net.events, Net.events]
  show _ :: _ :: ((transformer o s).events (some "transformer".toList) [] ++ _) = _
  rw [transformer, he, allItems, List.flatMap_append, List.flatMap_append, List.range_eq_range']
  simp only [firstItems, lastItems, List.flatMap_cons, List.flatMap_nil, List.append_assoc, List.append_nil, Item.events, List.cons_append, List.nil_append, List.map_cons, List.map_nil]
  rfl

/-! ### What is computed -/

section value
variable (o : Ops) (get : Str → Str → Arr) (keys : Nat → Key)

theorem linear_value (draw : List Nat → DType → Key → List Int) (n m : Nat) (q : Str) (vs : List Val) (x : Val) (c : Nat) : (linear o draw n m).value get keys (some q) [] (vs ++ [x]) c = (lin o get q x, c) := by
  rw [linear, Net.value, Net.value, Net.value]
  simp only [back_zero, back_succ]
  rfl

theorem norm_value (d : Nat) (q : Str) (vs : List Val) (x : Val) (c : Nat) : (layerNorm o d).value get keys (some q) [] (vs ++ [x]) c = (nrm o get q x, c) := by
  rw [layerNorm, Net.value, Net.value, Net.value]
  simp only [back_zero, back_succ]
  rfl

theorem attention_value (d m : Nat) (i : Nat) (vs : List Val) (x mask : Val) (c : Nat) : (attention o d m).value get keys (some (full i "attn".toList)) [] (vs ++ [.pair x mask]) c = (att o get i x mask, c) := by
  have e1 : full i "attn/query".toList = full i "attn".toList ++ '/' :: "query".toList := by rw [full_sub]; exact congrArg (full i) (by decide)
  have e2 : full i "attn/key".toList = full i "attn".toList ++ '/' :: "key".toList := by rw [full_sub]; exact congrArg (full i) (by decide)
  have e3 : full i "attn/value".toList = full i "attn".toList ++ '/' :: "value".toList := by rw [full_sub]; exact congrArg (full i) (by decide)
  have e4 : full i "attn/linear".toList = full i "attn".toList ++ '/' :: "linear".toList := by rw [full_sub]; exact congrArg (full i) (by decide)
  rw [attention, Net.value, Net.value, Net.value, Net.value, Net.value]
  rw [linear_value, linear_value, linear_value, linear_value]
  dsimp only
  simp only [back_zero, back_succ]
  rw [att, e1, e2, e3, e4, ← under, ← under, ← under, ← under]
  rfl

theorem dense_value (d : Nat) (i : Nat) (vs : List Val) (x : Val) (c : Nat) : (dense o d).value get keys (some (full i "mlp".toList)) [] (vs ++ [x]) c = (mlp o get i x, c) := by
  have e1 : full i "mlp/linear".toList = full i "mlp".toList ++ '/' :: "linear".toList := by rw [full_sub]; exact congrArg (full i) (by decide)
  have e2 : full i "mlp/linear_1".toList = full i "mlp".toList ++ '/' :: "linear_1".toList := by rw [full_sub]; exact congrArg (full i) (by decide)
  rw [dense, Net.value, Net.value, Net.value, Net.value]
  rw [linear_value, linear_value]
  dsimp only
  simp only [back_zero]
  rw [mlp, e1, e2, ← under, ← under, ← second]
  rfl

theorem layers_value (d m : Nat) (r : Net) (mask : Val) : ∀ (n i : Nat) (used : List Str) (vs : List Val) (h : Val), Before i used → ∃ used' vs', Before (i + n) used' ∧
    (layers o d m n i r).value get keys (some "transformer".toList) used (vs ++ [.pair h mask]) (2 * i) =
      r.value get keys (some "transformer".toList) used' (vs' ++ [.pair ((List.range' i n).foldl (step o get keys mask) h) mask]) (2 * (i + n))
  | 0, i, used, vs, h, hb => ⟨used, vs, hb, rfl⟩
  | n + 1, i, used, vs, h, hb => by
    have n1 := hb.not (l := []) (s := "ln_1".toList) (by decide)
    rw [List.map_nil, List.append_nil] at n1
    have n2 : hname i "attn".toList ∉ used ++ [hname i "ln_1".toList] := hb.not (l := ["ln_1".toList]) (by decide)
    have n3 : hname i "ln_2".toList ∉ used ++ [hname i "ln_1".toList] ++ [hname i "attn".toList] := by
      rw [List.append_assoc]
      exact hb.not (l := ["ln_1".toList, "attn".toList]) (by decide)
    have n4 : hname i "mlp".toList ∉ used ++ [hname i "ln_1".toList] ++ [hname i "attn".toList] ++ [hname i "ln_2".toList] := by
      rw [List.append_assoc, List.append_assoc]
      exact hb.not (l := ["ln_1".toList, "attn".toList, "ln_2".toList]) (by decide)
    rw [layers, Net.value, norm_value, inside i _ n1, Net.value]
    simp only [back_zero, back_succ]
    rw [fst, snd, inside i _ n2, attention_value, Net.value, Net.value]
    simp only [back_zero, back_succ]
    rw [fst, snd, Net.value, norm_value, inside i _ n3]
    simp only [back_zero]
    rw [fst, Net.value, inside i _ n4, dense_value, Net.value, Net.value]
    simp only [back_zero, back_succ]
    rw [fst, snd, snoc4]
    obtain ⟨used', vs', h1, h2⟩ := layers_value d m r mask n (i + 1) (used ++ four i) _ (step o get keys mask h i) hb.next
    refine ⟨used', vs', by rw [Nat.add_right_comm] at h1; exact h1, ?_⟩
    rw [List.range'_succ, List.foldl_cons, show i + (n + 1) = i + 1 + n by omega]
    exact h2

theorem transformer_value (s : Dims) (vs : List Val) (h mask : Val) : (transformer o s).value get keys (some "transformer".toList) [] (vs ++ [.pair h mask]) 0 =
    (nrm o get "transformer/ln_f".toList ((List.range s.layers).foldl (step o get keys mask) h), 2 * s.layers) := by
  obtain ⟨used, vs', hu, he⟩ := layers_value o get keys s.model s.heads (.use "ln_f".toList (layerNorm o s.model) (fun vs => fst (back vs 0)) (.ret fun vs => back vs 0)) mask s.layers 0 [] vs h
    (fun m hm => by cases hm)
  have hf : "ln_f".toList ∉ used := fun hm => by
    obtain ⟨j, -, t, e⟩ := hu _ hm
    exact absurd (congrArg List.head? e) (by show some 'l' ≠ some 'h'; decide)
  rw [transformer, List.range_eq_range']
  refine he.trans ?_
  rw [Net.value, norm_value, numbered_new hf, Net.value, back_zero, back_zero, Nat.zero_add]
  rfl

theorem forward_value (s : Dims) (tokens : Val) : ((forward o s).value get keys none [] [tokens] 0).1 = logits o get keys s.layers tokens := by
  have e : ([tokens] : List Val) = [] ++ [tokens] := rfl
  have n1 : dir none ++ numbered ([] ++ ["embed".toList]) "transformer".toList = "transformer".toList := by decide
  rw [forward, e, Net.value, Net.value, Net.value, Net.value]
  simp only [back_zero, back_succ]
  rw [Net.value, n1, transformer_value]
  simp only [back_zero, back_succ]
  rw [Net.value, linear_value, Net.value, back_zero]
  rfl

end value

/-! ### The theorems -/

theorem filled_shape (p : Spec) (h : (∃ draw, p.start = drawn' draw) ∨ ∃ v, p.start = filled v) (k : Key) (n : Nat) : (p.value k n).shape = p.shape := by
  unfold Spec.value
  rcases h with ⟨draw, h⟩ | ⟨v, h⟩ <;> rw [h] <;> rfl

/-- The parameters of modules. -/
theorem item_specs {o : Ops} {s : Dims} {q : Str} {ps : List Spec} (h : Item.params q ps ∈ allItems o s) :
    ps ≠ [] ∧ (ps.map Spec.name).Nodup ∧ ∀ p ∈ ps, (∃ draw, p.start = drawn' draw) ∨ ∃ v, p.start = filled v := by
  have lin : ∀ draw n m, linearSpecs draw n m ≠ [] ∧ ((linearSpecs draw n m).map Spec.name).Nodup ∧ ∀ p ∈ linearSpecs draw n m, (∃ draw, p.start = drawn' draw) ∨ ∃ v, p.start = filled v := fun draw n m =>
    ⟨by simp [linearSpecs], by show [['w'], ['b']].Nodup; decide, fun p hp => by
      simp only [linearSpecs, List.mem_cons, List.not_mem_nil, or_false] at hp
      rcases hp with rfl | rfl
      exacts [.inl ⟨_, rfl⟩, .inr ⟨_, rfl⟩]⟩
  have nrm : ∀ d, normSpecs d ≠ [] ∧ ((normSpecs d).map Spec.name).Nodup ∧ ∀ p ∈ normSpecs d, (∃ draw, p.start = drawn' draw) ∨ ∃ v, p.start = filled v := fun d =>
    ⟨by simp [normSpecs], by show ["scale".toList, "offset".toList].Nodup; decide, fun p hp => by
      simp only [normSpecs, List.mem_cons, List.not_mem_nil, or_false] at hp
      rcases hp with rfl | rfl
      exacts [.inr ⟨_, rfl⟩, .inr ⟨_, rfl⟩]⟩
  have one : ∀ (n : Str) sh draw, [(⟨n, sh, .f32, drawn' draw⟩ : Spec)] ≠ [] ∧ ([(⟨n, sh, .f32, drawn' draw⟩ : Spec)].map Spec.name).Nodup ∧
      ∀ p ∈ [(⟨n, sh, .f32, drawn' draw⟩ : Spec)], (∃ draw, p.start = drawn' draw) ∨ ∃ v, p.start = filled v := fun n sh draw =>
    ⟨by simp, by simp, fun p hp => .inl ⟨draw, by rw [List.mem_singleton.1 hp]⟩⟩
  unfold allItems at h
  rcases List.mem_append.1 h with h | h
  · rcases List.mem_append.1 h with h | h
    · simp only [firstItems, List.mem_cons, List.not_mem_nil, or_false, Item.params.injEq] at h
      rcases h with ⟨-, rfl⟩ | ⟨-, rfl⟩ <;> exact one ..
    · obtain ⟨i, -, h⟩ := List.mem_flatMap.1 h
      simp only [layerItems, List.mem_cons, List.not_mem_nil, or_false, Item.params.injEq, reduceCtorEq, false_or] at h
      rcases h with ⟨-, rfl⟩ | ⟨-, rfl⟩ | ⟨-, rfl⟩ | ⟨-, rfl⟩ | ⟨-, rfl⟩ | ⟨-, rfl⟩ | ⟨-, rfl⟩ | ⟨-, rfl⟩ <;> first | exact lin .. | exact nrm ..
  · simp only [lastItems, List.mem_cons, List.not_mem_nil, or_false, Item.params.injEq] at h
    rcases h with ⟨-, rfl⟩ | ⟨-, rfl⟩
    exacts [nrm .., lin ..]

/-- The names in a layer, after `h{i}_`. -/
def suffixes : List Str := ["ln_1".toList, "attn/query".toList, "attn/key".toList, "attn/value".toList, "attn/linear".toList, "ln_2".toList, "mlp/linear".toList, "mlp/linear_1".toList]

theorem all_names (o : Ops) (s : Dims) : names (allItems o s) = ["embed".toList, ['~']] ++ (List.range s.layers).flatMap (fun i => suffixes.map (full i)) ++ ["transformer/ln_f".toList, "linear".toList] := by
  rw [allItems, names_append, names_append, names_flatMap]
  rfl

theorem full_head (i : Nat) (s : Str) : ∃ t, full i s = "transformer/h".toList ++ t := ⟨_, rfl⟩

theorem names_nodup (o : Ops) (s : Dims) : (names (allItems o s)).Nodup := by
  rw [all_names]
  have ht : ∀ m ∈ (List.range s.layers).flatMap (fun i => suffixes.map (full i)), ∃ t, m = "transformer/h".toList ++ t := fun m hm => by
    obtain ⟨i, -, hm⟩ := List.mem_flatMap.1 hm
    obtain ⟨t, -, rfl⟩ := List.mem_map.1 hm
    exact full_head i t
  have hx : ∀ n : Str, n.take 13 ≠ "transformer/h".toList → ∀ t, n ≠ "transformer/h".toList ++ t := fun n hn t e => hn (by rw [e]; exact List.take_left' (by decide))
  have hm : ((List.range s.layers).flatMap (fun i => suffixes.map (full i))).Nodup := by
    rw [List.nodup_flatMap]
    refine ⟨fun i _ => (List.nodup_map_iff_inj_on (by decide)).2 fun a _ b _ e => (full_inj e).2, ?_⟩
    refine List.Pairwise.imp ?_ (List.nodup_range (n := s.layers))
    intro a b hab x hxa hxb
    obtain ⟨t, -, rfl⟩ := List.mem_map.1 hxa
    obtain ⟨u, -, e⟩ := List.mem_map.1 hxb
    exact hab (full_inj e).1.symm
  rw [List.append_assoc, List.nodup_append]
  refine ⟨by decide, ?_, ?_⟩
  · rw [List.nodup_append]
    refine ⟨hm, by decide, fun a ha b hb e => ?_⟩
    obtain ⟨t, ht⟩ := ht a ha
    subst e
    simp only [List.mem_cons, List.not_mem_nil, or_false] at hb
    rcases hb with hb | hb <;> exact hx _ (by rw [hb]; decide) t ht
  · intro a ha b hb e
    subst e
    rcases List.mem_append.1 hb with hb | hb
    · obtain ⟨t, ht⟩ := ht a hb
      simp only [List.mem_cons, List.not_mem_nil, or_false] at ha
      rcases ha with ha | ha <;> exact hx _ (by rw [ha]; decide) t ht
    · simp only [List.mem_cons, List.not_mem_nil, or_false] at ha hb
      rcases ha with ha | ha <;> rcases hb with hb | hb <;> exact absurd (ha.symm.trans hb) (by decide)

theorem unique_item : ∀ {is : List Item} {q : Str} {ps ps' : List Spec}, (names is).Nodup → Item.params q ps ∈ is → Item.params q ps' ∈ is → ps = ps'
  | .key :: is, q, ps, ps', h, h1, h2 => by
    simp only [List.mem_cons, reduceCtorEq, false_or] at h1 h2
    exact unique_item (is := is) h h1 h2
  | .params r rs :: is, q, ps, ps', h, h1, h2 => by
    have hin : ∀ {ps}, Item.params q ps ∈ is → q ∈ names is := by
      clear h1 h2 h
      induction is with
      | nil => intro ps h; cases h
      | cons a is ih =>
        intro ps h
        rcases List.mem_cons.1 h with rfl | h'
        · exact List.mem_cons_self
        · cases a with
          | key => exact ih h'
          | params q' ps' => exact List.mem_cons_of_mem _ (ih h')
    have hn := List.nodup_cons.1 h
    simp only [List.mem_cons, Item.params.injEq] at h1 h2
    rcases h1 with ⟨rfl, rfl⟩ | h1 <;> rcases h2 with ⟨e, rfl⟩ | h2
    · rfl
    · exact absurd (hin h2) hn.1
    · subst e
      exact absurd (hin h1) hn.1
    · exact unique_item hn.2 h1 h2

theorem mem_events {is : List Item} {q : Str} {p : Spec} (h : StraightLine.Event.param q p ∈ is.flatMap Item.events) : ∃ ps, Item.params q ps ∈ is ∧ p ∈ ps := by
  obtain ⟨i, hi, h⟩ := List.mem_flatMap.1 h
  cases i with
  | key => simp [Item.events] at h
  | params q' ps =>
    simp only [Item.events, List.mem_map, StraightLine.Event.param.injEq] at h
    obtain ⟨p', hp, rfl, rfl⟩ := h
    exact ⟨ps, hi, hp⟩

/-- The function that is transformed (examples/transformer/train.py 67-88, 219). -/
def model (o : Ops) (s : Dims) (tokens : Val) : Prog := program ((forward o s).body 0) tokens

theorem model_ok (o : Ops) (s : Dims) : StraightLine.Ok ((forward o s).body 0) 0 [] := body_ok _ 0 [] (forward_ok o s)

theorem model_asks (o : Ops) (s : Dims) : asks ((forward o s).body 0) = (allItems o s).flatMap Item.events := (body_events _ 0 none [] [] rfl).trans (forward_events o s)

theorem model_consistent (o : Ops) (s : Dims) : Consistent (asks ((forward o s).body 0)) := by
  rw [model_asks]
  refine ⟨fun q p h k n => ?_, fun q p p' h h' e => ?_⟩
  · obtain ⟨ps, h1, h2⟩ := mem_events h
    exact filled_shape p ((item_specs h1).2.2 p h2) k n
  · obtain ⟨ps, h1, h2⟩ := mem_events h
    obtain ⟨ps', h1', h2'⟩ := mem_events h'
    have := unique_item (names_nodup o s) h1 h1'
    subst this
    rw [List.inj_on_of_nodup_map (item_specs h1).2.1 h2 h2' e]

theorem model_entries (o : Ops) (s : Dims) (k : Key) : built k (asks ((forward o s).body 0)) = (entries k 0 (allItems o s), ((allItems o s).map Item.keys).sum) := by
  rw [model_asks, built, fold_items k (allItems o s) [] 0 (show ([] ++ names (allItems o s)).Nodup from names_nodup o s) fun q ps h => ⟨(item_specs h).1, (item_specs h).2.1⟩, List.nil_append, Nat.zero_add]

/-- The initial values of `hk.Linear` (haiku/_src/basic.py 166-175) with a key. -/
def newLinear (draw : List Nat → DType → Key → List Int) (n m : Nat) (k : Key) : Dict Str Arr := [(['w'], ⟨[n, m], .f32, draw [n, m] .f32 k⟩), (['b'], ⟨[m], .f32, List.replicate m 0⟩)]

/-- The initial values of `hk.LayerNorm` (haiku/_src/layer_norm.py 124-137). -/
def newNorm (d : Nat) : Dict Str Arr := [("scale".toList, ⟨[d], .f32, List.replicate d 1⟩), ("offset".toList, ⟨[d], .f32, List.replicate d 0⟩)]

/-- Layer `i`, for which there are eight keys: three and one for attention, one for dropout that is not used, two for the dense block, and another one for dropout (examples/transformer/model.py 99-111). -/
def newLayer (o : Ops) (s : Dims) (k : Key) (i : Nat) : PDict :=
  [(full i "ln_1".toList, newNorm s.model), (full i "attn/query".toList, newLinear o.scaled s.model s.heads (keyNo k (2 + 8 * i))), (full i "attn/key".toList, newLinear o.scaled s.model s.heads (keyNo k (2 + 8 * i + 1))),
    (full i "attn/value".toList, newLinear o.scaled s.model s.heads (keyNo k (2 + 8 * i + 2))), (full i "attn/linear".toList, newLinear o.scaled s.heads s.heads (keyNo k (2 + 8 * i + 3))),
    (full i "ln_2".toList, newNorm s.model), (full i "mlp/linear".toList, newLinear o.scaled s.model (4 * s.model) (keyNo k (2 + 8 * i + 5))),
    (full i "mlp/linear_1".toList, newLinear o.scaled (4 * s.model) s.model (keyNo k (2 + 8 * i + 6)))]

/-- All of them. -/
def newParams (o : Ops) (s : Dims) (k : Key) : PDict :=
  [("embed".toList, [("embeddings".toList, ⟨[s.vocab, s.model], .f32, o.normal [s.vocab, s.model] .f32 (keyNo k 0)⟩)]),
    (['~'], [("pos_embs".toList, ⟨[s.length, s.model], .f32, o.normal [s.length, s.model] .f32 (keyNo k 1)⟩)])] ++
  (List.range s.layers).flatMap (newLayer o s k) ++
  [("transformer/ln_f".toList, newNorm s.model), ("linear".toList, newLinear o.plain s.model s.vocab (keyNo k (2 + 8 * s.layers)))]

theorem prod_one (d : Nat) : List.prod [d] = d := by simp

theorem layer_entries (o : Ops) (s : Dims) (k : Key) (i : Nat) : entries k (2 + 8 * i) (layerItems o s i) = newLayer o s k i := by
  simp only [layerItems, newLayer, entries, newNorm, newLinear, initials, linearSpecs, normSpecs, Spec.value, Spec.keys, drawn', filled, needs, prod_one, List.map_cons, List.map_nil, List.sum_cons, List.sum_nil,
    Nat.add_zero, Nat.add_assoc, Nat.reduceAdd]

theorem layer_keys (o : Ops) (s : Dims) (i : Nat) : ((layerItems o s i).map Item.keys).sum = 8 := rfl

theorem layers_entries (o : Ops) (s : Dims) (k : Key) : ∀ n i : Nat, entries k (2 + 8 * i) ((List.range' i n).flatMap (layerItems o s)) = (List.range' i n).flatMap (newLayer o s k) ∧
    (((List.range' i n).flatMap (layerItems o s)).map Item.keys).sum = 8 * n
  | 0, i => ⟨rfl, rfl⟩
  | n + 1, i => by
    obtain ⟨h1, h2⟩ := layers_entries o s k n (i + 1)
    rw [List.range'_succ, List.flatMap_cons, List.flatMap_cons, entries_append, layer_entries, layer_keys, List.map_append, List.sum_append, layer_keys, h2, ← h1]
    exact ⟨rfl, by omega⟩

theorem all_entries (o : Ops) (s : Dims) (k : Key) : entries k 0 (allItems o s) = newParams o s k := by
  obtain ⟨h1, h2⟩ := layers_entries o s k s.layers 0
  rw [allItems, entries_append, entries_append, List.map_append, List.sum_append, List.range_eq_range', h2]
  show entries k 0 (firstItems o s) ++ entries k (2 + 8 * 0) _ ++ entries k (0 + (2 + 8 * s.layers)) (lastItems o s) = _
  rw [h1, Nat.zero_add, newParams, List.range_eq_range']
  simp only [firstItems, lastItems, entries, newNorm, newLinear, initials, linearSpecs, normSpecs, Spec.value, Spec.keys, drawn', filled, needs, prod_one, List.map_cons, List.map_nil, List.sum_cons, List.sum_nil,
    Nat.add_zero, Nat.zero_add]

/-- C196: `init` of the language model of examples/transformer, with any number of layers, returns the token embeddings, the position embeddings under `~`, the eight modules of each layer under the names
that are chosen in the loop, the last normalisation and the output layer, and says with which key each is drawn. -/
theorem init_transformer {w : World} (hw : Bare w) (o : Ops) (s : Dims) (k : Key) (tokens : Val) :
    ((Prog.initT (.key k) (model o s tokens)).run stackMach w).1 = .ok (.pair (.bundle (newParams o s k)) (.bundle [])) := by
  refine (init_program hw (model_ok o s) (model_consistent o s) k tokens).trans ?_
  rw [model_entries, all_entries]

/-- C196: `apply` with arrays of the right shapes computes the model, where layer `i` uses keys `2 * i` and `2 * i + 1` for dropout. -/
theorem apply_transformer {w : World} (hw : Bare w) (o : Ops) (s : Dims) {P S : PDict} {get : Str → Str → Arr}
    (hf : ∀ q ps, Item.params q ps ∈ allItems o s → ∀ p ∈ ps, lookup2 (dict2 P) q p.name = some (get q p.name) ∧ (get q p.name).shape = p.shape) (k : Key) (tokens : Val) :
    ((Prog.applyT (some P) (some S) (.key k) (model o s tokens)).run stackMach w).1 = .ok (.pair (logits o get (keyNo k) s.layers tokens) (.bundle (dict2 S))) := by
  refine (apply_program hw (model_ok o s) (get := get) (fun q p h => ?_) rfl (k := k) (fun _ => rfl) tokens).trans ?_
  · rw [model_asks] at h
    obtain ⟨ps, h1, h2⟩ := mem_events h
    exact hf q ps h1 p h2
  · rw [computes, body_value get (keyNo k) _ 0 none [] [] [tokens] 0 rfl, forward_value]

/-- C196: `apply` on what `init` returned never fails, whatever the tokens and the keys. -/
theorem apply_new {w : World} (hw : Bare w) (o : Ops) (s : Dims) (k k' : Key) (tokens : Val) :
    ((Prog.applyT (some (newParams o s k)) (some []) (.key k') (model o s tokens)).run stackMach w).1 = .ok (.pair (logits o (at2 (newParams o s k)) (keyNo k') s.layers tokens) (.bundle [])) := by
  have e : newParams o s k = (built k (asks ((forward o s).body 0))).1 := by rw [model_entries, all_entries]
  rw [e]
  refine (apply_program hw (model_ok o s) (built_fits k (model_consistent o s)) rfl (k := k') (fun _ => rfl) tokens).trans ?_
  rw [computes, body_value _ (keyNo k') _ 0 none [] [] [tokens] 0 rfl, forward_value]
  rfl

/-- C196: as many entries as the layers ask for, no two under one name: eight for each layer and four more. -/
theorem count_params (o : Ops) (s : Dims) (k : Key) : (newParams o s k).length = 8 * s.layers + 4 ∧ (newParams o s k).keys.Nodup := by
  have h : ∀ (is : List Item) (c : Nat), (entries k c is).keys = names is := fun is => by
    induction is with
    | nil => exact fun c => rfl
    | cons a is ih =>
      intro c
      cases a with
      | key => exact ih (c + 1)
      | params q ps => exact congrArg (q :: ·) (ih _)
  have hk : (newParams o s k).keys = names (allItems o s) := by rw [← all_entries, h]
  refine ⟨?_, by rw [hk]; exact names_nodup o s⟩
  have hl : (newParams o s k).length = (names (allItems o s)).length := by rw [← hk]; simp [Dict.keys]
  have hm : ∀ l : List Nat, (l.flatMap (fun i => suffixes.map (full i))).length = 8 * l.length := fun l => by
    induction l with
    | nil => rfl
    | cons a l ih =>
      rw [List.flatMap_cons, List.length_append, ih, List.length_map, List.length_cons]
      show 8 + _ = _
      omega
  rw [hl, all_names, List.length_append, List.length_append, hm, List.length_range]
  show 2 + _ + 2 = _
  omega

/-! ### Two layers, with numbers -/

namespace Demo
open Verif.Props.Stack.Net (world)
open Verif.Props.StraightLine.Demo (num one)

/-- Arrays of one number: initial values are the number of splits of the key; `drop` keeps a value, and adds the number of splits of its key times 1000. -/
def ops : Ops where
  scaled := fun shape _ k => List.replicate shape.prod (num (.key k))
  plain := fun shape _ k => List.replicate shape.prod (num (.key k))
  normal := fun shape _ k => List.replicate shape.prod (num (.key k))
  dot := fun w b x => one (num (.arr w) * num x + num (.arr b))
  norm := fun s o x => one (num (.arr s) * num x + num (.arr o))
  attend := fun q k v m => one (num q + num k + num v + num m)
  gelu := fun x => one (num x - 1)
  add := fun x y => one (num x + num y)
  drop := fun k x => one (num x + 1000 * num k)
  embed := fun a t => one (num (.arr a) + num t)
  mask := fun t => one (if num t > 0 then 1 else 0)

/-- Two layers. -/
def dims : Dims := ⟨1, 1, 2, 1, 2, by decide⟩

example : ((Prog.initT (.key (.root 7)) (model ops dims (one 3))).run stackMach world).1 = .ok (.pair (.bundle (newParams ops dims (.root 7))) (.bundle [])) :=
  init_transformer ⟨rfl, rfl⟩ ops dims (.root 7) (one 3)

/-- The names for two layers. -/
example : (newParams ops dims (.root 7)).keys = ["embed".toList, "~".toList,
    "transformer/h0_ln_1".toList, "transformer/h0_attn/query".toList, "transformer/h0_attn/key".toList, "transformer/h0_attn/value".toList, "transformer/h0_attn/linear".toList,
    "transformer/h0_ln_2".toList, "transformer/h0_mlp/linear".toList, "transformer/h0_mlp/linear_1".toList,
    "transformer/h1_ln_1".toList, "transformer/h1_attn/query".toList, "transformer/h1_attn/key".toList, "transformer/h1_attn/value".toList, "transformer/h1_attn/linear".toList,
    "transformer/h1_ln_2".toList, "transformer/h1_mlp/linear".toList, "transformer/h1_mlp/linear_1".toList, "transformer/ln_f".toList, "linear".toList] := by decide

example : (newParams ops dims (.root 7)).length = 20 := (count_params ops dims (.root 7)).1

example : (((Prog.applyT (some (newParams ops dims (.root 7))) (some []) (.key (.root 8)) (model ops dims (one 3))).run stackMach world).1) =
    .ok (.pair (logits ops (at2 (newParams ops dims (.root 7))) (keyNo (.root 8)) 2 (one 3)) (.bundle [])) := apply_new ⟨rfl, rfl⟩ ops dims (.root 7) (.root 8) (one 3)

example : ((Prog.applyT (some (newParams ops dims (.root 7))) (some []) (.key (.root 8)) (model ops dims (one 3))).run stackMach world).1 =
    .ok (.pair (logits ops (at2 (newParams ops dims (.root 7))) (keyNo (.root 8)) 2 (one 3)) (.bundle [])) := by
  refine apply_transformer ⟨rfl, rfl⟩ ops dims (fun q ps h p hp => ?_) (.root 8) (one 3)
  have e : newParams ops dims (.root 7) = (built (.root 7) (asks ((forward ops dims).body 0))).1 := by rw [model_entries, all_entries]
  rw [e]
  refine built_fits (.root 7) (model_consistent ops dims) q p ?_
  rw [model_asks]
  exact List.mem_flatMap.2 ⟨_, h, List.mem_map_of_mem hp⟩

end Demo

end Verif.Props.TransformerProgram
