import Verif.Props.AnyProgram

/-!
# `hk.nets.MLP` with any number of layers through `hk.transform` (C201)

The layers are made in `__init__` with numbers in their names, and called in a loop in `__call__`, with dropout between them on request.  Here it is a program in the sense of C197, so the number of layers is
any number.  What is computed with arrays is any function.
-/

set_option linter.unusedVariables false

namespace Verif.Props.MlpProgram
open Verif Names Frame Verif.Props.Names Verif.Props.ModuleTree Verif.Props.AnyProgram
open Verif.Props.Stack (Bare left keyNo)
open Verif.Props.StraightLine (Fresh bundle dir fresh_plain letter letter_plain)
open Verif.Props.ModuleTree.Net (ident)

/-! ### The program -/

/-- The array functions in it, any functions here: `draw` is the initialiser of weights (haiku/_src/basic.py 168-172), `dot w b x` is `jnp.dot(x, w) + b` (174-179), `act` the activation and `drop key x` is
`hk.dropout(key, dropout_rate, x)` (haiku/_src/nets/mlp.py 115-116). -/
structure Ops where
  draw : List Nat → DType → Key → List Int
  dot : Arr → Arr → Val → Val
  act : Val → Val
  drop : Key → Val → Val

/-- The default name of the module (haiku/_src/nets/mlp.py 38, haiku/_src/utils.py 78-96). -/
def sMlp : Str := "mlp".toList
/-- The base of the names of layers (haiku/_src/nets/mlp.py 82). -/
def sLinear : Str := "linear".toList

/-- The array in a value. -/
def arr : Val → Arr
  | .arr a => a
  | _ => ⟨[], .f32, []⟩

/-- `Linear.__call__` with a bias, on inputs of `d.1` numbers with `output_size` `d.2` (haiku/_src/basic.py 159-181).  That the size of the input is that of its last dimension, and of floats, is left to the arrays. -/
def linear (o : Ops) (d : Nat × Nat) (x : Val) : Code :=
  .ask (.param ['w'] [d.1, d.2] .f32 (some fun sh dt => .draw fun k => .ret ⟨sh, dt, o.draw sh dt k⟩)) fun w =>
  .ask (.param ['b'] [d.2] .f32 (some fun sh dt => .ret ⟨sh, dt, List.replicate sh.prod 0⟩)) fun b => .ret (o.dot (arr w) (arr b) x)

/-- Inputs and outputs of the layers: the output of a layer is the input of the next (haiku/_src/nets/mlp.py 76-83, 109-111). -/
def dims : Nat → List Nat → List (Nat × Nat)
  | _, [] => []
  | n, m :: ms => (n, m) :: dims m ms

/-- The layers made in `__init__`: layer `i` is `linear_i` (haiku/_src/nets/mlp.py 76-83). -/
def layers : Nat → List Nat → List Obj
  | _, [] => []
  | i, _ :: ms => .node (fmt sLinear i) (i + 1) [] :: layers (i + 1) ms

/-- Dropout with the next key of the sequence, if there is one (haiku/_src/nets/mlp.py 114-115; haiku/_src/base.py 559-562). -/
def dropped (o : Ops) (s : Option PRNGSeq) (y : Val) : Val × Option PRNGSeq :=
  match s with
  | none => (y, none)
  | some s =>
    match s.next with
    | (some k, s') => (o.drop k y, some s')
    | (none, s') => (y, some s')

/-- The loop over layers, from layer `i` on, of which there are `rem`; "`i < num_layers - 1`" is that there is another layer (haiku/_src/nets/mlp.py 107-118). -/
def loop (o : Ops) (final : Bool) : Nat → Nat → Option PRNGSeq → Val → Code
  | _, 0, _, x => .ret x
  | i, rem + 1, s, x => .call i x fun y =>
    if 0 < rem ∨ final = true then loop o final (i + 1) rem (dropped o s y).2 (o.act (dropped o s y).1) else loop o final (i + 1) rem s y

/-- `MLP.__call__(x, dropout_rate, rng)` (haiku/_src/nets/mlp.py 85-118), where the layers are the modules in scope; a rate comes with a key, otherwise it raises errors, which are in C63. -/
def call (o : Ops) (final : Bool) (count : Nat) : Val → Code
  | .pair x (.key k) => loop o final 0 count (some (.ofKey k)) x
  | .pair x _ => loop o final 0 count none x
  | x => loop o final 0 count none x

/-- `hk.nets.MLP(outs, activate_final=final)(x)`, and with dropout `hk.nets.MLP(outs, activate_final=final)(x, dropout_rate, hk.next_rng_key())` (haiku/_src/nets/mlp.py 38-118). -/
def mlp (o : Ops) (final dropout : Bool) (n : Nat) (outs : List Nat) (x : Val) : Code :=
  .make (.node sMlp 0 (layers 0 outs)) (fun l x => match l with | 0 => call o final outs.length x | i + 1 => linear o ((dims n outs).getD i (0, 0)) x)
    (if dropout then .ask .key fun k => .call 0 (.pair x k) .ret else .call 0 (.pair x .none) .ret)

/-! ### Specification -/

/-- Inputs and outputs of the layers: all sizes but the last, and all but the first. -/
def sizes (n : Nat) (outs : List Nat) : List (Nat × Nat) := (n :: outs).zip outs

/-- The name of a layer: `mlp/~/linear_i`. -/
def layerName (i : Nat) : Str := "mlp/~/linear_".toList ++ (toString i).toList

/-- Between layers: dropout with key number `i` of `k`, and then the activation. -/
def between (o : Ops) (k : Option Key) (i : Nat) (y : Val) : Val :=
  o.act (match k with | none => y | some k => o.drop (keyNo k i) y)

/-- Layers from `i` on; after the last one nothing is done, unless `final`. -/
def forward (o : Ops) (final : Bool) (k : Option Key) : Nat → List (Arr × Arr) → Val → Val
  | _, [], x => x
  | i, [a], x => if final then between o k i (o.dot a.1 a.2 x) else o.dot a.1 a.2 x
  | i, a :: b :: as, x => forward o final k (i + 1) (b :: as) (between o k i (o.dot a.1 a.2 x))

/-- Weights of the right shapes. -/
def Shaped (d : Nat × Nat) (a : Arr × Arr) : Prop := a.1.shape = [d.1, d.2] ∧ a.2.shape = [d.2]

/-- What layer `i` begins with if its key is `k`. -/
def fresh (o : Ops) (k : Key) (d : Nat × Nat) : Arr × Arr := (⟨[d.1, d.2], .f32, o.draw [d.1, d.2] .f32 k⟩, ⟨[d.2], .f32, List.replicate d.2 0⟩)

/-- The parameters of layers from `i` on, if layer `j` has key number `c + j`. -/
def built (o : Ops) (k : Key) (c : Nat) : Nat → List (Nat × Nat) → PDict
  | _, [] => []
  | i, d :: ds => (layerName i, [(['w'], (fresh o (keyNo k (c + i)) d).1), (['b'], (fresh o (keyNo k (c + i)) d).2)]) :: built o k c (i + 1) ds

/-! ### Names -/

theorem linear_ident (i : Nat) : IsIdent (fmt sLinear i) := by
  refine ⟨by simp [fmt], fun c hc => ?_, fun c hc => ?_⟩
  · unfold fmt at hc
    rcases List.mem_append.1 hc with hc | hc
    · exact (ident (s := sLinear) (by decide) (by decide)).2.1 c hc
    · rcases List.mem_cons.1 hc with rfl | hc
      · exact .inr rfl
      · left
        unfold Char.isAlphanum
        rw [Nat.isDigit_of_mem_toDigits (b := 10) (n := i) (by omega) (by omega) hc, Bool.or_true]
  · have e : fmt sLinear i = 'l' :: ("inear".toList ++ '_' :: Nat.toDigits 10 i) := rfl
    rw [e] at hc
    injection hc with hc
    rw [← hc]
    decide

/-- Only names of layers before `i` were asked for. -/
def Before (i : Nat) (used : List Str) : Prop := ∀ m ∈ used, ∃ j < i, m = fmt sLinear j

theorem Before.new {i : Nat} {used : List Str} (h : Before i used) : fmt sLinear i ∉ used := fun hm => by
  obtain ⟨j, hj, e⟩ := h _ hm
  have := (fmt_injective e).2
  omega

theorem Before.plain {i : Nat} {used : List Str} (h : Before i used) : sLinear ∉ used := fun hm => by
  obtain ⟨j, hj, e⟩ := h _ hm
  have := congrArg List.length e
  simp [fmt] at this

theorem Before.next {i : Nat} {used : List Str} (h : Before i used) : Before (i + 1) (used ++ [fmt sLinear i]) := fun m hm => by
  rcases List.mem_append.1 hm with hm | hm
  · obtain ⟨j, hj, e⟩ := h m hm
    exact ⟨j, by omega, e⟩
  · exact ⟨i, by omega, List.mem_singleton.1 hm⟩

theorem layerName_fmt (i : Nat) : sMlp ++ ['/', '~', '/'] ++ fmt sLinear i = layerName i := by
  unfold layerName fmt
  rw [show (toString i).toList = Nat.toDigits 10 i by simp [toString, Nat.repr]]
  rfl

theorem layerName_inj {i j : Nat} (h : layerName i = layerName j) : i = j := by
  rw [← layerName_fmt, ← layerName_fmt] at h
  exact (fmt_injective (List.append_cancel_left h)).2

theorem layers_length : ∀ (i : Nat) (outs : List Nat), (layers i outs).length = outs.length
  | _, [] => rfl
  | i, m :: ms => by rw [layers, List.length_cons, List.length_cons, layers_length]

theorem dims_length : ∀ (n : Nat) (outs : List Nat), (dims n outs).length = outs.length
  | _, [] => rfl
  | i, m :: ms => by rw [dims, List.length_cons, List.length_cons, dims_length]

theorem dims_sizes : ∀ (n : Nat) (outs : List Nat), dims n outs = sizes n outs
  | _, [] => rfl
  | n, m :: ms => by
    rw [dims, dims_sizes m ms]
    rfl

theorem loop_ok (o : Ops) (final : Bool) : ∀ (rem i : Nat) (s : Option PRNGSeq) (x : Val) (used : List Str), Ok (loop o final i rem s x) (i + rem) used
  | 0, i, s, x, used => trivial
  | rem + 1, i, s, x, used => by
    refine ⟨by omega, fun v => ?_⟩
    have e : i + (rem + 1) = (i + 1) + rem := by omega
    rw [e]
    split
    · exact loop_ok o final rem (i + 1) _ _ used
    · exact loop_ok o final rem (i + 1) _ _ used

theorem layers_ok {f : Nat → Nat → Prop} (hf : ∀ i, f (i + 1) 0) : ∀ (outs : List Nat) (i : Nat) (used : List Str), Before i used → okOs f used (layers i outs)
  | [], _, _, _ => trivial
  | m :: ms, i, used, h => ⟨⟨⟨linear_ident i, .inr ⟨sLinear, i, rfl, h.new, h.plain⟩⟩, hf i, trivial⟩, layers_ok hf ms (i + 1) _ h.next⟩

theorem mlp_ok (o : Ops) (final dropout : Bool) (n : Nat) (outs : List Nat) (x : Val) : Ok (mlp o final dropout n outs x) 0 [] := by
  have h1 : Fresh [] sMlp := fresh_plain (ident (by decide) (by decide)) (letter_plain (by decide)) (fun m hm => by cases hm)
  refine ⟨⟨h1, fun x => ?_, layers_ok (fun i x _ _ => trivial) outs 0 [] (fun m hm => by cases hm)⟩, ?_⟩
  · show Ok (call o final outs.length x) _ []
    rw [layers_length]
    unfold call
    split <;> exact loop_ok o final _ 0 _ _ []
  · cases dropout with
    | true => exact fun k => ⟨by decide, fun v => trivial⟩
    | false => exact ⟨by decide, fun v => trivial⟩

/-! ### Layers -/

/-- The layers, as modules in scope in `__call__`. -/
def kids (frozen : Bool) (o : Ops) (n : Nat) (outs : List Nat) (i : Nat) : Den := fun x m => flat frozen (linear o ((dims n outs).getD i (0, 0)) x) (some (layerName i)) [] [] m

theorem layers_den (f : Nat → Str → List Den → Den) : ∀ (outs : List Nat) (i : Nat) (used : List Str), Before i used →
    ∀ j < outs.length, (denOs f (sMlp ++ ['/', '~', '/']) used (layers i outs))[j]? = some (f (i + j + 1) (layerName (i + j)) [])
  | [], _, _, _, j, hj => absurd hj (by simp)
  | m :: ms, i, used, h, j, hj => by
    rw [layers, denOs, denO, denOs]
    have e : numbered used (fmt sLinear i) = fmt sLinear i := by
      unfold numbered
      rw [if_pos (List.count_eq_zero.2 h.new)]
    rw [e, layerName_fmt]
    cases j with
    | zero => rfl
    | succ j =>
      rw [List.getElem?_cons_succ]
      have := layers_den f ms (i + 1) _ h.next j (by simpa using hj)
      rw [show (Obj.node (fmt sLinear i) (i + 1) []).name = fmt sLinear i from rfl, this]
      have e : i + 1 + j = i + (j + 1) := by omega
      rw [e]

/-- `next` on a sequence that began with a key. -/
theorem next_left (k : Key) (i : Nat) : (PRNGSeq.mk (left k i) []).next = (some (keyNo k i), ⟨left k (i + 1), []⟩) := rfl

/-- The sequence after `i` keys. -/
def seq (k : Option Key) (i : Nat) : Option PRNGSeq := k.map fun k => ⟨left k i, []⟩

theorem dropped_seq (o : Ops) (k : Option Key) (i : Nat) (y : Val) : o.act (dropped o (seq k i) y).1 = between o k i y ∧ (dropped o (seq k i) y).2 = seq k (i + 1) := by
  cases k with
  | none => exact ⟨rfl, rfl⟩
  | some k => exact ⟨rfl, rfl⟩

/-- The loop, if the layer `j` turns memory `M j` to memory `M (j + 1)`, with the weights `as`. -/
theorem loop_flat (frozen : Bool) (o : Ops) (final : Bool) (k : Option Key) (w : Option Str) (used : List Str) (ds : List Den) (M : Nat → Mem) : ∀ (as : List (Arr × Arr)) (i : Nat) (x : Val),
    (∀ j a, as[j]? = some a → ∃ d, ds[i + j]? = some d ∧ ∀ x, d x (M (i + j)) = .ok (o.dot a.1 a.2 x, M (i + j + 1))) →
    flat frozen (loop o final i as.length (seq k i) x) w used ds (M i) = .ok (forward o final k i as x, M (i + as.length))
  | [], i, x, h => rfl
  | [a], i, x, h => by
    obtain ⟨d, h1, h2⟩ := h 0 a rfl
    rw [Nat.add_zero] at h1 h2
    show flat frozen (loop o final i (0 + 1) (seq k i) x) w used ds (M i) = _
    rw [loop, flat, h1]
    dsimp only
    rw [h2]
    dsimp only
    obtain ⟨e1, e2⟩ := dropped_seq o k i (o.dot a.1 a.2 x)
    cases final with
    | true =>
      rw [if_pos (.inr rfl), e1]
      rfl
    | false =>
      rw [if_neg (by simp)]
      rfl
  | a :: b :: as, i, x, h => by
    obtain ⟨d, h1, h2⟩ := h 0 a rfl
    rw [Nat.add_zero] at h1 h2
    show flat frozen (loop o final i ((b :: as).length + 1) (seq k i) x) w used ds (M i) = _
    rw [loop, flat, h1]
    dsimp only
    rw [h2]
    dsimp only
    obtain ⟨e1, e2⟩ := dropped_seq o k i (o.dot a.1 a.2 x)
    rw [if_pos (.inl (by simp)), e1, e2]
    have ih := loop_flat frozen o final k w used ds M (b :: as) (i + 1) (between o k i (o.dot a.1 a.2 x)) fun j c hc => by
      have := h (j + 1) c hc
      have e : i + (j + 1) = i + 1 + j := by omega
      rw [e] at this
      exact this
    rw [ih, forward]
    have e : i + 1 + (b :: as).length = i + (a :: b :: as).length := by simp only [List.length_cons]; omega
    rw [e]

theorem linear_apply (o : Ops) (d : Nat × Nat) (q : Str) {a : Arr × Arr} (hs : Shaped d a) {m : Mem} (h1 : lookup2 m.params q ['w'] = some a.1) (h2 : lookup2 m.params q ['b'] = some a.2) (x : Val) (frozen : Bool) :
    flat frozen (linear o d x) (some q) [] [] m = .ok (o.dot a.1 a.2 x, m) := by
  rw [linear, flat, answer]
  rw [show bundle (some q) = q from rfl, h1]
  dsimp only
  rw [if_pos hs.1]
  dsimp only
  rw [flat, answer]
  rw [show bundle (some q) = q from rfl, h2]
  dsimp only
  rw [if_pos hs.2]
  rfl

theorem linear_init (o : Ops) (d : Nat × Nat) {q : Str} {P : PDict} (h : q ∉ P.keys) (S : SDict) (k : Key) (c : Nat) (x : Val) :
    flat false (linear o d x) (some q) [] [] ⟨P, S, some ⟨left k c, []⟩⟩ =
      .ok (o.dot (fresh o (keyNo k c) d).1 (fresh o (keyNo k c) d).2 x, ⟨P ++ [(q, [(['w'], (fresh o (keyNo k c) d).1), (['b'], (fresh o (keyNo k c) d).2)])], S, some ⟨left k (c + 1), []⟩⟩) := by
  have hg : P.get? q = none := (Dict.get?_eq_none_iff P q).2 h
  have hl : ∀ s, lookup2 P q s = none := fun s => by simp [lookup2, hg]
  have s2 : ∀ v u, store2 (store2 P q ['w'] v) q ['b'] u = P ++ [(q, [(['w'], v), (['b'], u)])] := fun v u => by
    unfold store2
    rw [Dict.get?_set_self, Dict.set_set, Dict.set_append h, hg]
    rfl
  have hl2 : ∀ v, lookup2 (store2 P q ['w'] v) q ['b'] = none := fun v => by rw [lookup2_store2, if_neg (fun h => absurd h.2 (by decide)), hl]
  rw [linear, flat, answer, show bundle (some q) = q from rfl, hl]
  dsimp only
  rw [if_neg (by simp), draws, next_left]
  dsimp only [draws]
  rw [if_pos rfl]
  dsimp only
  rw [flat, answer, show bundle (some q) = q from rfl]
  dsimp only
  rw [hl2]
  dsimp only [draws]
  rw [if_neg (by simp), if_pos rfl]
  dsimp only
  rw [s2, flat, fresh, List.prod_singleton]
  rfl

/-! ### The network -/

/-- The module in scope, called. -/
theorem mlp_flat (frozen : Bool) (o : Ops) (final : Bool) (n : Nat) (outs : List Nat) : ∃ ds : List Den, (∀ j < outs.length, ds[j]? = some (kids frozen o n outs j)) ∧
    (∀ x m, flat frozen (mlp o final false n outs x) none [] [] m = flat frozen (loop o final 0 outs.length none x) (some sMlp) [] ds m) ∧
    ∀ x m k s s', m.rng = some s → s.next = (some k, s') → flat frozen (mlp o final true n outs x) none [] [] m = flat frozen (loop o final 0 outs.length (some (.ofKey k)) x) (some sMlp) [] ds { m with rng := some s' } := by
  let body : Nat → Val → Code := fun l x => match l with | 0 => call o final outs.length x | i + 1 => linear o ((dims n outs).getD i (0, 0)) x
  let f : Nat → Str → List Den → Den := fun l q ks x m => flat frozen (body l x) (some q) [] ([] ++ ks) m
  have hk := layers_den f outs 0 [] (fun m hm => by cases hm)
  have hd : denO f [] [] (.node sMlp 0 (layers 0 outs)) = fun x m => flat frozen (call o final outs.length x) (some sMlp) [] (denOs f (sMlp ++ ['/', '~', '/']) [] (layers 0 outs)) m := by
    have n1 : numbered [] sMlp = sMlp := by decide
    rw [denO, n1]
    rfl
  refine ⟨denOs f (sMlp ++ ['/', '~', '/']) [] (layers 0 outs), fun j hj => ?_, fun x m => ?_, fun x m k s s' hr hs => ?_⟩
  · rw [hk j hj, Nat.zero_add]
    rfl
  · rw [mlp, flat, if_neg (by simp), flat]
    show (match denO f [] [] (.node sMlp 0 (layers 0 outs)) (.pair x .none) m with | .error e => Except.error e | .ok (v, m') => flat frozen (.ret v) none _ _ m') = _
    rw [hd]
    show (match flat frozen (loop o final 0 outs.length none x) (some sMlp) [] _ m with | .error e => Except.error e | .ok (v, m') => flat frozen (.ret v) none _ _ m') = _
    split
    · rename_i h; rw [h]
    · rename_i h; rw [h, flat]
  · rw [mlp, flat, if_pos rfl, flat, answer, hr]
    dsimp only
    rw [hs]
    dsimp only
    rw [flat]
    show (match denO f [] [] (.node sMlp 0 (layers 0 outs)) (.pair x (.key k)) _ with | .error e => Except.error e | .ok (v, m') => flat frozen (.ret v) none _ _ m') = _
    rw [hd]
    show (match flat frozen (loop o final 0 outs.length (some (.ofKey k)) x) (some sMlp) [] _ _ with | .error e => Except.error e | .ok (v, m') => flat frozen (.ret v) none _ _ m') = _
    split
    · rename_i h; rw [h]
    · rename_i h; rw [h, flat]

theorem built_snoc (o : Ops) (k : Key) (c : Nat) : ∀ (ds : List (Nat × Nat)) (i : Nat) (d : Nat × Nat),
    built o k c i (ds ++ [d]) = built o k c i ds ++ built o k c (i + ds.length) [d]
  | [], i, d => rfl
  | e :: ds, i, d => by
    have h : i + 1 + ds.length = i + (e :: ds).length := by simp only [List.length_cons]; omega
    rw [List.cons_append, built, built_snoc o k c ds (i + 1) d, h]
    rfl

theorem built_keys (o : Ops) (k : Key) (c : Nat) : ∀ (ds : List (Nat × Nat)) (i j : Nat), i + ds.length ≤ j → layerName j ∉ (built o k c i ds).keys
  | [], i, j, h => by simp [built, Dict.keys]
  | d :: ds, i, j, h => fun hm => by
    rcases List.mem_cons.1 hm with e | hm
    · have := layerName_inj e
      simp only [List.length_cons] at h
      omega
    · exact built_keys o k c ds (i + 1) j (by simp only [List.length_cons] at h; omega) hm

/-- Weights drawn in `init`. -/
def freshAll (o : Ops) (k : Key) (c : Nat) (ds : List (Nat × Nat)) : List (Arr × Arr) := ds.mapIdx fun i d => fresh o (keyNo k (c + i)) d

theorem init_loop (o : Ops) (final : Bool) (n : Nat) (outs : List Nat) (k : Key) (c : Nat) (kd : Option Key) {ds : List Den} (hds : ∀ j < outs.length, ds[j]? = some (kids false o n outs j)) (x : Val) :
    flat false (loop o final 0 outs.length (seq kd 0) x) (some sMlp) [] ds ⟨[], [], some ⟨left k c, []⟩⟩ =
      .ok (forward o final kd 0 (freshAll o k c (dims n outs)) x, ⟨built o k c 0 (dims n outs), [], some ⟨left k (c + outs.length), []⟩⟩) := by
  have hl : (freshAll o k c (dims n outs)).length = outs.length := by rw [freshAll, List.length_mapIdx, dims_length]
  have h := loop_flat false o final kd (some sMlp) [] ds (fun i => ⟨built o k c 0 ((dims n outs).take i), [], some ⟨left k (c + i), []⟩⟩) (freshAll o k c (dims n outs)) 0 x fun j a ha => by
    have hj : j < outs.length := by rw [← hl]; exact (List.getElem?_eq_some_iff.1 ha).1
    have hj' : j < (dims n outs).length := by rw [dims_length]; exact hj
    rw [Nat.zero_add]
    refine ⟨_, hds j hj, fun y => ?_⟩
    have hd : (dims n outs).getD j (0, 0) = (dims n outs)[j] := by
      rw [List.getD_eq_getElem?_getD, List.getElem?_eq_getElem hj', Option.getD_some]
    have ea : a = fresh o (keyNo k (c + j)) (dims n outs)[j] := by
      rw [freshAll, List.getElem?_mapIdx, List.getElem?_eq_getElem hj'] at ha
      exact (Option.some.inj ha).symm
    have hn : layerName j ∉ (built o k c 0 ((dims n outs).take j)).keys := built_keys o k c _ 0 j (by rw [List.length_take]; omega)
    show flat false (linear o ((dims n outs).getD j (0, 0)) y) (some (layerName j)) [] [] _ = _
    rw [hd, linear_init o _ hn, List.take_succ_eq_append_getElem hj', built_snoc, Nat.zero_add, List.length_take, Nat.min_eq_left (by omega), ea]
    rfl
  rw [hl] at h
  simp only [Nat.zero_add, Nat.add_zero, List.take_zero] at h
  rw [List.take_of_length_le (by rw [dims_length]; exact Nat.le_refl _)] at h
  exact h

theorem apply_loop (o : Ops) (final : Bool) (n : Nat) (outs : List Nat) (kd : Option Key) {ds : List Den} (hds : ∀ j < outs.length, ds[j]? = some (kids true o n outs j)) {as : List (Arr × Arr)} {m : Mem}
    (hl : as.length = outs.length) (hs : ∀ i d a, (dims n outs)[i]? = some d → as[i]? = some a → Shaped d a ∧ lookup2 m.params (layerName i) ['w'] = some a.1 ∧ lookup2 m.params (layerName i) ['b'] = some a.2) (x : Val) :
    flat true (loop o final 0 outs.length (seq kd 0) x) (some sMlp) [] ds m = .ok (forward o final kd 0 as x, m) := by
  have h := loop_flat true o final kd (some sMlp) [] ds (fun i => m) as 0 x fun j a ha => by
    have hj : j < outs.length := by rw [← hl]; exact (List.getElem?_eq_some_iff.1 ha).1
    have hj' : j < (dims n outs).length := by rw [dims_length]; exact hj
    rw [Nat.zero_add]
    refine ⟨_, hds j hj, fun y => ?_⟩
    have hd : (dims n outs).getD j (0, 0) = (dims n outs)[j] := by
      rw [List.getD_eq_getElem?_getD, List.getElem?_eq_getElem hj', Option.getD_some]
    obtain ⟨i1, i2, i3⟩ := hs j _ a (List.getElem?_eq_getElem hj') ha
    show flat true (linear o ((dims n outs).getD j (0, 0)) y) (some (layerName j)) [] [] _ = _
    rw [hd]
    exact linear_apply o _ _ i1 i2 i3 y true
  rw [hl] at h
  exact h

/-! ### Theorems -/

/-- C201: `init` makes the parameters of all layers, under `mlp/~/linear_0`, `mlp/~/linear_1` and so on, in order and nothing else: the output of a layer is the size of the input of the next, layer `i` is drawn with key
number `i`, biases are 0.  With dropout the first key is the one for dropout, and layer `i` is drawn with key number `i + 1`. -/
theorem mlp_init {w : World} (hw : Bare w) (o : Ops) (final dropout : Bool) (n : Nat) (outs : List Nat) (x : Val) (k : Key) :
    ((Prog.initT (.key k) (program (mlp o final dropout n outs x))).run stackMach w).1 = .ok (.pair (.bundle (built o k (if dropout then 1 else 0) 0 (sizes n outs))) (.bundle [])) := by
  rw [← dims_sizes]
  have hr : (RngArg.key k).toSeq = .ok (some ⟨left k 0, []⟩) := rfl
  rw [init_code hw (mlp_ok o final dropout n outs x) hr]
  obtain ⟨ds, h1, h2, h3⟩ := mlp_flat false o final n outs
  cases dropout with
  | false =>
    rw [h2, show (none : Option PRNGSeq) = seq none 0 from rfl, init_loop o final n outs k 0 none h1]
    rfl
  | true =>
    rw [h3 x _ _ _ _ rfl (next_left k 0)]
    have e := init_loop o final n outs k 1 (some (keyNo k 0)) h1 x
    exact congrArg (Except.map _) e

/-- C201: without dropout, `apply` calls the layers in turn, with the activation between them and, if asked for, after the last one; with any rng or none, and whatever other parameters there are. -/
theorem mlp_apply {w : World} (hw : Bare w) (o : Ops) (final : Bool) (n : Nat) (outs : List Nat) (x : Val) {rng : RngArg} {r : Option PRNGSeq} (hr : rng.toSeq = .ok r) {P : PDict} (S : PDict) {as : List (Arr × Arr)}
    (hl : as.length = outs.length)
    (hs : ∀ i d a, (sizes n outs)[i]? = some d → as[i]? = some a → Shaped d a ∧ lookup2 (dict2 P) (layerName i) ['w'] = some a.1 ∧ lookup2 (dict2 P) (layerName i) ['b'] = some a.2) :
    ((Prog.applyT (some P) (some S) rng (program (mlp o final false n outs x))).run stackMach w).1 = .ok (.pair (forward o final none 0 as x) (.bundle (dict2 S))) := by
  rw [← dims_sizes] at hs
  rw [apply_code hw (mlp_ok o final false n outs x) hr]
  obtain ⟨ds, h1, h2, h3⟩ := mlp_flat true o final n outs
  rw [h2, show (none : Option PRNGSeq) = seq none 0 from rfl, apply_loop o final n outs none h1 (m := ⟨dict2 P, pairs (dict2 S), r⟩) hl hs]
  exact congrArg (fun d => Except.ok (Val.pair _ (.bundle d))) (extract_new [] S r w)

/-- C201: with dropout, `apply` drops out before each activation, after layer `i` with key number `i` of the first key that `hk.next_rng_key` gives: no two times the same key, and nothing is dropped after the last
layer if it is not activated. -/
theorem mlp_dropout {w : World} (hw : Bare w) (o : Ops) (final : Bool) (n : Nat) (outs : List Nat) (x : Val) (k : Key) {P : PDict} (S : PDict) {as : List (Arr × Arr)} (hl : as.length = outs.length)
    (hs : ∀ i d a, (sizes n outs)[i]? = some d → as[i]? = some a → Shaped d a ∧ lookup2 (dict2 P) (layerName i) ['w'] = some a.1 ∧ lookup2 (dict2 P) (layerName i) ['b'] = some a.2) :
    ((Prog.applyT (some P) (some S) (.key k) (program (mlp o final true n outs x))).run stackMach w).1 = .ok (.pair (forward o final (some (keyNo k 0)) 0 as x) (.bundle (dict2 S))) ∧
    Function.Injective (keyNo (keyNo k 0)) := by
  rw [← dims_sizes] at hs
  refine ⟨?_, (Verif.Props.Stack.keys_distinct _).1⟩
  have hr : (RngArg.key k).toSeq = .ok (some ⟨left k 0, []⟩) := rfl
  rw [apply_code hw (mlp_ok o final true n outs x) hr]
  obtain ⟨ds, h1, h2, h3⟩ := mlp_flat true o final n outs
  rw [h3 x _ _ _ _ rfl (next_left k 0)]
  have e := apply_loop o final n outs (some (keyNo k 0)) h1 (m := ⟨dict2 P, pairs (dict2 S), some ⟨left k 1, []⟩⟩) hl hs x
  refine (congrArg (Except.map _) e).trans ?_
  exact congrArg (fun d => Except.ok (Val.pair _ (.bundle d))) (extract_new [] S none w)

/-- C201: with dropout and without an rng, `apply` fails. -/
theorem mlp_no_key {w : World} (hw : Bare w) (o : Ops) (final : Bool) (n : Nat) (outs : List Nat) (x : Val) (P S : PDict) :
    ((Prog.applyT (some P) (some S) .none (program (mlp o final true n outs x))).run stackMach w).1 = .error .noRng := by
  rw [apply_code hw (mlp_ok o final true n outs x) (r := none) rfl, mlp, flat, if_pos rfl, flat, answer]
  rfl

/-! ### Example -/

namespace Demo
open Verif.Props.Stack.Net (world)

/-- Arrays of numbers, of which only the sums matter. -/
def ops : Ops where
  draw := fun sh _ k => List.replicate sh.prod (Verif.Props.Stack.depth k)
  dot := fun w b x => .arr ⟨b.shape, .f32, [w.data.sum * (arr x).data.sum + b.data.sum]⟩
  act := fun x => .arr ⟨(arr x).shape, .f32, (arr x).data.map fun i => i + 1⟩
  drop := fun k x => .arr ⟨(arr x).shape, .f32, (arr x).data.map fun i => i * (10 * Verif.Props.Stack.depth k)⟩

def x : Val := .arr ⟨[2], .f32, [1, 2]⟩
def a : Arr × Arr := (⟨[2, 3], .f32, [1, 0, 0, 0, 0, 1]⟩, ⟨[3], .f32, [0, 0, 4]⟩)
def b : Arr × Arr := (⟨[3, 1], .f32, [1, 0, 1]⟩, ⟨[1], .f32, [5]⟩)
def params : PDict := [("mlp/~/linear_0".toList, [(['w'], a.1), (['b'], a.2)]), ("mlp/~/linear_1".toList, [(['w'], b.1), (['b'], b.2)])]

example : ((Prog.initT (.key (.root 0)) (program (mlp ops false false 2 [3, 1] x))).run stackMach world).1 = .ok (.pair (.bundle [
    ("mlp/~/linear_0".toList, [(['w'], ⟨[2, 3], .f32, [1, 1, 1, 1, 1, 1]⟩), (['b'], ⟨[3], .f32, [0, 0, 0]⟩)]),
    ("mlp/~/linear_1".toList, [(['w'], ⟨[3, 1], .f32, [2, 2, 2]⟩), (['b'], ⟨[1], .f32, [0]⟩)])]) (.bundle [])) := mlp_init ⟨rfl, rfl⟩ ops false false 2 [3, 1] x (.root 0)
example : ((Prog.initT (.key (.root 0)) (program (mlp ops false true 2 [3, 1] x))).run stackMach world).1 = .ok (.pair (.bundle [
    ("mlp/~/linear_0".toList, [(['w'], ⟨[2, 3], .f32, [2, 2, 2, 2, 2, 2]⟩), (['b'], ⟨[3], .f32, [0, 0, 0]⟩)]),
    ("mlp/~/linear_1".toList, [(['w'], ⟨[3, 1], .f32, [3, 3, 3]⟩), (['b'], ⟨[1], .f32, [0]⟩)])]) (.bundle [])) := mlp_init ⟨rfl, rfl⟩ ops false true 2 [3, 1] x (.root 0)

theorem shaped : ∀ i d c, (sizes 2 [3, 1])[i]? = some d → [a, b][i]? = some c → Shaped d c ∧ lookup2 (dict2 params) (layerName i) ['w'] = some c.1 ∧ lookup2 (dict2 params) (layerName i) ['b'] = some c.2 := by
  intro i d c hd hc
  match i, hd, hc with
  | 0, hd, hc =>
    cases hd
    cases hc
    exact ⟨⟨rfl, rfl⟩, by decide, by decide⟩
  | 1, hd, hc =>
    cases hd
    cases hc
    exact ⟨⟨rfl, rfl⟩, by decide, by decide⟩

example : ((Prog.applyT (some params) (some []) .none (program (mlp ops false false 2 [3, 1] x))).run stackMach world).1 = .ok (.pair (.arr ⟨[1], .f32, [27]⟩) (.bundle [])) :=
  mlp_apply ⟨rfl, rfl⟩ ops false 2 [3, 1] x rfl [] (as := [a, b]) rfl shaped
example : ((Prog.applyT (some params) (some []) .none (program (mlp ops true false 2 [3, 1] x))).run stackMach world).1 = .ok (.pair (.arr ⟨[1], .f32, [28]⟩) (.bundle [])) :=
  mlp_apply ⟨rfl, rfl⟩ ops true 2 [3, 1] x rfl [] (as := [a, b]) rfl shaped
example : ((Prog.applyT (some params) (some []) (.key (.root 0)) (program (mlp ops false true 2 [3, 1] x))).run stackMach world).1 = .ok (.pair (.arr ⟨[1], .f32, [407]⟩) (.bundle [])) :=
  (mlp_dropout ⟨rfl, rfl⟩ ops false 2 [3, 1] x (.root 0) [] (as := [a, b]) rfl shaped).1
example : ((Prog.applyT (some params) (some []) .none (program (mlp ops false true 2 [3, 1] x))).run stackMach world).1 = .error .noRng := mlp_no_key ⟨rfl, rfl⟩ ops false 2 [3, 1] x params []

end Demo

end Verif.Props.MlpProgram
