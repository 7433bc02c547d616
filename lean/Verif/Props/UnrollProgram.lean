import Verif.Props.DeepTorsoProgram

/-!
# Recurrent cores unrolled over any number of steps through `hk.transform` (C203)

`hk.static_unroll` calls the core once for each step.  `hk.LSTM` and `hk.VanillaRNN` make their linear layers anew in each of these calls, under the same names, so the parameters are made in the first step and found in
all others.  The programs are those of C197.  What is computed with arrays is any function.
-/

set_option linter.unusedVariables false

namespace Verif.Props.UnrollProgram
open Verif Names Frame Verif.Props.Names Verif.Props.ModuleTree Verif.Props.AnyProgram
open Verif.Props.Stack (Bare left keyNo)
open Verif.Props.StraightLine (Fresh bundle dir fresh_plain letter letter_plain number_fmt)
open Verif.Props.ModuleTree.Net (ident)
open Verif.Props.SharedLayers.Mnist (entry)
open Verif.Props.DeepTorsoProgram (layer arr Req Runs step layer_ok layer_init layer_apply sLinear)

/-! ### The programs -/

/-- The array functions in them, any functions here: `draw` is the initialiser of weights (haiku/_src/basic.py 168-172, haiku/_src/recurrent.py 526-527), `dot w b x` is `jnp.dot(x, w) + b` and `mul w x` is `jnp.dot(x, w)` (haiku/_src/basic.py 174-181), `cat x s` is the
input and the hidden part of the state in one, and `cell gated s` the output and the next state (haiku/_src/recurrent.py 299-306), `act a b` is `jax.nn.relu(a + b)` (231), `gru w_i w_h b x s` the next state of a
`GRU` (541-555). -/
structure Ops where
  draw : List Nat → DType → Key → List Int
  dot : Arr → Arr → Val → Val
  mul : Arr → Val → Val
  cat : Val → Val → Val
  cell : Val → Val → Val × Val
  act : Val → Val → Val
  gru : Arr → Arr → Arr → Val → Val → Val

/-- The default names of the cores (haiku/_src/recurrent.py 195, haiku/_src/utils.py 78-96). -/
def sRnn : Str := "vanilla_rnn".toList
/-- haiku/_src/recurrent.py 252. -/
def sLstm : Str := "lstm".toList
/-- haiku/_src/recurrent.py 490. -/
def sGru : Str := "gru".toList
/-- haiku/_src/recurrent.py 536. -/
def sWi : Str := "w_i".toList
/-- haiku/_src/recurrent.py 538. -/
def sWh : Str := "w_h".toList

/-- `hk.Linear(m)` on `n` numbers (haiku/_src/basic.py 159-181). -/
def linear (o : Ops) (n m : Nat) (x : Val) : Code := layer o.draw o.dot [n, m] [m] x

/-- The layer of a `VanillaRNN` for its state, `hk.Linear(h, with_bias=double_bias)` (haiku/_src/recurrent.py 230, haiku/_src/basic.py 159-181). -/
def hidden (o : Ops) (double : Bool) (h : Nat) (x : Val) : Code :=
  if double then linear o h h x else .ask (.param ['w'] [h, h] .f32 (some fun sh dt => .draw fun k => .ret ⟨sh, dt, o.draw sh dt k⟩)) fun w => .ret (o.mul (arr w) x)

/-- The inputs among the two arguments of a core, and the output among its two results (haiku/_src/recurrent.py 128). -/
def inp : Val → Val
  | .pair x _ => x
  | x => x
/-- The state among the arguments, and among the results (haiku/_src/recurrent.py 128). -/
def stt : Val → Val
  | .pair _ s => s
  | _ => .unit

/-- `LSTM.__call__` on inputs of `n` numbers with `hidden_size` `h` (haiku/_src/recurrent.py 292-307; the check of the rank is not in it). -/
def lstm (o : Ops) (n h : Nat) (a : Val) : Code :=
  .make (.node sLinear 0 []) (fun _ x => linear o (n + h) (4 * h) x) <| .call 0 (o.cat (inp a) (stt a)) fun g => .ret (.pair (o.cell g (stt a)).1 (o.cell g (stt a)).2)

/-- `VanillaRNN.__call__` (haiku/_src/recurrent.py 227-232): both layers are made before they are called. -/
def vanilla (o : Ops) (double : Bool) (n h : Nat) (a : Val) : Code :=
  .make (.node sLinear 0 []) (fun _ x => linear o n h x) <| .make (.node sLinear 0 []) (fun _ x => hidden o double h x) <|
  .call 0 (inp a) fun y => .call 1 (stt a) fun z => .ret (.pair (o.act y z) (o.act y z))

/-- `GRU.__call__` (haiku/_src/recurrent.py 530-555; its check of the rank of the inputs is not in it). -/
def gru (o : Ops) (n h : Nat) (a : Val) : Code :=
  .ask (.param sWi [n, 3 * h] .f32 (some fun sh dt => .draw fun k => .ret ⟨sh, dt, o.draw sh dt k⟩)) fun wi =>
  .ask (.param sWh [h, 3 * h] .f32 (some fun sh dt => .draw fun k => .ret ⟨sh, dt, o.draw sh dt k⟩)) fun wh =>
  .ask (.param ['b'] [3 * h] .f32 (some fun sh dt => .ret ⟨sh, dt, List.replicate sh.prod 0⟩)) fun b =>
  .ret (.pair (o.gru (arr wi) (arr wh) (arr b) (inp a) (stt a)) (o.gru (arr wi) (arr wh) (arr b) (inp a) (stt a)))

/-- The loop of `static_unroll` (haiku/_src/recurrent.py 119-135), where the core is module 0 in scope: the outputs so far, and the state.  Stacking the outputs is a list here; without any step the code fails there. -/
def loop : List Val → List Val → Val → Code
  | [], outs, s => .ret (.pair (Val.ofList outs) s)
  | x :: xs, outs, s => .call 0 (.pair x s) fun r => loop xs (outs ++ [inp r]) (stt r)

/-- `hk.static_unroll(Core(...), xs, s)` (haiku/_src/recurrent.py 83-135). -/
def unroll (name : Str) (core : Val → Code) (xs : List Val) (s : Val) : Code := .make (.node name 0 []) (fun _ a => core a) (loop xs [] s)

/-! ### Specification -/

/-- Outputs and last state of a step function, from a state on. -/
def steps (f : Val → Val → Val × Val) : Val → List Val → List Val × Val
  | s, [] => ([], s)
  | s, x :: xs => ((f x s).1 :: (steps f (f x s).2 xs).1, (steps f (f x s).2 xs).2)

/-- As a value. -/
def result (f : Val → Val → Val × Val) (s : Val) (xs : List Val) : Val := .pair (Val.ofList (steps f s xs).1) (steps f s xs).2

/-- One step of an LSTM with weights `w` and `b`. -/
def lstmStep (o : Ops) (w b : Arr) (x s : Val) : Val × Val := o.cell (o.dot w b (o.cat x s)) s
/-- One step of a vanilla RNN: the output is the next state. -/
def vanillaStep (o : Ops) (w b w' b' : Arr) (x s : Val) : Val × Val := (o.act (o.dot w b x) (o.dot w' b' s), o.act (o.dot w b x) (o.dot w' b' s))
/-- One step of a vanilla RNN with one bias. -/
def vanillaStep' (o : Ops) (w b w' : Arr) (x s : Val) : Val × Val := (o.act (o.dot w b x) (o.mul w' s), o.act (o.dot w b x) (o.mul w' s))
/-- One step of a GRU. -/
def gruStep (o : Ops) (wi wh b : Arr) (x s : Val) : Val × Val := (o.gru wi wh b x s, o.gru wi wh b x s)

/-! ### The loop -/

theorem loop_ok : ∀ (xs outs : List Val) (s : Val) (used : List Str), Ok (loop xs outs s) 1 used
  | [], outs, s, used => trivial
  | x :: xs, outs, s, used => ⟨by omega, fun v => loop_ok xs _ _ used⟩

theorem unroll_ok {name : Str} {core : Val → Code} (hn : Fresh [] name) (hc : ∀ a, Ok (core a) 0 []) (xs : List Val) (s : Val) : Ok (unroll name core xs s) 0 [] :=
  ⟨⟨hn, hc, trivial⟩, loop_ok xs [] s _⟩

theorem loop_flat {frozen : Bool} {d : Den} {f : Val → Val → Val × Val} {m : Mem} (h : ∀ x s, d (.pair x s) m = .ok (.pair (f x s).1 (f x s).2, m)) (w : Option Str) (used : List Str) :
    ∀ (xs outs : List Val) (s : Val), flat frozen (loop xs outs s) w used [d] m = .ok (.pair (Val.ofList (outs ++ (steps f s xs).1)) (steps f s xs).2, m)
  | [], outs, s => by
    rw [loop, flat, steps, List.append_nil]
  | x :: xs, outs, s => by
    rw [loop, flat]
    show (match d (.pair x s) m with | .error e => Except.error e | .ok (v, m') => flat frozen (loop xs (outs ++ [inp v]) (stt v)) w used [d] m') = _
    rw [h]
    show flat frozen (loop xs (outs ++ [(f x s).1]) (f x s).2) w used [d] m = _
    rw [loop_flat h w used xs, steps, List.append_assoc]
    rfl

/-- If the first step turns memory `m` to `m'`, and others keep `m'`, so does the whole. -/
theorem unroll_flat {frozen : Bool} {name : Str} (hn : numbered [] name = name) {core : Val → Code} {f : Val → Val → Val × Val} {m m' : Mem}
    (h1 : ∀ x s, flat frozen (core (.pair x s)) (some name) [] [] m = .ok (.pair (f x s).1 (f x s).2, m')) (h2 : ∀ x s, flat frozen (core (.pair x s)) (some name) [] [] m' = .ok (.pair (f x s).1 (f x s).2, m'))
    (x : Val) (xs : List Val) (s : Val) : flat frozen (unroll name core (x :: xs) s) none [] [] m = .ok (result f s (x :: xs), m') := by
  rw [unroll, flat, denO, denOs, hn]
  show flat frozen (loop (x :: xs) [] s) none [name] [fun a m => flat frozen (core a) (some name) [] [] m] m = _
  rw [loop, flat]
  show (match flat frozen (core (.pair x s)) (some name) [] [] m with
    | .error e => Except.error e | .ok (v, m') => flat frozen (loop xs ([] ++ [inp v]) (stt v)) none [name] [fun a m => flat frozen (core a) (some name) [] [] m] m') = _
  rw [h1]
  show flat frozen (loop xs [(f x s).1] (f x s).2) none [name] [fun a m => flat frozen (core a) (some name) [] [] m] m' = _
  rw [loop_flat (f := f) h2]
  rfl

/-! ### The cores -/

/-- For the lemmas on layers of C202. -/
def ofDraw (o : Ops) : DeepTorsoProgram.Ops := ⟨o.draw, fun _ _ x => x, fun _ _ x => x, id, id, id, fun x _ => x, id⟩

theorem lstm_ok (o : Ops) (n h : Nat) (a : Val) : Ok (lstm o n h a) 0 [] :=
  ⟨⟨fresh_plain (ident (by decide) (by decide)) (letter_plain (by decide)) (fun m hm => by cases hm), fun x => layer_ok _ _ _ _ _ _ _, trivial⟩, by omega, fun _ => trivial⟩

theorem hidden_ok (o : Ops) (double : Bool) (h : Nat) (x : Val) (n : Nat) (used : List Str) : Ok (hidden o double h x) n used := by
  unfold hidden
  split
  · exact layer_ok _ _ _ _ _ _ _
  · exact fun _ => trivial

theorem vanilla_ok (o : Ops) (double : Bool) (n h : Nat) (a : Val) : Ok (vanilla o double n h a) 0 [] :=
  ⟨⟨fresh_plain (ident (by decide) (by decide)) (letter_plain (by decide)) (fun m hm => by cases hm), fun x => layer_ok _ _ _ _ _ _ _, trivial⟩,
    ⟨fresh_plain (ident (by decide) (by decide)) (letter_plain (by decide)) (fun m hm => by rw [List.mem_singleton.1 hm]; exact letter_plain (by decide)), fun x => hidden_ok _ _ _ _ _ _, trivial⟩,
    by omega, fun _ => ⟨by omega, fun _ => trivial⟩⟩

theorem gru_ok (o : Ops) (n h : Nat) (a : Val) : Ok (gru o n h a) 0 [] := fun _ _ _ => trivial

theorem lstm_flat {frozen : Bool} {o : Ops} {n h : Nat} {get : Str → Arr × Arr} {m m' : Mem} (hr : Runs frozen (ofDraw o) get ⟨"lstm/linear".toList, [n + h, 4 * h], [4 * h]⟩ m m') (x s : Val) :
    flat frozen (lstm o n h (.pair x s)) (some sLstm) [] [] m =
      .ok (.pair (lstmStep o (get "lstm/linear".toList).1 (get "lstm/linear".toList).2 x s).1 (lstmStep o (get "lstm/linear".toList).1 (get "lstm/linear".toList).2 x s).2, m') := by
  obtain ⟨D, e⟩ := step (c := fun _ x => linear o (n + h) (4 * h) x) (k := fun g => .ret (.pair (o.cell g s).1 (o.cell g s).2)) (w := some sLstm) (used := []) (n := sLinear) (l := 0) (show dir (some sLstm) ++ numbered [] sLinear = "lstm/linear".toList by decide) (hr o.dot (o.cat x s) []) rfl
  exact e.trans rfl

theorem vanilla_flat {frozen : Bool} {o : Ops} {double : Bool} {n h : Nat} {get : Str → Arr × Arr} {m m' m'' : Mem} (h1 : Runs frozen (ofDraw o) get ⟨"vanilla_rnn/linear".toList, [n, h], [h]⟩ m m') {v : Val → Val}
    (h2 : ∀ s ds, flat frozen (hidden o double h s) (some "vanilla_rnn/linear_1".toList) [] ds m' = .ok (v s, m'')) (x s : Val) :
    let f := fun x s => (o.act (o.dot (get "vanilla_rnn/linear".toList).1 (get "vanilla_rnn/linear".toList).2 x) (v s), o.act (o.dot (get "vanilla_rnn/linear".toList).1 (get "vanilla_rnn/linear".toList).2 x) (v s))
    flat frozen (vanilla o double n h (.pair x s)) (some sRnn) [] [] m = .ok (.pair (f x s).1 (f x s).2, m'') := by
  intro f
  have n1 : dir (some sRnn) ++ numbered [] sLinear = "vanilla_rnn/linear".toList := by decide
  have n2 : dir (some sRnn) ++ numbered [sLinear] sLinear = "vanilla_rnn/linear_1".toList := by decide
  let d1 : Den := fun x m => flat frozen (linear o n h x) (some "vanilla_rnn/linear".toList) [] [] m
  let d2 : Den := fun x m => flat frozen (hidden o double h x) (some "vanilla_rnn/linear_1".toList) [] [d1] m
  have e : flat frozen (vanilla o double n h (.pair x s)) (some sRnn) [] [] m = flat frozen (.call 0 x fun y => .call 1 s fun z => .ret (.pair (o.act y z) (o.act y z))) (some sRnn) [sLinear, sLinear] [d1, d2] m := by
    rw [vanilla, flat, denO, denOs, n1, flat, denO, denOs]
    erw [n2]
    rfl
  have v1 : d1 x m = .ok (o.dot (get "vanilla_rnn/linear".toList).1 (get "vanilla_rnn/linear".toList).2 x, m') := h1 o.dot x _
  have v2 : d2 s m' = .ok (v s, m'') := h2 s _
  rw [e, flat]
  show (match d1 x m with | .error e => Except.error e | .ok (y, m') => flat frozen (.call 1 s fun z => .ret (.pair (o.act y z) (o.act y z))) (some sRnn) [sLinear, sLinear] [d1, d2] m') = _
  rw [v1]
  dsimp only
  rw [flat]
  show (match d2 s m' with | .error e => Except.error e | .ok (z, m') => flat frozen (.ret (.pair (o.act _ z) (o.act _ z))) (some sRnn) [sLinear, sLinear] [d1, d2] m') = _
  rw [v2]
  rfl

/-- The layer without a bias, where its weights are there. -/
theorem hidden_apply {frozen : Bool} (o : Ops) {h : Nat} {a : Arr} {q : Str} {m : Mem} (ha : a.shape = [h, h]) (pa : lookup2 m.params q ['w'] = some a) (s : Val) (ds : List Den) :
    flat frozen (hidden o false h s) (some q) [] ds m = .ok (o.mul a s, m) := by
  rw [hidden, if_neg (by decide), flat, answer, show bundle (some q) = q from rfl, pa]
  dsimp only
  rw [if_pos ha]
  rfl

theorem gru_apply_flat {frozen : Bool} {o : Ops} {n h : Nat} {wi wh b : Arr} {m : Mem} (s1 : wi.shape = [n, 3 * h]) (s2 : wh.shape = [h, 3 * h]) (s3 : b.shape = [3 * h])
    (h1 : lookup2 m.params sGru sWi = some wi) (h2 : lookup2 m.params sGru sWh = some wh) (h3 : lookup2 m.params sGru ['b'] = some b) (x s : Val) :
    flat frozen (gru o n h (.pair x s)) (some sGru) [] [] m = .ok (.pair (gruStep o wi wh b x s).1 (gruStep o wi wh b x s).2, m) := by
  rw [gru, flat, answer, show bundle (some sGru) = sGru from rfl, h1]
  dsimp only
  rw [if_pos s1]
  dsimp only
  rw [flat, answer, show bundle (some sGru) = sGru from rfl, h2]
  dsimp only
  rw [if_pos s2]
  dsimp only
  rw [flat, answer, show bundle (some sGru) = sGru from rfl, h3]
  dsimp only
  rw [if_pos s3]
  rfl

/-- The parameters a GRU begins with. -/
def gruEntry (draw : List Nat → DType → Key → List Int) (k k' : Key) (n h : Nat) : Dict Str Arr :=
  [(sWi, ⟨[n, 3 * h], .f32, draw [n, 3 * h] .f32 k⟩), (sWh, ⟨[h, 3 * h], .f32, draw [h, 3 * h] .f32 k'⟩), (['b'], ⟨[3 * h], .f32, List.replicate (3 * h) 0⟩)]

theorem gru_init_flat (o : Ops) (n h : Nat) (k : Key) (x s : Val) :
    let wi : Arr := ⟨[n, 3 * h], .f32, o.draw [n, 3 * h] .f32 (keyNo k 0)⟩
    let wh : Arr := ⟨[h, 3 * h], .f32, o.draw [h, 3 * h] .f32 (keyNo k 1)⟩
    let b : Arr := ⟨[3 * h], .f32, List.replicate (3 * h) 0⟩
    flat false (gru o n h (.pair x s)) (some sGru) [] [] ⟨[], [], some ⟨left k 0, []⟩⟩ = .ok (.pair (gruStep o wi wh b x s).1 (gruStep o wi wh b x s).2, ⟨[(sGru, gruEntry o.draw (keyNo k 0) (keyNo k 1) n h)], [], some ⟨left k 2, []⟩⟩) := by
  intro wi wh b
  have a1 : answer false sGru (.param sWi [n, 3 * h] .f32 (some fun sh dt => .draw fun k => .ret ⟨sh, dt, o.draw sh dt k⟩)) ⟨[], [], some ⟨left k 0, []⟩⟩ =
    if [n, 3 * h] = [n, 3 * h] then .ok (.arr wi, ⟨[(sGru, [(sWi, wi)])], [], some ⟨left k 1, []⟩⟩) else .error .shapeMismatch := rfl
  have a2 : answer false sGru (.param sWh [h, 3 * h] .f32 (some fun sh dt => .draw fun k => .ret ⟨sh, dt, o.draw sh dt k⟩)) ⟨[(sGru, [(sWi, wi)])], [], some ⟨left k 1, []⟩⟩ =
    if [h, 3 * h] = [h, 3 * h] then .ok (.arr wh, ⟨[(sGru, [(sWi, wi), (sWh, wh)])], [], some ⟨left k 2, []⟩⟩) else .error .shapeMismatch := rfl
  have a3 : answer false sGru (.param ['b'] [3 * h] .f32 (some fun sh dt => .ret ⟨sh, dt, List.replicate sh.prod 0⟩)) ⟨[(sGru, [(sWi, wi), (sWh, wh)])], [], some ⟨left k 2, []⟩⟩ =
    if [3 * h] = [3 * h] then .ok (.arr ⟨[3 * h], .f32, List.replicate [3 * h].prod 0⟩, ⟨[(sGru, [(sWi, wi), (sWh, wh), (['b'], ⟨[3 * h], .f32, List.replicate [3 * h].prod 0⟩)])], [], some ⟨left k 2, []⟩⟩) else .error .shapeMismatch := rfl
  rw [if_pos rfl] at a1 a2 a3
  rw [List.prod_singleton] at a3
  rw [gru, flat, show bundle (some sGru) = sGru from rfl, a1]
  dsimp only
  rw [flat, show bundle (some sGru) = sGru from rfl, a2]
  dsimp only
  rw [flat, show bundle (some sGru) = sGru from rfl, a3]
  rfl

theorem found (o : DeepTorsoProgram.Ops) {get : Str → Arr × Arr} {q : Str} {sw sb : List Nat} {a b : Arr} (g : get q = (a, b)) (ha : a.shape = sw) (hb : b.shape = sb) {m : Mem} (pa : lookup2 m.params q ['w'] = some a)
    (pb : lookup2 m.params q ['b'] = some b) : Runs true o get ⟨q, sw, sb⟩ m m := by
  have e1 : (get q).1 = a := by rw [g]
  have e2 : (get q).2 = b := by rw [g]
  exact layer_apply o get (r := ⟨q, sw, sb⟩) (e1.symm ▸ ha) (e2.symm ▸ hb) (e1.symm ▸ pa) (e2.symm ▸ pb) true

theorem name_fresh {s : Str} (h : validIdentifier s = true) (hn : '\n' ∉ s) (hl : letter s = true) : Fresh [] s := fresh_plain (ident h hn) (letter_plain hl) (fun m hm => by cases hm)

/-! ### Theorems -/

/-- C203: `init` of an unrolled LSTM returns the parameters of one linear layer, `lstm/linear`, drawn with the first key, however many steps there are. -/
theorem lstm_init {w : World} (hw : Bare w) (o : Ops) (n h : Nat) (k : Key) (x : Val) (xs : List Val) (s : Val) :
    ((Prog.initT (.key k) (program (unroll sLstm (lstm o n h) (x :: xs) s))).run stackMach w).1 =
      .ok (.pair (.bundle [("lstm/linear".toList, entry o.draw (keyNo k 0) (n + h) (4 * h))]) (.bundle [])) := by
  have hr : (RngArg.key k).toSeq = .ok (some ⟨left k 0, []⟩) := rfl
  rw [init_code hw (unroll_ok (name_fresh (by decide) (by decide) (by decide)) (lstm_ok o n h) _ _) hr]
  let r : Req := ⟨"lstm/linear".toList, [n + h, 4 * h], [4 * h]⟩
  let get : Str → Arr × Arr := fun _ => DeepTorsoProgram.fresh (ofDraw o) (keyNo k 0) r
  let P : PDict := [(r.name, [(['w'], (get r.name).1), (['b'], (get r.name).2)])]
  have h1 : Runs false (ofDraw o) get r ⟨[], [], some ⟨left k 0, []⟩⟩ ⟨P, [], some ⟨left k 1, []⟩⟩ := layer_init (ofDraw o) get List.not_mem_nil [] k 0 rfl
  have h2 : Runs false (ofDraw o) get r ⟨P, [], some ⟨left k 1, []⟩⟩ ⟨P, [], some ⟨left k 1, []⟩⟩ := layer_apply (ofDraw o) get rfl rfl rfl rfl false
  rw [unroll_flat (by decide) (lstm_flat h1) (lstm_flat h2)]
  show Except.ok (Val.pair (.bundle P) (.bundle [])) = _
  have e : [4 * h].prod = 4 * h := List.prod_singleton
  have e' : (get r.name).2 = ⟨[4 * h], .f32, List.replicate (4 * h) 0⟩ := by
    show Arr.mk [4 * h] .f32 (List.replicate [4 * h].prod 0) = _
    rw [e]
  show Except.ok (Val.pair (.bundle [(r.name, [(['w'], (get r.name).1), (['b'], (get r.name).2)])]) (.bundle [])) = _
  rw [e']
  rfl

/-- C203: `apply` of an unrolled LSTM takes the state through all steps with the same weights, with any rng or none, whatever other parameters there are. -/
theorem lstm_apply {w : World} (hw : Bare w) (o : Ops) (n h : Nat) {rng : RngArg} {r : Option PRNGSeq} (hr : rng.toSeq = .ok r) {P : PDict} (S : PDict) {a b : Arr} (ha : a.shape = [n + h, 4 * h]) (hb : b.shape = [4 * h])
    (pa : lookup2 (dict2 P) "lstm/linear".toList ['w'] = some a) (pb : lookup2 (dict2 P) "lstm/linear".toList ['b'] = some b) (x : Val) (xs : List Val) (s : Val) :
    ((Prog.applyT (some P) (some S) rng (program (unroll sLstm (lstm o n h) (x :: xs) s))).run stackMach w).1 = .ok (.pair (result (lstmStep o a b) s (x :: xs)) (.bundle (dict2 S))) := by
  rw [apply_code hw (unroll_ok (name_fresh (by decide) (by decide) (by decide)) (lstm_ok o n h) _ _) hr]
  have h1 : Runs true (ofDraw o) (fun _ => (a, b)) ⟨"lstm/linear".toList, [n + h, 4 * h], [4 * h]⟩ ⟨dict2 P, pairs (dict2 S), r⟩ ⟨dict2 P, pairs (dict2 S), r⟩ := layer_apply (ofDraw o) (fun _ => (a, b)) ha hb pa pb true
  rw [unroll_flat (by decide) (lstm_flat h1) (lstm_flat h1)]
  exact congrArg (fun d => Except.ok (Val.pair _ (.bundle d))) (extract_new [] S r w)

/-- C203: `init` of an unrolled vanilla RNN returns the parameters of two linear layers, drawn with the first two keys, however many steps there are: `linear` is for the inputs and `linear_1` for the state. -/
theorem vanilla_init {w : World} (hw : Bare w) (o : Ops) (n h : Nat) (k : Key) (x : Val) (xs : List Val) (s : Val) :
    ((Prog.initT (.key k) (program (unroll sRnn (vanilla o true n h) (x :: xs) s))).run stackMach w).1 =
      .ok (.pair (.bundle [("vanilla_rnn/linear".toList, entry o.draw (keyNo k 0) n h), ("vanilla_rnn/linear_1".toList, entry o.draw (keyNo k 1) h h)]) (.bundle [])) := by
  have hr : (RngArg.key k).toSeq = .ok (some ⟨left k 0, []⟩) := rfl
  rw [init_code hw (unroll_ok (name_fresh (by decide) (by decide) (by decide)) (vanilla_ok o true n h) _ _) hr]
  let r : Req := ⟨"vanilla_rnn/linear".toList, [n, h], [h]⟩
  let r' : Req := ⟨"vanilla_rnn/linear_1".toList, [h, h], [h]⟩
  let get : Str → Arr × Arr := fun q => if q = r.name then DeepTorsoProgram.fresh (ofDraw o) (keyNo k 0) r else DeepTorsoProgram.fresh (ofDraw o) (keyNo k 1) r'
  have g1 : get r.name = DeepTorsoProgram.fresh (ofDraw o) (keyNo k 0) r := if_pos rfl
  have g2 : get r'.name = DeepTorsoProgram.fresh (ofDraw o) (keyNo k 1) r' := if_neg (show "vanilla_rnn/linear_1".toList ≠ "vanilla_rnn/linear".toList by decide)
  let P1 : PDict := [(r.name, [(['w'], (DeepTorsoProgram.fresh (ofDraw o) (keyNo k 0) r).1), (['b'], (DeepTorsoProgram.fresh (ofDraw o) (keyNo k 0) r).2)])]
  let P2 : PDict := P1 ++ [(r'.name, [(['w'], (DeepTorsoProgram.fresh (ofDraw o) (keyNo k 1) r').1), (['b'], (DeepTorsoProgram.fresh (ofDraw o) (keyNo k 1) r').2)])]
  have h1 : Runs false (ofDraw o) get r ⟨[], [], some ⟨left k 0, []⟩⟩ ⟨P1, [], some ⟨left k 1, []⟩⟩ := layer_init (ofDraw o) get List.not_mem_nil [] k 0 g1
  have h2 : Runs false (ofDraw o) get r' ⟨P1, [], some ⟨left k 1, []⟩⟩ ⟨P2, [], some ⟨left k 2, []⟩⟩ := layer_init (ofDraw o) get (P := P1) (show "vanilla_rnn/linear_1".toList ∉ ["vanilla_rnn/linear".toList] by decide) [] k 1 g2
  have h3 : Runs false (ofDraw o) get r ⟨P2, [], some ⟨left k 2, []⟩⟩ ⟨P2, [], some ⟨left k 2, []⟩⟩ := layer_apply (ofDraw o) get (by rw [g1]; rfl) (by rw [g1]; rfl) (by rw [g1]; rfl) (by rw [g1]; rfl) false
  have h4 : Runs false (ofDraw o) get r' ⟨P2, [], some ⟨left k 2, []⟩⟩ ⟨P2, [], some ⟨left k 2, []⟩⟩ := layer_apply (ofDraw o) get (by rw [g2]; rfl) (by rw [g2]; rfl) (by rw [g2]; rfl) (by rw [g2]; rfl) false
  rw [unroll_flat (by decide) (vanilla_flat (double := true) (v := o.dot (get r'.name).1 (get r'.name).2) h1 (h2 o.dot)) (vanilla_flat h3 (h4 o.dot))]
  show Except.ok (Val.pair (.bundle P2) (.bundle [])) = _
  have e : ∀ k r, r.b = [h] → (DeepTorsoProgram.fresh (ofDraw o) k r).2 = ⟨[h], .f32, List.replicate h 0⟩ := fun k r hr => by
    show Arr.mk r.b .f32 (List.replicate r.b.prod 0) = _
    rw [hr, List.prod_singleton]
  show Except.ok (Val.pair (.bundle [(r.name, [(['w'], _), (['b'], (DeepTorsoProgram.fresh (ofDraw o) (keyNo k 0) r).2)]), (r'.name, [(['w'], _), (['b'], (DeepTorsoProgram.fresh (ofDraw o) (keyNo k 1) r').2)])]) (.bundle [])) = _
  rw [e _ r rfl, e _ r' rfl]
  rfl

/-- C203: `apply` of an unrolled vanilla RNN takes the state through all steps with the same weights; each output is the next state. -/
theorem vanilla_apply {w : World} (hw : Bare w) (o : Ops) (n h : Nat) {rng : RngArg} {r : Option PRNGSeq} (hr : rng.toSeq = .ok r) {P : PDict} (S : PDict) {a b a' b' : Arr} (ha : a.shape = [n, h]) (hb : b.shape = [h])
    (ha' : a'.shape = [h, h]) (hb' : b'.shape = [h]) (pa : lookup2 (dict2 P) "vanilla_rnn/linear".toList ['w'] = some a) (pb : lookup2 (dict2 P) "vanilla_rnn/linear".toList ['b'] = some b)
    (pa' : lookup2 (dict2 P) "vanilla_rnn/linear_1".toList ['w'] = some a') (pb' : lookup2 (dict2 P) "vanilla_rnn/linear_1".toList ['b'] = some b') (x : Val) (xs : List Val) (s : Val) :
    ((Prog.applyT (some P) (some S) rng (program (unroll sRnn (vanilla o true n h) (x :: xs) s))).run stackMach w).1 = .ok (.pair (result (vanillaStep o a b a' b') s (x :: xs)) (.bundle (dict2 S))) := by
  rw [apply_code hw (unroll_ok (name_fresh (by decide) (by decide) (by decide)) (vanilla_ok o true n h) _ _) hr]
  let get : Str → Arr × Arr := fun q => if q = "vanilla_rnn/linear".toList then (a, b) else (a', b')
  have g1 : get "vanilla_rnn/linear".toList = (a, b) := if_pos rfl
  have g2 : get "vanilla_rnn/linear_1".toList = (a', b') := if_neg (by decide)
  have h1 : Runs true (ofDraw o) get ⟨"vanilla_rnn/linear".toList, [n, h], [h]⟩ ⟨dict2 P, pairs (dict2 S), r⟩ ⟨dict2 P, pairs (dict2 S), r⟩ :=
    found (ofDraw o) g1 ha hb pa pb
  have h2 : Runs true (ofDraw o) get ⟨"vanilla_rnn/linear_1".toList, [h, h], [h]⟩ ⟨dict2 P, pairs (dict2 S), r⟩ ⟨dict2 P, pairs (dict2 S), r⟩ :=
    found (ofDraw o) g2 ha' hb' pa' pb'
  have hf := vanilla_flat (double := true) (v := o.dot (get "vanilla_rnn/linear_1".toList).1 (get "vanilla_rnn/linear_1".toList).2) h1 (h2 o.dot)
  rw [g1, g2] at hf
  rw [unroll_flat (by decide) hf hf]
  exact congrArg (fun d => Except.ok (Val.pair _ (.bundle d))) (extract_new [] S r w)

/-- C203: with `double_bias=False` the layer for the state has no `b`, and the same keys are drawn. -/
theorem vanilla_single_init {w : World} (hw : Bare w) (o : Ops) (n h : Nat) (k : Key) (x : Val) (xs : List Val) (s : Val) :
    ((Prog.initT (.key k) (program (unroll sRnn (vanilla o false n h) (x :: xs) s))).run stackMach w).1 =
      .ok (.pair (.bundle [("vanilla_rnn/linear".toList, entry o.draw (keyNo k 0) n h), ("vanilla_rnn/linear_1".toList, [(['w'], ⟨[h, h], .f32, o.draw [h, h] .f32 (keyNo k 1)⟩)])]) (.bundle [])) := by
  have hr : (RngArg.key k).toSeq = .ok (some ⟨left k 0, []⟩) := rfl
  rw [init_code hw (unroll_ok (name_fresh (by decide) (by decide) (by decide)) (vanilla_ok o false n h) _ _) hr]
  let r : Req := ⟨"vanilla_rnn/linear".toList, [n, h], [h]⟩
  let get : Str → Arr × Arr := fun _ => DeepTorsoProgram.fresh (ofDraw o) (keyNo k 0) r
  let a : Arr := ⟨[h, h], .f32, o.draw [h, h] .f32 (keyNo k 1)⟩
  let P1 : PDict := [(r.name, [(['w'], (get r.name).1), (['b'], (get r.name).2)])]
  let P2 : PDict := P1 ++ [("vanilla_rnn/linear_1".toList, [(['w'], a)])]
  have h1 : Runs false (ofDraw o) get r ⟨[], [], some ⟨left k 0, []⟩⟩ ⟨P1, [], some ⟨left k 1, []⟩⟩ := layer_init (ofDraw o) get List.not_mem_nil [] k 0 rfl
  have h2 : ∀ s ds, flat false (hidden o false h s) (some "vanilla_rnn/linear_1".toList) [] ds ⟨P1, [], some ⟨left k 1, []⟩⟩ = .ok (o.mul a s, ⟨P2, [], some ⟨left k 2, []⟩⟩) := fun s ds => by
    have e : answer false "vanilla_rnn/linear_1".toList (.param ['w'] [h, h] .f32 (some fun sh dt => .draw fun k => .ret ⟨sh, dt, o.draw sh dt k⟩)) ⟨P1, [], some ⟨left k 1, []⟩⟩ =
      if [h, h] = [h, h] then .ok (.arr a, ⟨P2, [], some ⟨left k 2, []⟩⟩) else .error .shapeMismatch := rfl
    rw [if_pos rfl] at e
    rw [hidden, if_neg (by decide), flat]
    erw [e]
    rfl
  have h3 : Runs false (ofDraw o) get r ⟨P2, [], some ⟨left k 2, []⟩⟩ ⟨P2, [], some ⟨left k 2, []⟩⟩ := layer_apply (ofDraw o) get rfl rfl rfl rfl false
  rw [unroll_flat (by decide) (vanilla_flat h1 h2) (vanilla_flat h3 (hidden_apply o rfl rfl))]
  have e' : (get r.name).2 = ⟨[h], .f32, List.replicate h 0⟩ := by
    show Arr.mk [h] .f32 (List.replicate [h].prod 0) = _
    rw [List.prod_singleton]
  show Except.ok (Val.pair (.bundle [(r.name, [(['w'], (get r.name).1), (['b'], (get r.name).2)]), ("vanilla_rnn/linear_1".toList, [(['w'], a)])]) (.bundle [])) = _
  rw [e']
  rfl

/-- C203: with `double_bias=False` the steps are those without the second bias. -/
theorem vanilla_single_apply {w : World} (hw : Bare w) (o : Ops) (n h : Nat) {rng : RngArg} {r : Option PRNGSeq} (hr : rng.toSeq = .ok r) {P : PDict} (S : PDict) {a b a' : Arr} (ha : a.shape = [n, h]) (hb : b.shape = [h])
    (ha' : a'.shape = [h, h]) (pa : lookup2 (dict2 P) "vanilla_rnn/linear".toList ['w'] = some a) (pb : lookup2 (dict2 P) "vanilla_rnn/linear".toList ['b'] = some b)
    (pa' : lookup2 (dict2 P) "vanilla_rnn/linear_1".toList ['w'] = some a') (x : Val) (xs : List Val) (s : Val) :
    ((Prog.applyT (some P) (some S) rng (program (unroll sRnn (vanilla o false n h) (x :: xs) s))).run stackMach w).1 = .ok (.pair (result (vanillaStep' o a b a') s (x :: xs)) (.bundle (dict2 S))) := by
  rw [apply_code hw (unroll_ok (name_fresh (by decide) (by decide) (by decide)) (vanilla_ok o false n h) _ _) hr]
  have h1 : Runs true (ofDraw o) (fun _ => (a, b)) ⟨"vanilla_rnn/linear".toList, [n, h], [h]⟩ ⟨dict2 P, pairs (dict2 S), r⟩ ⟨dict2 P, pairs (dict2 S), r⟩ := found (ofDraw o) rfl ha hb pa pb
  have hf := vanilla_flat h1 (hidden_apply (frozen := true) o (m := ⟨dict2 P, pairs (dict2 S), r⟩) ha' pa')
  rw [unroll_flat (f := vanillaStep' o a b a') (by decide) hf hf]
  exact congrArg (fun d => Except.ok (Val.pair _ (.bundle d))) (extract_new [] S r w)

/-- C203: `init` of an unrolled GRU returns its three parameters, the weights drawn with the first two keys, however many steps there are. -/
theorem gru_init {w : World} (hw : Bare w) (o : Ops) (n h : Nat) (k : Key) (x : Val) (xs : List Val) (s : Val) :
    ((Prog.initT (.key k) (program (unroll sGru (gru o n h) (x :: xs) s))).run stackMach w).1 = .ok (.pair (.bundle [("gru".toList, gruEntry o.draw (keyNo k 0) (keyNo k 1) n h)]) (.bundle [])) := by
  have hr : (RngArg.key k).toSeq = .ok (some ⟨left k 0, []⟩) := rfl
  rw [init_code hw (unroll_ok (name_fresh (by decide) (by decide) (by decide)) (gru_ok o n h) _ _) hr]
  rw [unroll_flat (by decide) (gru_init_flat o n h k) (gru_apply_flat (m := ⟨[(sGru, gruEntry o.draw (keyNo k 0) (keyNo k 1) n h)], [], some ⟨left k 2, []⟩⟩) rfl rfl rfl rfl rfl rfl)]
  rfl

/-- C203: `apply` of an unrolled GRU takes the state through all steps with the same weights; each output is the next state. -/
theorem gru_apply {w : World} (hw : Bare w) (o : Ops) (n h : Nat) {rng : RngArg} {r : Option PRNGSeq} (hr : rng.toSeq = .ok r) {P : PDict} (S : PDict) {wi wh b : Arr} (s1 : wi.shape = [n, 3 * h]) (s2 : wh.shape = [h, 3 * h])
    (s3 : b.shape = [3 * h]) (p1 : lookup2 (dict2 P) "gru".toList "w_i".toList = some wi) (p2 : lookup2 (dict2 P) "gru".toList "w_h".toList = some wh) (p3 : lookup2 (dict2 P) "gru".toList ['b'] = some b) (x : Val) (xs : List Val) (s : Val) :
    ((Prog.applyT (some P) (some S) rng (program (unroll sGru (gru o n h) (x :: xs) s))).run stackMach w).1 = .ok (.pair (result (gruStep o wi wh b) s (x :: xs)) (.bundle (dict2 S))) := by
  rw [apply_code hw (unroll_ok (name_fresh (by decide) (by decide) (by decide)) (gru_ok o n h) _ _) hr]
  have hf := gru_apply_flat (frozen := true) (o := o) (m := ⟨dict2 P, pairs (dict2 S), r⟩) s1 s2 s3 p1 p2 p3
  rw [unroll_flat (by decide) hf hf]
  exact congrArg (fun d => Except.ok (Val.pair _ (.bundle d))) (extract_new [] S r w)

/-! ### Example -/

namespace Demo
open Verif.Props.Stack.Net (world)

def num (i : Int) : Val := .arr ⟨[1], .f32, [i]⟩
def val (x : Val) : Int := (arr x).data.sum

/-- Arrays of one number. -/
def ops : Ops where
  draw := fun sh _ k => List.replicate sh.prod (Verif.Props.Stack.depth k)
  dot := fun w b x => num (w.data.sum * val x + b.data.sum)
  mul := fun w x => num (w.data.sum * val x)
  cat := fun x s => num (val x + 10 * val s)
  cell := fun g s => (num (val g), num (val g + val s))
  act := fun a b => num (max 0 (val a + val b))
  gru := fun wi wh b x s => num (wi.data.sum * val x + wh.data.sum * val s + b.data.sum)

def w2 : Arr := ⟨[2, 4], .f32, [2]⟩
def b4 : Arr := ⟨[4], .f32, [1]⟩
def w1 : Arr := ⟨[1, 1], .f32, [3]⟩
def b1 : Arr := ⟨[1], .f32, [0]⟩
def w3 : Arr := ⟨[1, 3], .f32, [5]⟩
def b3 : Arr := ⟨[3], .f32, [1]⟩

example : ((Prog.initT (.key (.root 0)) (program (unroll sLstm (lstm ops 1 1) [num 1, num 2] (num 0)))).run stackMach world).1 =
    .ok (.pair (.bundle [("lstm/linear".toList, [(['w'], ⟨[2, 4], .f32, [1, 1, 1, 1, 1, 1, 1, 1]⟩), (['b'], ⟨[4], .f32, [0, 0, 0, 0]⟩)])]) (.bundle [])) := lstm_init ⟨rfl, rfl⟩ ops 1 1 (.root 0) (num 1) [num 2] (num 0)
example : ((Prog.applyT (some [("lstm/linear".toList, [(['w'], w2), (['b'], b4)])]) (some []) .none (program (unroll sLstm (lstm ops 1 1) [num 1, num 2] (num 0)))).run stackMach world).1 =
    .ok (.pair (.pair (Val.ofList [num 3, num 65]) (num 68)) (.bundle [])) := lstm_apply ⟨rfl, rfl⟩ ops 1 1 rfl [] (a := w2) (b := b4) rfl rfl (by decide) (by decide) (num 1) [num 2] (num 0)
example : ((Prog.initT (.key (.root 0)) (program (unroll sRnn (vanilla ops true 1 1) [num 1, num 2] (num 0)))).run stackMach world).1 =
    .ok (.pair (.bundle [("vanilla_rnn/linear".toList, [(['w'], ⟨[1, 1], .f32, [1]⟩), (['b'], ⟨[1], .f32, [0]⟩)]), ("vanilla_rnn/linear_1".toList, [(['w'], ⟨[1, 1], .f32, [2]⟩), (['b'], ⟨[1], .f32, [0]⟩)])]) (.bundle [])) :=
  vanilla_init ⟨rfl, rfl⟩ ops 1 1 (.root 0) (num 1) [num 2] (num 0)
example : ((Prog.applyT (some [("vanilla_rnn/linear".toList, [(['w'], w1), (['b'], b1)]), ("vanilla_rnn/linear_1".toList, [(['w'], w1), (['b'], b1)])]) (some []) .none
    (program (unroll sRnn (vanilla ops true 1 1) [num 1, num 2] (num 0)))).run stackMach world).1 = .ok (.pair (.pair (Val.ofList [num 3, num 15]) (num 15)) (.bundle [])) :=
  vanilla_apply ⟨rfl, rfl⟩ ops 1 1 rfl [] (a := w1) (b := b1) (a' := w1) (b' := b1) rfl rfl rfl rfl (by decide) (by decide) (by decide) (by decide) (num 1) [num 2] (num 0)
example : ((Prog.initT (.key (.root 0)) (program (unroll sRnn (vanilla ops false 1 1) [num 1, num 2] (num 0)))).run stackMach world).1 =
    .ok (.pair (.bundle [("vanilla_rnn/linear".toList, [(['w'], ⟨[1, 1], .f32, [1]⟩), (['b'], ⟨[1], .f32, [0]⟩)]), ("vanilla_rnn/linear_1".toList, [(['w'], ⟨[1, 1], .f32, [2]⟩)])]) (.bundle [])) :=
  vanilla_single_init ⟨rfl, rfl⟩ ops 1 1 (.root 0) (num 1) [num 2] (num 0)
example : ((Prog.applyT (some [("vanilla_rnn/linear".toList, [(['w'], w1), (['b'], b1)]), ("vanilla_rnn/linear_1".toList, [(['w'], w1)])]) (some []) .none
    (program (unroll sRnn (vanilla ops false 1 1) [num 1, num 2] (num 0)))).run stackMach world).1 = .ok (.pair (.pair (Val.ofList [num 3, num 15]) (num 15)) (.bundle [])) :=
  vanilla_single_apply ⟨rfl, rfl⟩ ops 1 1 rfl [] (a := w1) (b := b1) (a' := w1) rfl rfl rfl (by decide) (by decide) (by decide) (num 1) [num 2] (num 0)
example : ((Prog.initT (.key (.root 0)) (program (unroll sGru (gru ops 1 1) [num 1, num 2] (num 0)))).run stackMach world).1 =
    .ok (.pair (.bundle [("gru".toList, [("w_i".toList, ⟨[1, 3], .f32, [1, 1, 1]⟩), ("w_h".toList, ⟨[1, 3], .f32, [2, 2, 2]⟩), (['b'], ⟨[3], .f32, [0, 0, 0]⟩)])]) (.bundle [])) := gru_init ⟨rfl, rfl⟩ ops 1 1 (.root 0) (num 1) [num 2] (num 0)
example : ((Prog.applyT (some [("gru".toList, [("w_i".toList, w3), ("w_h".toList, w3), (['b'], b3)])]) (some []) .none (program (unroll sGru (gru ops 1 1) [num 1, num 2] (num 0)))).run stackMach world).1 =
    .ok (.pair (.pair (Val.ofList [num 6, num 41]) (num 41)) (.bundle [])) := gru_apply ⟨rfl, rfl⟩ ops 1 1 rfl [] (wi := w3) (wh := w3) (b := b3) rfl rfl rfl (by decide) (by decide) (by decide) (num 1) [num 2] (num 0)

end Demo

end Verif.Props.UnrollProgram
