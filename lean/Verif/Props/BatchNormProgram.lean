import Mathlib.Logic.Function.Iterate
import Verif.Props.AnyProgram

/-!
# Batch normalisation through `hk.transform_with_state` (C198)

`hk.BatchNorm(create_scale=True, create_offset=True, decay_rate)` makes two averages in its `__init__`, which keep their values in state.  Here it is a program in the sense of C197: names, state and
parameters are those of the model of frames.  What is computed with arrays is any function.
-/

set_option linter.unusedVariables false

namespace Verif.Props.BatchNormProgram
open Verif Names Frame Verif.Props.Names Verif.Props.ModuleTree Verif.Props.AnyProgram
open Verif.Props.Stack (Bare)
open Verif.Props.StraightLine (Fresh bundle dir fresh_plain letter letter_plain)
open Verif.Props.ModuleTree.Net (ident)

/-! ### The program -/

/-- The default name of the module (haiku/_src/batch_norm.py 38, haiku/_src/utils.py 78-96). -/
def sBn : Str := "batch_norm".toList
/-- haiku/_src/batch_norm.py 119. -/
def sMean : Str := "mean_ema".toList
/-- haiku/_src/batch_norm.py 120. -/
def sVar : Str := "var_ema".toList
/-- haiku/_src/moving_averages.py 112. -/
def sCounter : Str := "counter".toList
/-- haiku/_src/moving_averages.py 121. -/
def sHidden : Str := "hidden".toList
/-- haiku/_src/moving_averages.py 131. -/
def sAverage : Str := "average".toList
/-- haiku/_src/batch_norm.py 189. -/
def sScale : Str := "scale".toList
/-- haiku/_src/batch_norm.py 194. -/
def sOffset : Str := "offset".toList

/-- The operations on arrays, any functions: statistics of a batch (haiku/_src/batch_norm.py 164-176), the shape of scale and offset (186), the normalised batch (201-203), `counter + 1`, `hidden * decay + value * (1 - decay)`
and `hidden / (1 - decay ** counter)` (haiku/_src/moving_averages.py 112-127). -/
structure Ops where
  mean : Arr → Arr
  var : Arr → Arr
  shape : Arr → List Nat
  norm : Arr → Arr → Arr → Arr → Arr → Arr
  succ : Arr → Arr
  step : Arr → Arr → Arr
  debias : Arr → Arr → Arr

/-- `jnp.zeros`, and `jnp.ones` with 1 (haiku/_src/batch_norm.py 112-113, haiku/_src/moving_averages.py 112-121). -/
def full (i : Int) : Initializer := fun sh dt => .ret ⟨sh, dt, List.replicate sh.prod i⟩

/-- The array in a value. -/
def arr : Val → Arr
  | .arr a => a
  | _ => ⟨[], .f32, []⟩

/-- `ExponentialMovingAverage.__call__` with `update_stats`, zero debiasing and no warm-up (haiku/_src/moving_averages.py 92-133); without a value it is the property `average` (135-138), which is entered as a
method of its own, which only matters for modules made there. -/
def ema (o : Ops) : Val → Code
  | .arr v => .ask (.getState sCounter (some []) (some .i32) (some (full 0))) fun c => .ask (.getState sHidden (some v.shape) (some v.dtype) (some (full 0))) fun h =>
    .ask (.setState sCounter (o.succ (arr c))) fun _ => .ask (.setState sHidden (o.step (arr h) v)) fun _ => .ask (.setState sAverage (o.debias (o.step (arr h) v) (o.succ (arr c)))) fun _ =>
    .ret (.arr (o.debias (o.step (arr h) v) (o.succ (arr c))))
  | _ => .ask (.getState sAverage none (some .f32) none) .ret

/-- Scale, offset and the result (haiku/_src/batch_norm.py 186-203). -/
def finish (o : Ops) (x mean var : Arr) : Code :=
  .ask (.param sScale (o.shape x) x.dtype (some (full 1))) fun s => .ask (.param sOffset (o.shape x) x.dtype (some (full 0))) fun b => .ret (.arr (o.norm x mean var (arr s) (arr b)))

/-- `BatchNorm.__call__` (haiku/_src/batch_norm.py 122-203), where the averages are the modules 0 and 1 in scope. -/
def call (o : Ops) (training localStats : Bool) (x : Arr) : Code :=
  if training then .call 0 (.arr (o.mean x)) fun _ => .call 1 (.arr (o.var x)) fun _ => finish o x (o.mean x) (o.var x)
  else if localStats then finish o x (o.mean x) (o.var x)
  else .call 0 .unit fun m => .call 1 .unit fun v => finish o x (arr m) (arr v)

/-- `hk.BatchNorm(True, True, decay_rate)(x, is_training, test_local_stats)` (haiku/_src/batch_norm.py 61-203): two averages are made in `__init__` (119-120). -/
def bn (o : Ops) (training localStats : Bool) (x : Arr) : Code :=
  .make (.node sBn 0 [.node sMean 1 [], .node sVar 1 []]) (fun l x => if l = 0 then call o training localStats (arr x) else ema o x) (.call 0 (.arr x) .ret)

/-! ### Specification -/

/-- The parameters. -/
def weights (s b : Arr) : PDict := [(sBn, [(sScale, s), (sOffset, b)])]

/-- The state. -/
def averages {β : Type} (c h a c' h' a' : β) : Dict Str (Dict Str β) :=
  [("batch_norm/~/mean_ema".toList, [(sCounter, c), (sHidden, h), (sAverage, a)]), ("batch_norm/~/var_ema".toList, [(sCounter, c'), (sHidden, h'), (sAverage, a')])]

theorem bn_ok (o : Ops) (training localStats : Bool) (x : Arr) : Ok (bn o training localStats x) 0 [] := by
  have h1 : Fresh [] sBn := fresh_plain (ident (by decide) (by decide)) (letter_plain (by decide)) (fun m hm => by cases hm)
  have h2 : Fresh [] sMean := fresh_plain (ident (by decide) (by decide)) (letter_plain (by decide)) (fun m hm => by cases hm)
  have h3 : Fresh [sMean] sVar := fresh_plain (ident (by decide) (by decide)) (letter_plain (by decide)) (fun m hm => by rw [List.mem_singleton.1 hm]; exact letter_plain (by decide))
  have he : ∀ k x, Ok (ema o x) k [] := fun k x => by
    unfold ema
    split
    · exact fun _ _ _ _ _ => trivial
    · exact fun _ => trivial
  refine ⟨⟨h1, fun x => ?_, ⟨h2, he _, trivial⟩, ⟨h3, he _, trivial⟩, trivial⟩, by decide, fun _ => trivial⟩
  show Ok (call o training localStats (arr x)) 2 []
  unfold call
  split
  · exact ⟨by decide, fun _ => ⟨by decide, fun _ _ _ => trivial⟩⟩
  · split
    · exact fun _ _ => trivial
    · exact ⟨by decide, fun _ => ⟨by decide, fun _ _ _ => trivial⟩⟩

theorem finish_flat (o : Ops) (x mean var : Arr) {s b : Arr} (hs : s.shape = o.shape x) (hb : b.shape = o.shape x) (ds : List Den) (S : SDict) (r : Option PRNGSeq) :
    flat true (finish o x mean var) (some sBn) [] ds ⟨weights s b, S, r⟩ = .ok (.arr (o.norm x mean var s b), ⟨weights s b, S, r⟩) := by
  have h1 : answer true (bundle (some sBn)) (.param sScale (o.shape x) x.dtype (some (full 1))) ⟨weights s b, S, r⟩ = if s.shape = o.shape x then .ok (.arr s, ⟨weights s b, S, r⟩) else .error .shapeMismatch := rfl
  have h2 : answer true (bundle (some sBn)) (.param sOffset (o.shape x) x.dtype (some (full 0))) ⟨weights s b, S, r⟩ = if b.shape = o.shape x then .ok (.arr b, ⟨weights s b, S, r⟩) else .error .shapeMismatch := rfl
  rw [if_pos hs] at h1
  rw [if_pos hb] at h2
  rw [finish, flat, h1]
  dsimp only
  rw [flat, h2]
  rfl

/-- The averages, as modules in scope in `__call__`. -/
def kids (frozen : Bool) (o : Ops) : List Den := [fun x m => flat frozen (ema o x) (some "batch_norm/~/mean_ema".toList) [] [] m, fun x m => flat frozen (ema o x) (some "batch_norm/~/var_ema".toList) [] [] m]

theorem bn_flat (frozen : Bool) (o : Ops) (t l : Bool) (x : Arr) (m : Mem) : flat frozen (bn o t l x) none [] [] m = flat frozen (call o t l x) (some sBn) [] (kids frozen o) m := by
  have n1 : numbered [] sBn = sBn := by decide
  have n2 : sBn ++ ['/', '~', '/'] ++ numbered [] sMean = "batch_norm/~/mean_ema".toList := by decide
  have n3 : sBn ++ ['/', '~', '/'] ++ numbered [sMean] sVar = "batch_norm/~/var_ema".toList := by decide
  have hd : denO (fun k q ks x m => flat frozen (if k = 0 then call o t l (arr x) else ema o x) (some q) [] ([] ++ ks) m) [] [] (.node sBn 0 [.node sMean 1 [], .node sVar 1 []]) =
      fun y m => flat frozen (call o t l (arr y)) (some sBn) [] (kids frozen o) m := by
    rw [denO, denOs, denOs, denOs, denO, denO, List.nil_append, n1, n2]
    have e : [] ++ [(Obj.node sMean 1 []).name] = [sMean] := rfl
    rw [e, n3]
    rfl
  rw [bn, flat]
  have e : dir none = [] := rfl
  rw [e, hd, flat]
  show (match flat frozen (call o t l x) (some sBn) [] (kids frozen o) m with | .error e => Except.error e | .ok (v, m') => flat frozen (.ret v) none _ _ m') = _
  split
  · rename_i h; rw [h]
  · rename_i h; rw [h, flat]

theorem train_flat (o : Ops) (l : Bool) (x : Arr) {s b : Arr} (hs : s.shape = o.shape x) (hb : b.shape = o.shape x) (c h a c' h' a' : Arr) (r : Option PRNGSeq) :
    flat true (bn o true l x) none [] [] ⟨weights s b, averages ⟨c, c⟩ ⟨h, h⟩ ⟨a, a⟩ ⟨c', c'⟩ ⟨h', h'⟩ ⟨a', a'⟩, r⟩ =
    .ok (.arr (o.norm x (o.mean x) (o.var x) s b), ⟨weights s b, averages ⟨c, o.succ c⟩ ⟨h, o.step h (o.mean x)⟩ ⟨a, o.debias (o.step h (o.mean x)) (o.succ c)⟩
      ⟨c', o.succ c'⟩ ⟨h', o.step h' (o.var x)⟩ ⟨a', o.debias (o.step h' (o.var x)) (o.succ c')⟩, r⟩) := by
  rw [bn_flat, ← finish_flat o x (o.mean x) (o.var x) hs hb (kids true o)]
  rfl

theorem eval_flat (o : Ops) (x : Arr) {s b : Arr} (hs : s.shape = o.shape x) (hb : b.shape = o.shape x) (c h a c' h' a' : Arr) (r : Option PRNGSeq) :
    flat true (bn o false false x) none [] [] ⟨weights s b, averages ⟨c, c⟩ ⟨h, h⟩ ⟨a, a⟩ ⟨c', c'⟩ ⟨h', h'⟩ ⟨a', a'⟩, r⟩ =
    .ok (.arr (o.norm x a a' s b), ⟨weights s b, averages ⟨c, c⟩ ⟨h, h⟩ ⟨a, a⟩ ⟨c', c'⟩ ⟨h', h'⟩ ⟨a', a'⟩, r⟩) := by
  rw [bn_flat, ← finish_flat o x a a' hs hb (kids true o)]
  rfl

theorem local_flat (o : Ops) (x : Arr) {s b : Arr} (hs : s.shape = o.shape x) (hb : b.shape = o.shape x) (S : SDict) (r : Option PRNGSeq) :
    flat true (bn o false true x) none [] [] ⟨weights s b, S, r⟩ = .ok (.arr (o.norm x (o.mean x) (o.var x) s b), ⟨weights s b, S, r⟩) := by
  rw [bn_flat, ← finish_flat o x (o.mean x) (o.var x) hs hb (kids true o)]
  rfl

/-- An array of one number. -/
def const (i : Int) (sh : List Nat) (dt : DType) : Arr := ⟨sh, dt, List.replicate sh.prod i⟩

theorem finish_init (o : Ops) (x mean var : Arr) (ds : List Den) (S : SDict) (r : Option PRNGSeq) :
    flat false (finish o x mean var) (some sBn) [] ds ⟨[], S, r⟩ =
      .ok (.arr (o.norm x mean var (const 1 (o.shape x) x.dtype) (const 0 (o.shape x) x.dtype)), ⟨weights (const 1 (o.shape x) x.dtype) (const 0 (o.shape x) x.dtype), S, r⟩) := by
  have h1 : answer false (bundle (some sBn)) (.param sScale (o.shape x) x.dtype (some (full 1))) ⟨[], S, r⟩ =
    if o.shape x = o.shape x then .ok (.arr (const 1 (o.shape x) x.dtype), ⟨[(sBn, [(sScale, const 1 (o.shape x) x.dtype)])], S, r⟩) else .error .shapeMismatch := rfl
  have h2 : answer false (bundle (some sBn)) (.param sOffset (o.shape x) x.dtype (some (full 0))) ⟨[(sBn, [(sScale, const 1 (o.shape x) x.dtype)])], S, r⟩ =
    if o.shape x = o.shape x then .ok (.arr (const 0 (o.shape x) x.dtype), ⟨weights (const 1 (o.shape x) x.dtype) (const 0 (o.shape x) x.dtype), S, r⟩) else .error .shapeMismatch := rfl
  rw [if_pos rfl] at h1 h2
  rw [finish, flat, h1]
  dsimp only
  rw [flat, h2]
  rfl

/-- The first average: that of one batch, as if it were the first step. -/
def first (o : Ops) (v : Arr) : Arr := o.debias (o.step (const 0 v.shape v.dtype) v) (o.succ (const 0 [] .i32))

theorem init_flat (o : Ops) (l : Bool) (x : Arr) (r : Option PRNGSeq) : ∃ v S, flat false (bn o true l x) none [] [] ⟨[], [], r⟩ = .ok (v, ⟨weights (const 1 (o.shape x) x.dtype) (const 0 (o.shape x) x.dtype), S, r⟩) ∧
    extractState true S = averages (const 0 [] .i32) (const 0 (o.mean x).shape (o.mean x).dtype) (first o (o.mean x)) (const 0 [] .i32) (const 0 (o.var x).shape (o.var x).dtype) (first o (o.var x)) := by
  have h := finish_init o x (o.mean x) (o.var x) (kids false o) (averages ⟨const 0 [] .i32, o.succ (const 0 [] .i32)⟩ ⟨const 0 (o.mean x).shape (o.mean x).dtype, o.step (const 0 (o.mean x).shape (o.mean x).dtype) (o.mean x)⟩
    ⟨first o (o.mean x), first o (o.mean x)⟩ ⟨const 0 [] .i32, o.succ (const 0 [] .i32)⟩ ⟨const 0 (o.var x).shape (o.var x).dtype, o.step (const 0 (o.var x).shape (o.var x).dtype) (o.var x)⟩ ⟨first o (o.var x), first o (o.var x)⟩) r
  exact ⟨_, _, (bn_flat false o true l x _).trans h, rfl⟩

theorem init_eval_flat (o : Ops) (x : Arr) (r : Option PRNGSeq) : flat false (bn o false false x) none [] [] ⟨[], [], r⟩ = .error .stateMissing := by
  rw [bn_flat]
  rfl

/-! ### Theorems -/

/-- C198: `init` in training returns scale 1 and offset 0 under `batch_norm`, and under `batch_norm/~/mean_ema` and `batch_norm/~/var_ema` a counter 0 and hidden averages 0: the batch given to `init` does not count.  Only `average`, which
has no initial value of its own, is that of the batch. -/
theorem init_training {w : World} (hw : Bare w) (o : Ops) (l : Bool) (x : Arr) {rng : RngArg} {r : Option PRNGSeq} (hr : rng.toSeq = .ok r) :
    ((Prog.initT rng (program (bn o true l x))).run stackMach w).1 = .ok (.pair (.bundle [("batch_norm".toList, [("scale".toList, const 1 (o.shape x) x.dtype), ("offset".toList, const 0 (o.shape x) x.dtype)])])
      (.bundle [("batch_norm/~/mean_ema".toList, [("counter".toList, const 0 [] .i32), ("hidden".toList, const 0 (o.mean x).shape (o.mean x).dtype), ("average".toList, first o (o.mean x))]),
        ("batch_norm/~/var_ema".toList, [("counter".toList, const 0 [] .i32), ("hidden".toList, const 0 (o.var x).shape (o.var x).dtype), ("average".toList, first o (o.var x))])])) := by
  rw [init_code hw (bn_ok o true l x) hr]
  obtain ⟨v, S, h1, h2⟩ := init_flat o l x r
  rw [h1]
  show Except.ok (Val.pair (.bundle _) (.bundle (extractState true S))) = _
  rw [h2]
  rfl

/-- C198: `init` outside training fails, for there are no averages (unless local statistics are used). -/
theorem init_eval {w : World} (hw : Bare w) (o : Ops) (x : Arr) {rng : RngArg} {r : Option PRNGSeq} (hr : rng.toSeq = .ok r) :
    ((Prog.initT rng (program (bn o false false x))).run stackMach w).1 = .error .stateMissing := by
  rw [init_code hw (bn_ok o false false x) hr, init_eval_flat]
  rfl

/-- C198: `apply` in training normalises with the statistics of the batch and moves both averages by one step. -/
theorem apply_training {w : World} (hw : Bare w) (o : Ops) (l : Bool) (x : Arr) {rng : RngArg} {r : Option PRNGSeq} (hr : rng.toSeq = .ok r) {s b : Arr} (hs : s.shape = o.shape x) (hb : b.shape = o.shape x) (c h a c' h' a' : Arr) :
    ((Prog.applyT (some (weights s b)) (some (averages c h a c' h' a')) rng (program (bn o true l x))).run stackMach w).1 = .ok (.pair (.arr (o.norm x (o.mean x) (o.var x) s b))
      (.bundle (averages (o.succ c) (o.step h (o.mean x)) (o.debias (o.step h (o.mean x)) (o.succ c)) (o.succ c') (o.step h' (o.var x)) (o.debias (o.step h' (o.var x)) (o.succ c'))))) := by
  rw [apply_code hw (bn_ok o true l x) hr]
  exact congrArg (Except.map _) (train_flat o l x hs hb c h a c' h' a' r)

/-- C198: `apply` outside training normalises with the averages and leaves the state as it is. -/
theorem apply_eval {w : World} (hw : Bare w) (o : Ops) (x : Arr) {rng : RngArg} {r : Option PRNGSeq} (hr : rng.toSeq = .ok r) {s b : Arr} (hs : s.shape = o.shape x) (hb : b.shape = o.shape x) (c h a c' h' a' : Arr) :
    ((Prog.applyT (some (weights s b)) (some (averages c h a c' h' a')) rng (program (bn o false false x))).run stackMach w).1 = .ok (.pair (.arr (o.norm x a a' s b)) (.bundle (averages c h a c' h' a'))) := by
  rw [apply_code hw (bn_ok o false false x) hr]
  exact congrArg (Except.map _) (eval_flat o x hs hb c h a c' h' a' r)

/-- C198: with local statistics, `apply` outside training normalises with those of the batch, needs no averages and leaves any state as it is. -/
theorem apply_local {w : World} (hw : Bare w) (o : Ops) (x : Arr) {rng : RngArg} {r : Option PRNGSeq} (hr : rng.toSeq = .ok r) {s b : Arr} (hs : s.shape = o.shape x) (hb : b.shape = o.shape x) (S : PDict) :
    ((Prog.applyT (some (weights s b)) (some S) rng (program (bn o false true x))).run stackMach w).1 = .ok (.pair (.arr (o.norm x (o.mean x) (o.var x) s b)) (.bundle (dict2 S))) := by
  rw [apply_code hw (bn_ok o false true x) hr]
  refine (congrArg (Except.map _) (local_flat o x hs hb (pairs (dict2 S)) r)).trans ?_
  exact congrArg (fun d => Except.ok (Val.pair (.arr (o.norm x (o.mean x) (o.var x) s b)) (.bundle d))) (extract_new [] S r w)

/-- Training: `apply` on one batch after the other, with any parameters for each, each with the state of the one before. -/
def training (w : World) (o : Ops) (l : Bool) (rng : RngArg) : List (Arr × PDict) → PDict → Except Exc PDict
  | [], S => .ok S
  | (x, P) :: xs, S =>
    match ((Prog.applyT (some P) (some S) rng (program (bn o true l x))).run stackMach w).1 with
    | .ok (.pair _ (.bundle S')) => training w o l rng xs S'
    | .ok _ => .error .structureMismatch
    | .error e => .error e

/-- C198: after any number of batches (at least one) the hidden averages are those of the statistics of all batches, in order, the counters have counted the batches, and `average` is the debiased hidden average. -/
theorem trained {w : World} (hw : Bare w) (o : Ops) (l : Bool) {rng : RngArg} {r : Option PRNGSeq} (hr : rng.toSeq = .ok r) : ∀ (xs : List (Arr × Arr × Arr)) (x s b : Arr) (c h a c' h' a' : Arr),
    (∀ y ∈ (x, s, b) :: xs, y.2.1.shape = o.shape y.1 ∧ y.2.2.shape = o.shape y.1) →
    training w o l rng (((x, s, b) :: xs).map fun y => (y.1, weights y.2.1 y.2.2)) (averages c h a c' h' a') =
      let n := xs.length + 1
      let mean := ((x :: xs.map Prod.fst).map o.mean).foldl o.step h
      let var := ((x :: xs.map Prod.fst).map o.var).foldl o.step h'
      .ok (averages (o.succ^[n] c) mean (o.debias mean (o.succ^[n] c)) (o.succ^[n] c') var (o.debias var (o.succ^[n] c')))
  | [], x, s, b, c, h, a, c', h', a', hy => by
    have h0 := hy _ List.mem_cons_self
    rw [List.map_cons, training, apply_training hw o l x hr h0.1 h0.2]
    rfl
  | (x1, s1, b1) :: xs, x, s, b, c, h, a, c', h', a', hy => by
    have h0 := hy _ List.mem_cons_self
    rw [List.map_cons, training, apply_training hw o l x hr h0.1 h0.2]
    dsimp only
    exact trained hw o l hr xs x1 s1 b1 _ _ _ _ _ _ fun y hm => hy y (List.mem_cons_of_mem _ hm)

/-! ### Example -/

namespace Demo
open Verif.Props.Stack.Net (world)

/-- Arrays of one number; the hidden average is the sum, and debiasing divides by the counter. -/
def ops : Ops where
  mean := fun x => ⟨[1], x.dtype, [x.data.sum]⟩
  var := fun x => ⟨[1], x.dtype, [x.data.length]⟩
  shape := fun x => [1]
  norm := fun x m v s b => ⟨x.shape, x.dtype, x.data.map fun i => (i - m.data.headD 0) * s.data.headD 0 + b.data.headD 0 + 100 * v.data.headD 0⟩
  succ := fun c => ⟨[], .i32, [c.data.headD 0 + 1]⟩
  step := fun h v => ⟨[1], v.dtype, [h.data.headD 0 + v.data.headD 0]⟩
  debias := fun h c => ⟨[1], h.dtype, [h.data.headD 0 / c.data.headD 0]⟩

def batch (l : List Int) : Arr := ⟨[l.length], .f32, l⟩
def one (i : Int) : Arr := ⟨[1], .f32, [i]⟩
def num (i : Int) : Arr := ⟨[], .i32, [i]⟩

example : ((Prog.initT .none (program (bn ops true false (batch [3, 4])))).run stackMach world).1 = .ok (.pair (.bundle (weights (one 1) (one 0))) (.bundle (averages (num 0) (one 0) (one 7) (num 0) (one 0) (one 2)))) :=
  init_training ⟨rfl, rfl⟩ ops false (batch [3, 4]) rfl
example : ((Prog.initT .none (program (bn ops false false (batch [3, 4])))).run stackMach world).1 = .error .stateMissing := init_eval ⟨rfl, rfl⟩ ops _ rfl
example : ((Prog.applyT (some (weights (one 2) (one 5))) (some (averages (num 1) (one 7) (one 7) (num 1) (one 2) (one 2))) .none (program (bn ops true false (batch [1, 4])))).run stackMach world).1 =
    .ok (.pair (.arr (batch [197, 203])) (.bundle (averages (num 2) (one 12) (one 6) (num 2) (one 4) (one 2)))) := apply_training ⟨rfl, rfl⟩ ops false (batch [1, 4]) rfl rfl rfl _ _ _ _ _ _
example : ((Prog.applyT (some (weights (one 2) (one 5))) (some (averages (num 1) (one 7) (one 7) (num 1) (one 2) (one 2))) .none (program (bn ops false false (batch [1, 4])))).run stackMach world).1 =
    .ok (.pair (.arr (batch [193, 199])) (.bundle (averages (num 1) (one 7) (one 7) (num 1) (one 2) (one 2)))) := apply_eval ⟨rfl, rfl⟩ ops (batch [1, 4]) rfl rfl rfl _ _ _ _ _ _
example : ((Prog.applyT (some (weights (one 2) (one 5))) (some []) .none (program (bn ops false true (batch [1, 4])))).run stackMach world).1 =
    .ok (.pair (.arr (batch [197, 203])) (.bundle [])) := apply_local ⟨rfl, rfl⟩ ops (batch [1, 4]) rfl rfl rfl []
example : training world ops false .none [(batch [1, 4], weights (one 2) (one 5)), (batch [1, 1, 8], weights (one 2) (one 6))] (averages (num 0) (one 0) (one 7) (num 0) (one 0) (one 2)) =
    .ok (averages (num 2) (one 15) (one 7) (num 2) (one 5) (one 2)) :=
  trained ⟨rfl, rfl⟩ ops false rfl [(batch [1, 1, 8], one 2, one 6)] (batch [1, 4]) (one 2) (one 5) _ _ _ _ _ _ (by decide)

end Demo

end Verif.Props.BatchNormProgram
