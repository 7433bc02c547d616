import Mathlib.Algebra.Order.Field.Basic
import Mathlib.Algebra.Order.Floor.Defs
import Verif.Model.Filtering
import Verif.Model.Nd

/-!
# The pruning example

Models `/repo/examples/mnist_pruning.py` in exact arithmetic: `topk_mask`, the partitions, the masks, the sparsity report and the training loop of `main`.
Not modelled: the network, the loss and the optimiser (the loop takes any function for them), the data sets, printing, `jax.jit`, int32 overflow.
-/

namespace Verif.Pruning
open Verif.Shapes (Err size)
open Verif.Conv (indices)
open Verif.Filtering (Structure)

variable {K : Type}

/-- The arrays that are pruned (`/repo/examples/mnist_pruning.py` 35). -/
abbrev Leaf (K : Type) := Verif.Pool.Arr K

/-- `jnp.reshape(value, -1)` (`/repo/examples/mnist_pruning.py` 63). -/
def flat (x : Leaf K) : List K := (List.range (size x.shape)).map fun p => x.val (Nd.unravel x.shape p)

/-- `jnp.reshape(mask, orig_shape)` (`/repo/examples/mnist_pruning.py` 70). -/
def unflat [Zero K] (shape : List Nat) (l : List K) : Leaf K := ⟨shape, fun i => l.getD (Nd.ravel shape i) 0⟩

/-- `jax.ops.index_update(x, indices, y)` (`/repo/examples/mnist_pruning.py` 57, 68-69): the elements of `y` are written one by one; an index out of range writes nothing. -/
def indexUpdate {β : Type} (x : List β) (idx : List Nat) (y : List β) : List β := (idx.zip y).foldl (fun x p => x.set p.1 p.2) x

/-- `value[indices]` (`/repo/examples/mnist_pruning.py` 67).  Simplification: an index out of range reads 0 (JAX: the last element). -/
def gather [Zero K] (x : List K) (idx : List Nat) : List K := idx.map fun i => x.getD i 0

section
variable [Field K] [LinearOrder K] [FloorRing K]

/-- `jnp.round` of a scalar: to the nearest integer, ties to even (`/repo/examples/mnist_pruning.py` 55). -/
def roundEven (x : K) : Int :=
  let f := ⌊x⌋
  let r := x - f
  if r < 1 / 2 then f else if 1 / 2 < r then f + 1 else if f % 2 = 0 then f else f + 1

/-- `topk_mask_internal` (`/repo/examples/mnist_pruning.py` 52-58); `argsort` is `jnp.argsort`. -/
def topkInternal (argsort : List K → List Nat) (density : K) (value : List K) : List K :=
  let idx := argsort value
  let k := roundEven (density * value.length)
  let mask := (List.range value.length).map fun (i : Nat) => decide ((value.length : Int) - k ≤ i)
  let mask := indexUpdate (List.replicate value.length false) idx mask
  mask.map fun b => if b then 1 else 0

/-- `topk_mask` (`/repo/examples/mnist_pruning.py` 35-71); `shuffle n` is `jax.random.shuffle(jax.random.PRNGKey(42), jnp.arange(0, n))`. -/
def topkMask (argsort : List K → List Nat) (shuffle : Nat → List Nat) (value : Leaf K) (density : K) : Leaf K :=
  let v := flat value
  let shuffled := shuffle v.length
  let mask := topkInternal argsort density (gather v shuffled)
  unflat value.shape (indexUpdate (List.replicate mask.length 0) shuffled mask)

/-- `zhugupta_func` (`/repo/examples/mnist_pruning.py` 74-76). -/
def zhugupta (progress : K) : K := 1 - (1 - progress) ^ 3

end

/-- A predicate on module name, parameter name and value (`/repo/examples/mnist_pruning.py` 30). -/
abbrev Predicate (K : Type) := Str → Str → Leaf K → Bool

/-- The loop of `_create_partitions` (`/repo/examples/mnist_pruning.py` 98-108). -/
def createPartitions : List (Predicate K × K) → Structure (Leaf K) → List (Structure (Leaf K)) × List K × Structure (Leaf K)
  | [], tail => ([], [], tail)
  | (predicate, sparsity) :: rest, tail =>
    let p := Filtering.partition predicate tail
    let r := createPartitions rest p.2
    (p.1 :: r.1, sparsity :: r.2.1, r.2.2)

/-- `a in b` on strings (`/repo/examples/mnist_pruning.py` 114). -/
def isIn (a : Str) : Str → Bool
  | [] => a.isPrefixOf []
  | c :: b => a.isPrefixOf (c :: b) || isIn a b

/-- `sparsity_ignore` (`/repo/examples/mnist_pruning.py` 111-114). -/
def sparsityIgnore (m n : Str) (v : Leaf K) : Bool :=
  decide (n = ['b']) || decide (v.shape.length = 1) || isIn ['b', 'a', 't', 'c', 'h', 'n', 'o', 'r', 'm'] m || isIn ['b', 'a', 't', 'c', 'h', '_', 'n', 'o', 'r', 'm'] m

/-- `module_matching` (`/repo/examples/mnist_pruning.py` 205-210). -/
def moduleMatching (s : Str) : Predicate K := fun m n k => s.isSuffixOf m && !sparsityIgnore m n k

/-- The two dictionaries have the same keys: what has to hold for their tree structures to be equal (`/repo/examples/mnist_pruning.py` 142). -/
def sameKeys {β γ : Type} (a : Dict Str β) (b : Dict Str γ) : Bool := a.all (fun p => b.has p.1) && b.all (fun p => a.has p.1)

/-- `jax.tree_util.tree_multimap` on one level (`/repo/examples/mnist_pruning.py` 142, 254); other keys are a `ValueError`.
Simplifications: the result keeps the order of the first argument (JAX: sorted keys), and with several errors another one of them is reported. -/
def zipBundle {β γ δ : Type} (f : β → γ → Except Err δ) (a : Dict Str β) (b : Dict Str γ) : Except Err (Dict Str δ) :=
  if sameKeys a b then
    a.mapM fun p =>
      match b.get? p.1 with
      | some y => do
        let z ← f p.2 y
        .ok (p.1, z)
      | none => .error .value
  else .error .value

/-- `jax.tree_util.tree_multimap` on parameters (`/repo/examples/mnist_pruning.py` 142, 254). -/
def treeMultimap {β γ δ : Type} (f : β → γ → Except Err δ) (a : Structure β) (b : Structure γ) : Except Err (Structure δ) := zipBundle (zipBundle f) a b

/-- `jax.tree_util.tree_map` on parameters (`/repo/examples/mnist_pruning.py` 159). -/
def treeMap {β γ : Type} (f : β → γ) (a : Structure β) : Structure γ := a.map fun p => (p.1, p.2.map fun q => (q.1, f q.2))

/-- The loop of `apply_mask` (`/repo/examples/mnist_pruning.py` 140-142); `zip` stops with the shorter list. -/
def maskAll [Field K] : List (Structure (Leaf K)) → List (Structure (Leaf K)) → Except Err (List (Structure (Leaf K)))
  | value :: values, mask :: masks => do
    let v ← treeMultimap (Nd.zip (· * ·)) value mask
    let vs ← maskAll values masks
    .ok (v :: vs)
  | _, _ => .ok []

/-- `apply_mask` (`/repo/examples/mnist_pruning.py` 117-144). -/
def applyMask [Field K] (params : Structure (Leaf K)) (masks : List (Structure (Leaf K))) (moduleSparsity : List (Predicate K × K)) : Except Err (Structure (Leaf K)) :=
  let p := createPartitions moduleSparsity params
  do
    let pruned ← maskAll p.1 masks
    .ok (Filtering.merge (pruned ++ [p.2.2]))

section
variable [Field K] [LinearOrder K] [FloorRing K]

/-- `map_fn` (`/repo/examples/mnist_pruning.py` 154-155). -/
def mapFn (argsort : List K → List Nat) (shuffle : Nat → List Nat) (fraction sparsity : K) (x : Leaf K) : Leaf K :=
  topkMask argsort shuffle ⟨x.shape, fun i => max (x.val i) (-x.val i)⟩ (1 - sparsity * fraction)

/-- `update_mask` (`/repo/examples/mnist_pruning.py` 147-161). -/
def updateMask (argsort : List K → List Nat) (shuffle : Nat → List Nat) (params : Structure (Leaf K)) (fraction : K) (moduleSparsity : List (Predicate K × K)) : List (Structure (Leaf K)) :=
  let p := createPartitions moduleSparsity params
  (p.1.zip p.2.1).map fun t => treeMap (mapFn argsort shuffle fraction t.2) t.1

end

/-- `jax.tree_leaves` of parameters (`/repo/examples/mnist_pruning.py` 167-168); JAX sorts the keys, which does not matter to the sums. -/
def leaves {β : Type} (params : Structure β) : List β := params.flatMap fun p => p.2.map Prod.snd

/-- `get_sparsity` (`/repo/examples/mnist_pruning.py` 164-170).  Simplification: the sparsity of an array without elements is 0 instead of NaN. -/
def getSparsity [Field K] [DecidableEq K] (params : Structure (Leaf K)) : Nat × Nat × Structure K :=
  (((leaves params).map fun x => size x.shape).sum,
   ((leaves params).map fun x => (flat x).countP fun v => decide (v ≠ 0)).sum,
   treeMap (fun x => ((flat x).countP fun v => decide (v = 0) : K) / (size x.shape : K)) params)

section
variable [Field K] [LinearOrder K] [FloorRing K]

/-- `progress` (`/repo/examples/mnist_pruning.py` 300). -/
def progress (step : Nat) : K := min (max (((step : K) - 1000) / 8000) 0) 1

/-- The variables of the training loop (`/repo/examples/mnist_pruning.py` 270-274). -/
structure Train (K Opt : Type) where
  params : Structure (Leaf K)
  avgParams : Structure (Leaf K)
  masks : List (Structure (Leaf K))
  optState : Opt

/-- `ema_update` with the default `epsilon` (`/repo/examples/mnist_pruning.py` 249-255). -/
def emaUpdate (avg new : Structure (Leaf K)) : Except Err (Structure (Leaf K)) :=
  treeMultimap (Nd.zip fun p1 p2 => (1 - 1 / 1000) * p1 + 1 / 1000 * p2) avg new

/-- The state before the loop (`/repo/examples/mnist_pruning.py` 270-274). -/
def start {Opt : Type} (argsort : List K → List Nat) (shuffle : Nat → List Nat) (moduleSparsity : List (Predicate K × K)) (params : Structure (Leaf K)) (opt : Opt) : Train K Opt :=
  ⟨params, params, updateMask argsort shuffle params 0 moduleSparsity, opt⟩

/-- One round of the loop (`/repo/examples/mnist_pruning.py` 277-304), for any function that computes updates from the pruned parameters, the state of the optimiser and the step. -/
def trainStep {Opt : Type} (argsort : List K → List Nat) (shuffle : Nat → List Nat) (getUpdates : Structure (Leaf K) → Opt → Nat → Except Err (Structure (Leaf K) × Opt))
    (moduleSparsity : List (Predicate K × K)) (step : Nat) (s : Train K Opt) : Except Err (Train K Opt) := do
  let avg ← if step % 1000 = 0 then applyMask s.avgParams s.masks moduleSparsity else .ok s.avgParams
  let pruned ← applyMask s.params s.masks moduleSparsity
  let u ← getUpdates pruned s.optState step
  let updates ← applyMask u.1 s.masks moduleSparsity
  let params ← treeMultimap (Nd.zip (· + ·)) s.params updates
  let masks := if step % 200 = 0 then updateMask argsort shuffle params (zhugupta (progress step)) moduleSparsity else s.masks
  let avg ← emaUpdate avg params
  .ok ⟨params, avg, masks, u.2⟩

/-- The loop (`/repo/examples/mnist_pruning.py` 277), `n` rounds from `step` on. -/
def trainLoop {Opt : Type} (argsort : List K → List Nat) (shuffle : Nat → List Nat) (getUpdates : Structure (Leaf K) → Opt → Nat → Except Err (Structure (Leaf K) × Opt))
    (moduleSparsity : List (Predicate K × K)) : Nat → Nat → Train K Opt → Except Err (Train K Opt)
  | 0, _, s => .ok s
  | n + 1, step, s => do
    let s ← trainStep argsort shuffle getUpdates moduleSparsity step s
    trainLoop argsort shuffle getUpdates moduleSparsity n (step + 1) s

end
end Verif.Pruning
