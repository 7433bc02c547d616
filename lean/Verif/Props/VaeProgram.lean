import Verif.Props.StraightLine

/-!
# C199: the variational auto-encoder of examples/vae.py through `hk.transform`

The network makes an encoder and a decoder in `__call__`, which make their layers in `__call__`, and takes a key with `hk.next_rng_key` between the two and another one after them. In `init` the layers
take keys as well, so these two keys are the fourth and the seventh; in `apply` they are the first and the second.
-/

namespace Verif.Props.VaeProgram
open Verif Names Verif.Props.Names Verif.Props.ModuleTree Verif.Props.StraightLine
open Verif.Props.Stack (Spec left keyNo depth keys_distinct Bare)
open Verif.Props.StraightLine.SimpleNet (top linear flatten asked asked_fold)
open Verif.Props.Stack.Net (world)
open Verif.Props.ModuleTree.Net (ident)
open Verif.Props.SharedLayers.Mnist (specs entry)

/-- The array functions in it, any functions here: `draw` is the initialiser of weights, `dot w b x` is `jnp.dot(x, w) + b`, `flat` is `Flatten`, `exp` is `jnp.exp`, `cast` is `x.astype(jnp.float32)`,
`sample key mean stddev` is `mean + stddev * jax.random.normal(key, mean.shape)`, `image key logits` is `jax.random.bernoulli(key, jax.nn.sigmoid(logits))`, `unflat` is `jnp.reshape` to the shape of
images (examples/vae.py 62-126). -/
structure Ops where
  draw : List Nat → DType → Key → List Int
  dot : Arr → Arr → Val → Val
  flat : Val → Val
  relu : Val → Val
  exp : Val → Val
  cast : Val → Val
  unflat : Val → Val
  sample : Key → Val → Val → Val
  image : Key → Val → Val

/-- `Encoder.__call__` (examples/vae.py 62-71) for images of `n` numbers. -/
def encoder (o : Ops) (n hidden latent : Nat) : Body :=
  .make "flatten".toList (flatten o.flat) <| .call 0 top <|
  .make "linear".toList (linear o.draw o.dot n hidden) <| .call 1 top <| .fn (fun vs => o.relu (top vs)) <|
  .make "linear".toList (linear o.draw o.dot hidden latent) <| .call 2 top <|
  .make "linear".toList (linear o.draw o.dot hidden latent) <| .call 3 (fun vs => match vs.reverse with | _ :: x :: _ => x | _ => .unit) <|
  .ret fun vs => match vs.reverse with | log_stddev :: mean :: _ => .pair mean (o.exp log_stddev) | _ => .unit

/-- `Decoder.__call__` (examples/vae.py 86-93) for images of `n` numbers; module 0 is the encoder, which it does not use. -/
def decoder (o : Ops) (n hidden latent : Nat) : Body :=
  .make "linear".toList (linear o.draw o.dot latent hidden) <| .call 1 top <| .fn (fun vs => o.relu (top vs)) <|
  .make "linear".toList (linear o.draw o.dot hidden n) <| .call 2 top <| .ret fun vs => o.unflat (top vs)

/-- `VariationalAutoEncoder.__call__` (examples/vae.py 117-126); `VAEOutput` is a nest of pairs. -/
def call (o : Ops) (n hidden latent : Nat) : Body :=
  .make "encoder".toList (encoder o n hidden latent) <| .call 0 (fun vs => o.cast (top vs)) <|
  .key <| .fn (fun vs => match vs.reverse with | .key k :: .pair mean stddev :: _ => o.sample k mean stddev | _ => .unit) <|
  .make "decoder".toList (decoder o n hidden latent) <| .call 1 top <|
  .key <| .ret fun vs => match vs.reverse with
    | .key k :: logits :: _ :: _ :: .pair mean stddev :: _ => .pair (o.image k logits) (.pair mean (.pair stddev logits))
    | _ => .unit

/-- `lambda x: VariationalAutoEncoder()(x)` (examples/vae.py 166). -/
def vae (o : Ops) (n hidden latent : Nat) : Body := .make "variational_auto_encoder".toList (call o n hidden latent) <| .call 0 top <| .ret top

variable (o : Ops) (n hidden latent : Nat)

theorem vae_ok : Ok (vae o n hidden latent) 0 [] := by
  have f : ∀ (s : Str) (used : List Str), IsIdent s → letter s = true → (∀ m ∈ used, letter m = true) → Fresh used s := fun s used hi hs h => fresh_plain hi (letter_plain hs) fun m hm => letter_plain (h m hm)
  have h1 : ∀ used : List Str, (∀ m ∈ used, letter m = true) → Fresh used "flatten".toList := fun used h => f _ _ (ident (by decide) (by decide)) (by decide) h
  have h2 : ∀ used : List Str, (∀ m ∈ used, letter m = true) → Fresh used "linear".toList := fun used h => f _ _ (ident (by decide) (by decide)) (by decide) h
  have h3 : ∀ used : List Str, (∀ m ∈ used, letter m = true) → Fresh used "encoder".toList := fun used h => f _ _ (ident (by decide) (by decide)) (by decide) h
  have h4 : ∀ used : List Str, (∀ m ∈ used, letter m = true) → Fresh used "decoder".toList := fun used h => f _ _ (ident (by decide) (by decide)) (by decide) h
  have h5 : ∀ used : List Str, (∀ m ∈ used, letter m = true) → Fresh used "variational_auto_encoder".toList := fun used h => f _ _ (ident (by decide) (by decide)) (by decide) h
  exact ⟨h5 _ (by decide), ⟨h3 _ (by decide), ⟨h1 _ (by decide), trivial, by omega, h2 _ (by decide), trivial, by omega, h2 _ (by decide), trivial, by omega, h2 _ (by decide), trivial, by omega, trivial⟩,
    by omega, h4 _ (by decide), ⟨h2 _ (by decide), trivial, by omega, h2 _ (by decide), trivial, by omega, trivial⟩, by omega, trivial⟩, by omega, trivial⟩

/-- The names of the layers. -/
def layer : Nat → Str
  | 0 => "variational_auto_encoder/encoder/linear".toList
  | 1 => "variational_auto_encoder/encoder/linear_1".toList
  | 2 => "variational_auto_encoder/encoder/linear_2".toList
  | 3 => "variational_auto_encoder/decoder/linear".toList
  | _ => "variational_auto_encoder/decoder/linear_1".toList

theorem name1 : "variational_auto_encoder/encoder/".toList ++ numbered ["flatten".toList, "linear".toList] "linear".toList = layer 1 := by decide
theorem name2 : "variational_auto_encoder/encoder/".toList ++ numbered ["flatten".toList, "linear".toList, "linear".toList] "linear".toList = layer 2 := by decide
theorem name4 : "variational_auto_encoder/decoder/".toList ++ numbered ["linear".toList] "linear".toList = layer 4 := by decide

/-- Inputs and outputs of the layers. -/
def sizes : List (Nat × Nat) := [(n, hidden), (hidden, latent), (hidden, latent), (latent, hidden), (hidden, n)]

theorem vae_asks : asks (vae o n hidden latent) = asked o.draw (layer 0) n hidden ++ (asked o.draw (layer 1) hidden latent ++ (asked o.draw (layer 2) hidden latent ++ ([Event.key] ++
    (asked o.draw (layer 3) latent hidden ++ (asked o.draw (layer 4) hidden n ++ [Event.key]))))) := by
  rw [← name1, ← name2, ← name4]
  rfl

theorem vae_consistent : Consistent (asks (vae o n hidden latent)) := by
  have hne : ∀ i < 5, ∀ j < 5, layer i = layer j → i = j := by decide
  have key : ∀ q p, Event.param q p ∈ asks (vae o n hidden latent) → ∃ i a b, i < 5 ∧ q = layer i ∧ (a, b) = (sizes n hidden latent).getD i (0, 0) ∧ p ∈ specs o.draw a b := by
    intro q p h
    rw [vae_asks] at h
    simp only [List.mem_append, asked, List.mem_map, Event.param.injEq, List.mem_singleton, reduceCtorEq, false_or, or_false] at h
    rcases h with ⟨p', h, rfl, rfl⟩ | ⟨p', h, rfl, rfl⟩ | ⟨p', h, rfl, rfl⟩ | ⟨p', h, rfl, rfl⟩ | ⟨p', h, rfl, rfl⟩
    · exact ⟨0, _, _, by omega, rfl, rfl, h⟩
    · exact ⟨1, _, _, by omega, rfl, rfl, h⟩
    · exact ⟨2, _, _, by omega, rfl, rfl, h⟩
    · exact ⟨3, _, _, by omega, rfl, rfl, h⟩
    · exact ⟨4, _, _, by omega, rfl, rfl, h⟩
  constructor
  · intro q p h k m
    obtain ⟨i, a, b, -, -, -, hp⟩ := key q p h
    simp only [specs, List.mem_cons, List.not_mem_nil, or_false] at hp
    rcases hp with rfl | rfl <;> rfl
  · intro q p p' h h' e
    obtain ⟨i, a, b, hi, rfl, hab, hp⟩ := key q p h
    obtain ⟨j, a', b', hj, hq, hab', hp'⟩ := key _ p' h'
    have := hne i hi j hj hq
    subst this
    rw [← hab] at hab'
    injection hab' with h1 h2
    subst h1 h2
    simp only [specs, List.mem_cons, List.not_mem_nil, or_false] at hp hp'
    rcases hp with rfl | rfl <;> rcases hp' with rfl | rfl
    · rfl
    · exact absurd (show ['w'] = ['b'] from e) (by decide)
    · exact absurd (show ['b'] = ['w'] from e) (by decide)
    · rfl

/-- C199: `init` makes the three layers of the encoder with the first three keys, and the two layers of the decoder with the fifth and the sixth: the fourth key is the one the sample was drawn with. The
layers are under the encoder and the decoder of the network, numbered from the beginning in each. -/
theorem vae_init {w : World} (hw : Bare w) (k : Key) (x : Val) :
    ((Prog.initT (.key k) (program (vae o n hidden latent) x)).run stackMach w).1 = .ok (.pair (.bundle [
      ("variational_auto_encoder/encoder/linear".toList, entry o.draw (keyNo k 0) n hidden), ("variational_auto_encoder/encoder/linear_1".toList, entry o.draw (keyNo k 1) hidden latent),
      ("variational_auto_encoder/encoder/linear_2".toList, entry o.draw (keyNo k 2) hidden latent), ("variational_auto_encoder/decoder/linear".toList, entry o.draw (keyNo k 4) latent hidden),
      ("variational_auto_encoder/decoder/linear_1".toList, entry o.draw (keyNo k 5) hidden n)]) (.bundle [])) := by
  refine (init_program hw (vae_ok o n hidden latent) (vae_consistent o n hidden latent) k x).trans ?_
  have e0 := asked_fold o.draw k (q := layer 0) n hidden 0 (d := []) (List.not_mem_nil)
  have e1 := asked_fold o.draw k (q := layer 1) hidden latent 1 (d := [(layer 0, entry o.draw (keyNo k 0) n hidden)]) (show layer 1 ∉ [layer 0] by decide)
  have e2 := asked_fold o.draw k (q := layer 2) hidden latent 2 (d := [(layer 0, entry o.draw (keyNo k 0) n hidden), (layer 1, entry o.draw (keyNo k 1) hidden latent)]) (show layer 2 ∉ [layer 0, layer 1] by decide)
  have e3 := asked_fold o.draw k (q := layer 3) latent hidden 4 (d := [(layer 0, entry o.draw (keyNo k 0) n hidden), (layer 1, entry o.draw (keyNo k 1) hidden latent), (layer 2, entry o.draw (keyNo k 2) hidden latent)])
    (show layer 3 ∉ [layer 0, layer 1, layer 2] by decide)
  have e4 := asked_fold o.draw k (q := layer 4) hidden n 5 (d := [(layer 0, entry o.draw (keyNo k 0) n hidden), (layer 1, entry o.draw (keyNo k 1) hidden latent), (layer 2, entry o.draw (keyNo k 2) hidden latent),
    (layer 3, entry o.draw (keyNo k 4) latent hidden)]) (show layer 4 ∉ [layer 0, layer 1, layer 2, layer 3] by decide)
  simp only [List.cons_append, List.nil_append] at e0 e1 e2 e3 e4
  rw [vae_asks, built, List.foldl_append, e0, List.foldl_append, e1, List.foldl_append, e2, List.foldl_append]
  rw [show List.foldl (take k) ([(layer 0, entry o.draw (keyNo k 0) n hidden), (layer 1, entry o.draw (keyNo k 1) hidden latent), (layer 2, entry o.draw (keyNo k 2) hidden latent)], 2 + 1) [Event.key] =
    ([(layer 0, entry o.draw (keyNo k 0) n hidden), (layer 1, entry o.draw (keyNo k 1) hidden latent), (layer 2, entry o.draw (keyNo k 2) hidden latent)], 4) from rfl]
  rw [List.foldl_append, e3, List.foldl_append, e4]
  rfl

/-- Parameters of the five layers. -/
def weights (a : Nat → Arr × Arr) : PDict := (List.range 5).map fun i => (layer i, [(['w'], (a i).1), (['b'], (a i).2)])

/-- Weights and offsets of the right shapes. -/
def Shaped (a : Nat → Arr × Arr) : Prop := ∀ i < 5, (a i).1.shape = [((sizes n hidden latent).getD i (0, 0)).1, ((sizes n hidden latent).getD i (0, 0)).2] ∧ (a i).2.shape = [((sizes n hidden latent).getD i (0, 0)).2]

/-- What one layer of the network computes. -/
def dense (a : Nat → Arr × Arr) (i : Nat) (x : Val) : Val := o.dot (a i).1 (a i).2 x

theorem vae_computes (get : Str → Str → Arr) (keys : Nat → Key) (x : Val) :
    let d := fun i => o.dot (get (layer i) ['w']) (get (layer i) ['b'])
    let h := o.relu (d 0 (o.flat (o.cast x)))
    let logits := o.unflat (d 4 (o.relu (d 3 (o.sample (keys 0) (d 1 h) (o.exp (d 2 h))))))
    computes get keys (vae o n hidden latent) x = .pair (o.image (keys 1) logits) (.pair (d 1 h) (.pair (o.exp (d 2 h)) logits)) := by
  have e : computes get keys (vae o n hidden latent) x =
      (fun l1 l2 l4 =>
        let d := fun l : Str => o.dot (get l ['w']) (get l ['b'])
        let h := o.relu (d (layer 0) (o.flat (o.cast x)))
        let logits := o.unflat (d l4 (o.relu (d (layer 3) (o.sample (keys 0) (d l1 h) (o.exp (d l2 h))))))
        Val.pair (o.image (keys 1) logits) (.pair (d l1 h) (.pair (o.exp (d l2 h)) logits)))
      ("variational_auto_encoder/encoder/".toList ++ numbered ["flatten".toList, "linear".toList] "linear".toList)
      ("variational_auto_encoder/encoder/".toList ++ numbered ["flatten".toList, "linear".toList, "linear".toList] "linear".toList)
      ("variational_auto_encoder/decoder/".toList ++ numbered ["linear".toList] "linear".toList) := rfl
  rw [e, name1, name2, name4]

/-- C199: `apply` with a key and parameters of these shapes: the mean and the deviation are of the same hidden values, the sample is drawn with the first key and the image with the second, though in `init`
these were the fourth and the seventh. -/
theorem vae_apply {w : World} (hw : Bare w) {a : Nat → Arr × Arr} (ha : Shaped n hidden latent a) (k : Key) (x : Val) :
    let h := o.relu (dense o a 0 (o.flat (o.cast x)))
    let mean := dense o a 1 h
    let stddev := o.exp (dense o a 2 h)
    let logits := o.unflat (dense o a 4 (o.relu (dense o a 3 (o.sample (keyNo k 0) mean stddev))))
    ((Prog.applyT (some (weights a)) (some []) (.key k) (program (vae o n hidden latent) x)).run stackMach w).1 =
      .ok (.pair (.pair (o.image (keyNo k 1) logits) (.pair mean (.pair stddev logits))) (.bundle [])) := by
  intro h mean stddev logits
  refine (apply_program (get := at2 (weights a)) (k := k) hw (vae_ok ..) ?_ (rng := .key k) rfl ?_ x).trans ?_
  · intro q p hp
    rw [vae_asks] at hp
    simp only [List.mem_append, asked, List.mem_map, Event.param.injEq, specs, List.mem_cons, List.not_mem_nil, or_false, exists_eq_or_imp, exists_eq_left, reduceCtorEq, false_or] at hp
    rcases hp with (⟨rfl, rfl⟩ | ⟨rfl, rfl⟩) | (⟨rfl, rfl⟩ | ⟨rfl, rfl⟩) | (⟨rfl, rfl⟩ | ⟨rfl, rfl⟩) | (⟨rfl, rfl⟩ | ⟨rfl, rfl⟩) | (⟨rfl, rfl⟩ | ⟨rfl, rfl⟩)
    exacts [⟨rfl, (ha 0 (by omega)).1⟩, ⟨rfl, (ha 0 (by omega)).2⟩, ⟨rfl, (ha 1 (by omega)).1⟩, ⟨rfl, (ha 1 (by omega)).2⟩, ⟨rfl, (ha 2 (by omega)).1⟩, ⟨rfl, (ha 2 (by omega)).2⟩,
      ⟨rfl, (ha 3 (by omega)).1⟩, ⟨rfl, (ha 3 (by omega)).2⟩, ⟨rfl, (ha 4 (by omega)).1⟩, ⟨rfl, (ha 4 (by omega)).2⟩]
  · intro _
    rfl
  · rw [vae_computes]
    rfl

/-! ### Keys in training -/

/-- The keys that the program draws with in a call of `init` with `k`, in order: weights, the sample, weights, the image. -/
def initDraws (k : Key) : List Key := (List.range 7).map (keyNo k)

/-- The keys that the program draws with in a call of `apply` with `k`. -/
def applyDraws (k : Key) : List Key := [keyNo k 0, keyNo k 1]

/-- `next(rng_seq)` for the arguments of the calls in the loop of `main` (examples/vae.py 200-204) from step `step` on, with `left` steps to go: one for `update`, and one for `loss_fn` if the step is a
multiple of `freq` (`FLAGS.eval_frequency`; for 0, at which python raises an error, only at step 0). The second value is the sequence after it. -/
def loop (freq : Nat) : Nat → Nat → PRNGSeq → Option (List Key) × PRNGSeq
  | 0, _, s => (some [], s)
  | n + 1, step, s =>
    match s.next with
    | (none, s) => (none, s)
    | (some k, s) =>
      if step % freq = 0 then
        match s.next with
        | (none, s) => (none, s)
        | (some k', s) => (((loop freq n (step + 1) s).1).map fun ks => k :: k' :: ks, (loop freq n (step + 1) s).2)
      else (((loop freq n (step + 1) s).1).map fun ks => k :: ks, (loop freq n (step + 1) s).2)

/-- All keys that `main` draws with in training for `steps` steps (examples/vae.py 193-204): `PRNGSequence(42)`, one key for `model.init`, then the loop. Each call of `update` and of `loss_fn` is one call
of `model.apply`. -/
def mainDraws (seed : Int) (steps freq : Nat) : Option (List Key) :=
  match (PRNGSeq.ofSeed seed).next with
  | (none, _) => none
  | (some k, s) => (loop freq steps 0 s).1.map fun ks => initDraws k ++ ks.flatMap applyDraws

theorem next_left (k : Key) (n : Nat) : (⟨left k n, []⟩ : PRNGSeq).next = (some (keyNo k n), ⟨left k (n + 1), []⟩) := rfl

/-- How many keys the loop takes: one for each step, and one for each step at which there is validation. -/
def taken (freq n step : Nat) : Nat := n + (List.range' step n).countP fun i => i % freq = 0

/-- The loop takes keys one after the other. -/
theorem loop_keys (k : Key) (freq : Nat) : ∀ (n step c : Nat), (loop freq n step ⟨left k c, []⟩).1 = some ((List.range' c (taken freq n step)).map (keyNo k))
  | 0, step, c => rfl
  | n + 1, step, c => by
    by_cases h : step % freq = 0
    · have e : taken freq (n + 1) step = taken freq n (step + 1) + 2 := by
        simp only [taken, List.range'_succ, List.countP_cons, h, decide_true, if_true]
        omega
      rw [loop, next_left]
      dsimp only
      rw [if_pos h, next_left]
      dsimp only
      rw [loop_keys k freq n (step + 1) (c + 1 + 1), e, List.range'_succ, List.range'_succ]
      rfl
    · have e : taken freq (n + 1) step = taken freq n (step + 1) + 1 := by
        simp only [taken, List.range'_succ, List.countP_cons, h, decide_false, Bool.false_eq_true, if_false]
        omega
      rw [loop, next_left]
      dsimp only
      rw [if_neg h, loop_keys k freq n (step + 1) (c + 1), e, List.range'_succ]
      rfl

/-- Keys of keys with different numbers are different. -/
theorem left_keyNo {k : Key} {s s' : Nat} : ∀ {i i' : Nat}, left (keyNo k s) i = left (keyNo k s') i' → s = s' ∧ i = i'
  | 0, 0, h => ⟨(keys_distinct k).1 h, rfl⟩
  | 0, i' + 1, h => by
    rw [left, left, keyNo] at h
    injection h with _ _ h
    cases h
  | i + 1, 0, h => by
    rw [left, left, keyNo] at h
    injection h with _ _ h
    cases h
  | i + 1, i' + 1, h => by
    rw [left, left] at h
    injection h with h
    obtain ⟨h1, h2⟩ := left_keyNo h
    exact ⟨h1, by omega⟩

theorem keyNo_keyNo {k : Key} {s s' i i' : Nat} (h : keyNo (keyNo k s) i = keyNo (keyNo k s') i') : s = s' ∧ i = i' := by
  injection h with h
  exact left_keyNo h

/-- `init` takes seven keys. -/
theorem init_takes (k : Key) : (built k (asks (vae o n hidden latent))).2 = (initDraws k).length := by
  have e := drawn_fold k (asks (vae o n hidden latent)) ([], 0) [] fun q n => by
    show _ ↔ (none : Option Arr).isSome = true
    simp
  rw [vae_asks] at e ⊢
  rw [built, e]
  rfl

/-- C199: in training, however long, no key is drawn with twice: not for two weights, not for the samples and images of two steps, not in a step and in validation, not for a weight and a sample; `main`
draws seven times in `init`, twice in each step and twice in each validation. -/
theorem draws_distinct (seed : Int) (steps freq : Nat) :
    ∃ ks, mainDraws seed steps freq = some ks ∧ ks.Nodup ∧ ks.length = 7 + 2 * (steps + (List.range' 0 steps).countP fun i => i % freq = 0) := by
  refine ⟨initDraws (keyNo (.root seed) 0) ++ ((List.range' 1 (taken freq steps 0)).map (keyNo (.root seed))).flatMap applyDraws, ?_, ?_, ?_⟩
  · unfold mainDraws
    rw [show PRNGSeq.ofSeed seed = ⟨left (.root seed) 0, []⟩ from rfl, next_left]
    dsimp only
    rw [loop_keys]
    rfl
  · rw [List.nodup_append]
    refine ⟨List.nodup_range.map (keys_distinct _).1, ?_, ?_⟩
    · rw [List.flatMap_map, List.nodup_flatMap]
      refine ⟨fun s _ => ?_, List.Pairwise.imp ?_ (List.nodup_range' (s := 1) (n := taken freq steps 0))⟩
      · simp only [applyDraws, List.nodup_cons, List.mem_singleton, List.not_mem_nil, not_false_eq_true, List.nodup_nil, and_true]
        exact fun h => absurd (keyNo_keyNo h).2 (by decide)
      · intro s s' hne x hx hx'
        simp only [applyDraws, List.mem_cons, List.not_mem_nil, or_false] at hx hx'
        rcases hx with rfl | rfl <;> rcases hx' with h | h <;> exact hne (keyNo_keyNo h).1
    · intro a ha b hb e
      subst e
      obtain ⟨i, -, rfl⟩ := List.mem_map.1 ha
      obtain ⟨q, hq, hb⟩ := List.mem_flatMap.1 hb
      obtain ⟨s, hs, rfl⟩ := List.mem_map.1 hq
      rw [List.mem_range'_1] at hs
      simp only [applyDraws, List.mem_cons, List.not_mem_nil, or_false] at hb
      rcases hb with h | h <;> · have := (keyNo_keyNo h).1; omega
  · have : ∀ l : List Key, (l.flatMap applyDraws).length = 2 * l.length := fun l => by
      induction l with
      | nil => rfl
      | cons a l ih => rw [List.flatMap_cons, List.length_append, ih, List.length_cons]; show 2 + _ = _; omega
    rw [List.length_append, this, List.length_map, List.length_range']
    rfl

/-! ### Cases -/

namespace Demo

/-- Functions that keep everything they are given. -/
def ops : Ops := ⟨fun s _ k => [s.length, depth k], fun a b x => .pair x (.pair (.arr a) (.arr b)), fun x => .pair x .unit, fun x => .pair .unit x, fun x => .pair x x, id, id, fun k a b => .pair (.key k) (.pair a b),
  fun k x => .pair x (.key k)⟩

/-- Parameters for images of four numbers, three hidden units and two latent ones. -/
def arrays (i : Nat) : Arr × Arr := (⟨[((sizes 4 3 2).getD i (0, 0)).1, ((sizes 4 3 2).getD i (0, 0)).2], .f32, [i]⟩, ⟨[((sizes 4 3 2).getD i (0, 0)).2], .f32, [-i]⟩)

/-- The hypotheses of `vae_apply`. -/
example : Bare world ∧ Shaped 4 3 2 arrays := ⟨⟨rfl, rfl⟩, fun _ _ => ⟨rfl, rfl⟩⟩

/-- With the sizes of the example: 784 numbers, 512 hidden units, 10 latent ones. -/
example : ((Prog.initT (.key (.root 42)) (program (vae ops 784 512 10) .unit)).run stackMach world).1 = .ok (.pair (.bundle [
      ("variational_auto_encoder/encoder/linear".toList, entry ops.draw (keyNo (.root 42) 0) 784 512), ("variational_auto_encoder/encoder/linear_1".toList, entry ops.draw (keyNo (.root 42) 1) 512 10),
      ("variational_auto_encoder/encoder/linear_2".toList, entry ops.draw (keyNo (.root 42) 2) 512 10), ("variational_auto_encoder/decoder/linear".toList, entry ops.draw (keyNo (.root 42) 4) 10 512),
      ("variational_auto_encoder/decoder/linear_1".toList, entry ops.draw (keyNo (.root 42) 5) 512 784)]) (.bundle [])) := vae_init _ _ _ _ ⟨rfl, rfl⟩ _ _

/-- Four steps with validation at each second one: seven keys in `init`, and two for each of the six calls. -/
example : (mainDraws 42 4 2).map List.length = some 19 := by decide

end Demo

end Verif.Props.VaeProgram
