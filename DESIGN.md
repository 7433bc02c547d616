# Formal model of dm-haiku in Lean 4

## Layout

* `lean/Verif/Base/` – data representation shared by the models (Python dicts, strings) with their lemmas.
* `lean/Verif/Model/` – the model, one Lean file per area of `/repo/haiku/_src`. Every definition cites the file and lines it models.
* `lean/Verif/Lemmas/` – helper lemmas about the model.
* `lean/Verif/Props/` – the property theorems (one file per area), each with its specification definitions and a concrete example meeting its hypotheses.

## Approach

User code is arbitrary Python. It is represented by a program tree (`Prog`): an inductive type with one constructor per
Haiku API call (get_parameter, get_state, set_state, next_rng_key, module construction, method call, name scope, with_rng,
custom creators/getters/interceptors, try/except, hk.jit, hk.cond, hk.scan, ..., nested transforms) and an arbitrary Lean function as
continuation. An interpreter gives the effect of each call on the thread's Haiku stacks, pushing and popping exactly where the
code does. Exceptions are values. A theorem "for every `Prog`" is a theorem about every terminating user function.

Plain helper functions (naming, padding, shapes, filtering, ...) are modelled one function at a time. Numerical modules
(moving averages, pooling, ...) are modelled over exact rationals or an arbitrary field.

When the code contradicts the property as documented, the negation is proved with a concrete witness and the property is proved
under the exact guard with a name ending in `_partial`.

## Properties

Model and proof method per property, its status, what is missing, and its theorems (in `lean/Verif/Props`). Generated by `tools/design.py`.

<!-- begin properties -->
* **C01** init and apply leave the ambient context untouched — *proved*. Model: `Prog` interpreter with explicit stacks, transforms. Proof: induction over programs: every run restores all stacks and all frames below the top.
  For every program run by init or apply, returning or raising, on the machine with explicit frame stack. Theorems: `Context.ambient_untouched`.
* **C02** apply never creates or changes parameters — *proved*. Model: `Prog` interpreter, transforms. Proof: induction over programs: a frozen frame keeps `params`.
  For every program in every reachable apply frame, whatever hooks are active and however it ends. Theorems: `Params.apply_only_reads`, `Params.apply_missing_raises`, `Params.existing_returned`.
* **C03** get_parameter is create-once then reuse — *proved*. Model: `Prog` interpreter, frame operations. Proof: induction over programs: recorded entries are stable; histories of state operations refine a map.
  Over the recorded accesses of every run, including through stateful control flow; the first request and every later one also as exact equations. Theorems: `Params.existing_returned`, `Params.param_never_changes`, `Params.created_once`, `Params.reads_agree`, `Params.first_request`, `State.init_returns`.
* **C04** apply on the output of init retraces init — *partial*. Model: `Prog` interpreter, transforms. Proof: simulation between the run of init and the run of apply; for untaken branches a second relation between runs on data of the same structure.
  Proved (exact output and state) for programs with parameters, state, modules, name scopes, hooks, with_rng, jit, vmap, nested transforms, eval_shape of functions making nothing, cond/switch on branches that do not look at values (with loops inside), non-empty fori_loop and forward scan whose first step keeps structure and constructs no module directly. The conditions on loops and eval_shape are needed (witnesses proved). Not covered: control flow under vmap, and lift, with which the claim fails in general (lift_breaks). Theorems: `InitApply.apply_retraces_init_partial`, `InitApply.eval_shape_breaks`, `InitApply.fori_loop_breaks`, `InitApply.scan_breaks`, `InitApply.fori_names_break`, `InitApply.reverse_scan_breaks`, `InitApply.lift_breaks`.
* **C05** initial state is returned by init, current state by apply — *proved*. Model: `Prog` interpreter, frame operations. Proof: induction over programs: recorded entries are stable; histories of state operations refine a map.
  Every run; what init and apply return is stated over the recorded accesses of the run. Theorems: `State.initial_and_current`, `State.initial_fixed`, `State.init_returns`, `State.apply_returns`.
* **C06** state reads see the last write to the same module and name only — *proved*. Model: `Prog` interpreter, frame operations. Proof: induction over programs: recorded entries are stable; histories of state operations refine a map.
  Every run, plus exact equations for get_state and set_state. Theorems: `State.read_last_write`, `State.state_created_when_absent`, `State.set_state_writes`, `State.get_state_existing`, `State.get_state_missing`.
* **C07** keys handed out by a PRNGSequence are never repeated — *proved*. Model: `PRNGSequence` as a machine over symbolic keys (a key is its path of splits). Proof: invariant by induction over operations.
  All operation sequences on a PRNGSequence; jax.random.split is modelled as a free constructor (distinct inputs give distinct keys). Theorems: `PRNG.keys_never_repeat`, `PRNG.held_key_never_handed_out`, `PRNG.no_key_split_twice`.
* **C08** next_rng_key never repeats inside one init or apply — *proved*. Model: `Prog` interpreter with a log of the keys handed out. Proof: invariant by induction over programs.
  Every program meeting the quantifier (Careful), with named calls on or off; handlers may also surround control flow that draws no keys. Each exclusion has a witness: caught_key_reused, named_call_key_reused, eval_shape_key_reused, with_rng_key_reused, while_condition_key_reused (C27). Theorems: `Rng.keys_distinct`, `Rng.caught_key_reused`, `Rng.named_call_key_reused`, `Rng.eval_shape_key_reused`, `Rng.with_rng_key_reused`.
* **C09** reserved keys are delivered in order, and take equals repeated next on reserved keys — *proved*. Model: `PRNGSequence` as a machine over symbolic keys (a key is its path of splits). Proof: invariant by induction over operations.
  Theorems: `PRNG.reserve_keeps_delivery`, `PRNG.reserve_then_next`, `PRNG.take_length`, `PRNG.take_reserved_first`, `PRNG.take_eq_next`, `PRNG.take_nonpos`.
* **C10** a sequence rebuilt from its internal_state continues identically — *proved*. Model: `PRNGSequence` as a machine over symbolic keys (a key is its path of splits). Proof: invariant by induction over operations.
  Theorems: `PRNG.snapshot_resume`.
* **C11** reserve_up_to_full normalises the number of reserved keys — *proved*. Model: `PRNGSequence` as a machine over symbolic keys (a key is its path of splits). Proof: invariant by induction over operations.
  Theorems: `PRNG.reserve_up_to_full_length`, `PRNG.dropped_keys_never_handed_out`.
* **C12** without an RNG no key can be obtained — *proved*. Model: `Prog` interpreter with a log of the keys handed out. Proof: invariant by induction over programs.
  Every program not using with_rng; the operations as equations. Theorems: `Rng.no_rng_no_key`, `Rng.no_rng_no_key_program`, `Rng.none_rng_no_key`.
* **C13** module names are unique within a scope — *proved*. Model: names as lists of characters, counters, used names. Proof: invariant over histories of requests; parsing lemmas.
  For every caller, every list of requested names, successes and failures interleaved. Theorems: `Names.names_unique`.
* **C14** automatically numbered names never fail; explicitly numbered names fail exactly on reuse — *proved*. Model: names as lists of characters, counters, used names. Proof: invariant over histories of requests; parsing lemmas.
  Both halves; a numeric suffix with leading zeros counts as its value. Theorems: `Names.auto_never_fails`, `Names.numbered_fails_iff`.
* **C15** the k-th unnumbered request gets the k-th name — *proved*. Model: names as lists of characters, counters, used names. Proof: invariant over histories of requests; parsing lemmas.
  Theorems: `Names.kth_name`.
* **C16** full names determine parent and local name — *proved*. Model: names as lists of characters, counters, used names. Proof: invariant over histories of requests; parsing lemmas.
  For every module name reachable by nested constructions and every scope state. Theorems: `Names.full_name_determines_owner`.
* **C17** module names must be Python identifiers — *partial*. Model: names as lists of characters, counters, used names. Proof: invariant over histories of requests; parsing lemmas.
  validIdentifier_iff characterises exactly what is accepted; the property fails for an identifier followed by a newline (validIdentifier_accepts_newline), and holds for every other string (validIdentifier_iff_partial). Theorems: `Names.validIdentifier_iff`, `Names.validIdentifier_accepts_newline`, `Names.validIdentifier_iff_partial`.
* **C18** exceptions restore the naming scope — *proved*. Model: `Prog` interpreter with explicit stacks, transforms. Proof: induction over programs: every run restores all stacks and all frames below the top.
  Theorems: `Context.same_place`, `Context.handler_place`, `Context.with_rng_restores`.
* **C19** hooks run in registration order, each at most once per call — *proved*. Model: the chain runner with its shared mutable queue. Proof: induction over the chain.
  One chain model for creators, getters and interceptors; creators_chain, getters_chain and interceptors_chain tie it to the three runners of the code. Theorems: `HookOrder.method_intercepted`, `HookOrder.blocks_register`, `Hooks.hooks_in_order`, `Hooks.chain_is_composition`, `Hooks.all_hooks_run`, `Hooks.creators_chain`, `Hooks.getters_chain`, `Hooks.interceptors_chain`.
* **C20** calling next twice from a hook reruns the rest of the chain — *partial*. Model: the chain runner with its shared mutable queue. Proof: induction over the chain.
  Violated: a second call of next skips the hooks already run (second_next_skips_rest, next_twice_differs). Holds for the hook registered last (next_twice_partial). Theorems: `Hooks.next_twice_partial`, `Hooks.second_next_skips_rest`, `Hooks.next_twice_differs`.
* **C21** custom getters never change what is stored — *proved*. Model: `Prog` interpreter with getters. Proof: induction over programs.
  get_parameter/get_state leave the same data behind for all getters; two programs with the same calls and writes store the same if both return; init and apply corollaries Theorems: `Getters.getters_do_not_store`, `Getters.getters_keep_data`, `Getters.init_same`, `Getters.apply_same`.
* **C22** hk.jit, hk.remat, hk.named_call and hk.grad thread state transparently — *proved*. Model: stateful control flow in the interpreter; JAX primitives are their value semantics. Proof: simulation between the temporary and the direct frame; induction over iterations.
  jit, grad, remat and the like share one wrapper in the model; names are put back afterwards, so the worlds agree up to names (equal when the body makes none). Theorems: `Control.jit_transparent`, `Control.jit_transparent_of_names`.
* **C23** a stateful transform whose body raises changes nothing — *proved*. Model: stateful control flow in the interpreter; JAX primitives are their value semantics. Proof: simulation between the temporary and the direct frame; induction over iterations.
  jit-like wrappers, cond/switch, vmap in any mode; scan, fori_loop and while_loop in apply; fori_loop in init, where the first iteration runs in the enclosing function and only the rest is a transformed region. Module objects and the ghost record of keys handed out remain. Theorems: `Control.jit_atomic`, `Control.switch_atomic`, `Control.scan_atomic`, `Control.fori_atomic`, `Control.vmap_atomic`, `Control.while_atomic`, `Control.fori_init_atomic`.
* **C24** hk.cond and hk.switch behave like the chosen branch — *proved*. Model: stateful control flow in the interpreter; JAX primitives are their value semantics. Proof: simulation between the temporary and the direct frame; induction over iterations.
  Theorems: `Control.switch_is_branch`, `Control.cond_is_branch`, `Control.switch_returns`.
* **C25** hk.scan equals the Python loop — *partial*. Model: stateful control flow in the interpreter; JAX primitives are their value semantics. Proof: simulation between the temporary and the direct frame; induction over iterations.
  Apply: both directions. Init: proved for a non-empty forward scan (scan_init_partial); refuted for reversed outputs (scan_init_reverse_wrong) and for empty scans (scan_init_empty_runs). Theorems: `Control.scan_apply`, `Control.scan_apply_returns`, `Control.scan_init_partial`, `Control.scan_init_reverse_wrong`, `Control.scan_init_empty_runs`.
* **C26** hk.fori_loop equals the Python loop — *partial*. Model: stateful control flow in the interpreter; JAX primitives are their value semantics. Proof: simulation between the temporary and the direct frame; induction over iterations.
  Apply: both directions. Init: proved for a non-empty range (fori_init_partial); refuted for an empty one (fori_init_empty_runs). Theorems: `Control.fori_apply`, `Control.fori_apply_returns`, `Control.fori_init_partial`, `Control.fori_init_empty_runs`.
* **C27** hk.while_loop equals the Python loop and protects the condition — *partial*. Model: stateful control flow in the interpreter; JAX primitives are their value semantics. Proof: simulation between the temporary and the direct frame; induction over iterations.
  Equality with the Python loop is proved (both directions) for conditions that are functions of the loop value; refuted for conditions reading state (while_stale_condition). Rejection is proved for stores and for new keys in the sequence; refuted for a condition consuming an already reserved key (while_condition_key_reused). Theorems: `Control.while_apply_partial`, `Control.while_init_raises`, `Control.while_rejects`, `Control.while_stale_condition`, `Control.while_condition_key_reused`.
* **C28** eval_shape has no effect on state — *proved*. Model: stateful control flow in the interpreter; JAX primitives are their value semantics. Proof: simulation between the temporary and the direct frame; induction over iterations.
  Theorems: `Context.eval_shape_no_effect`, `Context.eval_shape_result`.
* **C29** hk.vmap shares parameters and state across the batch — *proved*. Model: stateful control flow in the interpreter; JAX primitives are their value semantics. Proof: simulation between the temporary and the direct frame; induction over iterations.
  Non-empty batches. JAX rejects state that depends on the batch syntactically; the model rejects it when the values differ. Theorems: `Control.vmap_elementwise`.
* **C30** difference has no false negatives and update undoes it — *proved*. Model: `difference` and `update_internal_state` on two-level dicts. Proof: extensionality of dicts.
  For every change test that never misses a change, any order of entries. Theorems: `Diff.difference_update`, `Diff.difference_reports`, `Diff.difference_reports_rng`, `Diff.update_frozen`.
* **C31** assert_no_new_parameters raises exactly when a parameter was added — *proved*. Model: `difference` and `update_internal_state` on two-level dicts. Proof: extensionality of dicts.
  Theorems: `Diff.no_new_parameters_iff`.
* **C32** assert_state_unchanged detects every change — *partial*. Model: object identities. Proof: case analysis; counterexamples.
  On object addresses. The check is exact for stores when no new object gets an address that was in use at the start of the block (detects_stores_partial), and every single state change or split is noticed (detects_single); refuted for taking reserved keys, for setting a state twice with address reuse, and for a new parameter sharing an array. Theorems: `Identity.detects_stores_partial`, `Identity.detects_single`, `Identity.unchanged_passes`, `Identity.pop_not_noticed`, `Identity.set_twice_not_noticed`, `Identity.shared_array_not_noticed`.
* **C33** partition, merge, filter and map are consistent — *proved*. Model: the loops of `filtering.py`. Proof: induction over entries.
  Theorems: `Filtering.filter_entries`, `Filtering.partition_entries`, `Filtering.partition_dicts`, `Filtering.map_entries`, `Filtering.merge_entries`, `Filtering.merge_only`, `Filtering.merge_partition`.
* **C34** to_immutable_dict and to_mutable_dict are inverse on nested dicts — *proved*. Model: pytrees with a heap for containers. Proof: structural induction.
  For trees of dicts, FlatMappings, sequences and leaves, and on a heap with shared cells; a mutable mapping type other than dict and FlatMapping is not copied (other_mapping_shared). Theorems: `Tree.mutable_immutable`, `Tree.mutable_immutable_eq`, `Tree.immutable_eq`, `Tree.immutable_no_dict`, `Tree.immutable_unaffected`, `Tree.freezeAt_reads`, `Tree.other_mapping_shared`.
* **C35** FlatMapping flatten/unflatten round trip — *proved*. Model: pytrees with a heap for containers. Proof: structural induction.
  Theorems: `Tree.flatten_unflatten`, `Tree.tree_map_lookup`, `Tree.tree_map_leaf`, `Tree.components_consistent`.
* **C36** equal FlatMappings have equal hashes — *partial*. Model: pytrees with a heap for containers. Proof: structural induction.
  Violated when a FlatMapping holds dicts (equal_but_hashed_differently); proved for FlatMappings without dicts, as to_immutable_dict builds them (equal_hash_partial). Theorems: `Tree.equal_hash_partial`, `Tree.equal_but_hashed_differently`.
* **C37** lifted parameters are packed and unpacked without loss — *proved*. Model: `LiftingModule` as a program. Proof: lemmas on prefixes of names.
  hk.lift inside a transform: packing, unpacking, round trip, and what the lifted function sees in init and apply. Theorems: `Lift.pack_stores`, `Lift.pack_occupied`, `Lift.pack_keeps`, `Lift.unpack_returns`, `Lift.pack_unpack`, `Lift.lift_call_init`, `Lift.lift_call_apply`.
* **C38** threads do not interfere — *partial*. Model: stores indexed by thread, small steps. Proof: projection of schedules to threads.
  any number of threads, any schedule of atomic steps; every other thread free of profiler_name_scopes, whose global setting leaks (named_call_leaks); the hook of optimize_rng_use is C39 Theorems: `Threads.threads_independent_partial`, `Threads.thread_result_partial`, `Threads.named_call_leaks`, `Threads.others_invisible`.
* **C39** optimize_rng_use restores the global RNG hook under every schedule — *partial*. Model: the global hook shared by threads, small steps. Proof: induction over schedules of disjoint regions; race as witness.
  exclusive counting regions, any number of threads (exclusive_partial); one user of optimize_rng_use, any schedule: hook restored (single_user_partial); the full claim is false of the code (hook_left_behind, foreign_requests) Theorems: `HookThreads.exclusive_partial`, `HookThreads.hook_left_behind`, `HookThreads.foreign_requests`, `HookThreads.single_user_partial`.
* **C40** optimize_rng_use only changes how keys are split — *partial*. Model: `optimize_rng_use` for one thread. Proof: induction over programs that draw keys.
  all functions over the RNG interface; requests = count for repeatable functions under an RNG, one split, distinct keys, hook restored always; false for next_rng_keys/maybe_next_rng_key, without RNG and for some functions with parameters (witnesses) Theorems: `OptimizeRng.hook_restored`, `OptimizeRng.rng_stack_kept`, `OptimizeRng.counted_exactly`, `OptimizeRng.next_keys_not_counted`, `OptimizeRng.no_rng_fails`, `OptimizeRng.one_split`, `OptimizeRng.keys_distinct`, `OptimizeRng.init_fails_after_parameter`, `OptimizeRng.apply_fails_in_method`.
* **C41** without_state and without_apply_rng only change the signature — *partial*. Model: wrappers of positional arguments. Proof: case analysis of the wrappers, for every function.
  without_state and transform follow the property; without_apply_rng(transform(f)) is labelled TransformedWithState (without_apply_rng_kind_wrong), and a function whose only state access fails and is caught is rejected too. Theorems: `Transform.transform_apply`, `Transform.transform_init`, `Transform.state_access_rejected`, `Transform.rejected_uses_state`, `Transform.failed_lookup_rejected`, `Transform.without_apply_rng_none`, `Transform.without_apply_rng_kind_partial`, `Transform.without_apply_rng_kind_wrong`.
* **C42** nested transforms are isolated from the enclosing one — *partial*. Model: nested transforms in the interpreter. Proof: induction over programs.
  Isolation of frames is proved; creators, getters and interceptors of the outer transform leak into the inner one (hooks_leak_into_nested). Theorems: `Context.nested_isolated_partial`, `Context.hooks_leak_into_nested`.
* **C43** name_scope behaves like a module method call — *proved*. Model: name scopes and contexts in the interpreter. Proof: simulation; induction over entries.
  name_scope is the body run inside nested modules, with all names relative to what a plain module would get; proved for every scope in which modules can be constructed and no interceptor is active Theorems: `Scopes.scope_prefix`, `Scopes.scope_prefix_plain`, `Scopes.scope_validated`, `Scopes.scopes_apart`, `Scopes.module_apart`.
* **C44** re-entering a context continues it — *partial*. Model: name scopes and contexts in the interpreter. Proof: simulation; induction over entries.
  resumption, kept parameters and state, numbering and non-collision proved for every chain of entries; modules constructed inside hk.jit (and the other wrapped transforms) are not recorded and do collide: proved by jit_collides Theorems: `Scopes.resumes`, `Scopes.params_kept`, `Scopes.state_kept`, `Scopes.module_created`, `Scopes.entries_apart_partial`, `Scopes.numbering_continues`, `Scopes.jit_collides`.
* **C45** params_dict and state_dict select exactly the module and its submodules — *partial*. Model: `Frame.lean`: `belongs`, `paramsOrStateDict`, `modDict`, `notify`; `Machine.lean`: `wrapMethod`, `construct`, `nameScopeM` and all stateful control flow.. Proof: `Props/Submodules.lean`: the content of the dictionary (`selects_partial`, `selects_names`) and what one call records (`method_recorded`). `Props/SubmodulesRun.lean`: over whole runs of programs that catch nothing (`Orderly`) every access is shown by the module and by all modules with running methods (`method_accesses_shown`, `constructor_accesses_shown`, `accesses_covered`, `shown_kept`, `accessed_in_dict_partial`), by induction over programs with an invariant on module objects and accesses; witnesses for what is excluded (`caught_not_shown`, `twice_not_shown`, `lifted_not_shown`)..
  Exact content of params_dict/state_dict for names without a slash, names and soundness for all names; with slashes two parameters may share a full name (full_names_collide). Over whole runs everything accessed while a method runs is shown by the module and by its callers; this fails, with witnesses, for calls that raise and are caught, for super().__init__() called twice, and for lifted parameters seen from callers. Theorems: `Submodules.selects_partial`, `Submodules.selects_names`, `Submodules.method_recorded`, `Submodules.ops_record_nothing`, `Submodules.full_names_collide`, `Submodules.method_accesses_shown`, `Submodules.constructor_accesses_shown`, `Submodules.accesses_covered`, `Submodules.shown_kept`, `Submodules.accessed_in_dict_partial`, `Submodules.caught_not_shown`, `Submodules.twice_not_shown`, `Submodules.lifted_not_shown`.
* **C46** Reshape keeps the number of elements — *partial*. Model: shapes and row-major elements. Proof: arithmetic on products of sizes.
  proved: preserved dimensions, element count, Flatten rank; a fitting size for -1 is always found and is unique when the input has elements. For inputs without elements -1 is not unique (wildcard_zero) Theorems: `Shapes.reshape_keeps`, `Shapes.wildcard_unique_partial`, `Shapes.wildcard_zero`, `Shapes.flatten_rank`.
* **C47** BatchApply splits exactly what it merged — *partial*. Model: shapes and row-major elements. Proof: arithmetic on products of sizes.
  proved when all inputs share the merged dimensions; inputs with other leading dimensions of the same product come back reshaped (batch_apply_mixed) Theorems: `Shapes.batch_apply_positions`, `Shapes.batch_apply_identity_partial`, `Shapes.batch_apply_mixed`.
* **C48** SAME, VALID, FULL and causal paddings give the documented output sizes — *proved*. Model: padding and window positions. Proof: arithmetic.
  any number of dimensions, per-dimension mixtures, dilation and groups Theorems: `Conv.pad_sizes`, `Conv.string_pads`, `Conv.causal_reads_past`, `Conv.reverse_causal_reads_future`.
* **C49** transposed convolution produces the requested output shape — *partial*. Model: padding and window positions. Proof: arithmetic.
  proved for non-empty inputs; an input of size 0 can give another output size (transposed_empty) Theorems: `Conv.transposed_shape_partial`, `Conv.adjusted_rejects`, `Conv.transposed_empty`.
* **C50** pooling windows never pool over batch or channel — *partial*. Model: window reduction on arrays as functions of positions. Proof: sums and maxima over windows.
  proved for rank at least 1 and channel axis other than -ndim, which is rejected although valid (pool_first_axis); scalars get rank 1 (pool_scalar) Theorems: `Pool.infer_int_partial`, `Pool.pool_first_axis`, `Pool.pool_scalar`, `Pool.infer_seq`.
* **C51** avg_pool averages only real elements — *proved*. Model: window reduction on arrays as functions of positions. Proof: sums and maxima over windows.
  every rank, over any field Theorems: `Pool.avg_pool_mean`, `Pool.avg_pool_constant`, `Pool.avg_pool_total`.
* **C52** bias shapes broadcast against the input — *partial*. Model: `calculate_bias_shape`. Proof: induction over dimensions.
  proved, except that dimensions below -rank wrap instead of being rejected (bias_wraps) Theorems: `Bias.bias_shape`, `Bias.bias_rejects_partial`, `Bias.bias_wraps`.
* **C53** EMA is the exponentially weighted mean of its inputs — *partial*. Model: the moving average over a field. Proof: induction over the history of calls.
  closed form, convexity, constants proved for every history; update_stats=False changes no existing entry and no later result, but creates missing entries Theorems: `Ema.ema_hidden`, `Ema.ema_value`, `Ema.ema_convex`, `Ema.ema_constant`, `Ema.no_update_partial`, `Ema.no_update_creates`, `Ema.no_update_invisible`, `Ema.ema_stores_average`.
* **C54** EMA warm-up — *proved*. Model: the moving average over a field. Proof: induction over the history of calls.
  Theorems: `Ema.ema_warmup`, `Ema.ema_rejects`, `Ema.ema_stores_average`.
* **C55** static_unroll and dynamic_unroll agree — *proved*. Model: unrolls of an arbitrary core. Proof: induction over the sequence.
  the core keeps the shapes of its state, as RNNCore demands; outside that the two differ (growing_state, ragged_inputs, no_steps) Theorems: `Recurrent.unrolls_agree`, `Recurrent.static_steps`, `Recurrent.no_steps`, `Recurrent.growing_state`, `Recurrent.ragged_inputs`.
* **C56** ResetCore restarts exactly where asked — *partial*. Model: `ResetCore` on nested states. Proof: induction over the nesting; positions of arrays.
  All cores acting on each batch element by itself, all inputs and reset signals. Missing (false of the code): unbatched states made of scalars only, see scalar_state_breaks. Theorems: `Cores.lstm_resets`, `Cores.gru_resets`, `Reset.reset_segments`, `Reset.reset_batched`, `Reset.reset_unbatched_partial`, `Reset.scalar_state_breaks`, `Reset.reset_leafwise`, `Reset.reset_rejects`.
* **C57** DeepRNN threads every recurrent layer's own state — *proved*. Model: `_DeepRNN` over arbitrary layers. Proof: induction over the layers.
  Theorems: `DeepRnn.deep_rnn`, `DeepRnn.deep_rnn_skip`, `DeepRnn.skip_rejects`, `DeepRnn.skip_empty`, `DeepRnn.deep_needs_states`, `DeepRnn.deep_initial_state`, `DeepRnn.concat_pieces`, `DeepRnn.concat_nests`, `DeepRnn.deep_layerwise`.
* **C58** embedding lookup styles agree — *proved*. Model: the two lookup styles over a semiring. Proof: sum over the one-hot vector.
  Theorems: `Embed.embed_row`, `Embed.embed_styles_agree`, `Embed.embed_outside`, `Embed.embed_accepts`, `Embed.embed_make`.
* **C59** replicate and channel index helpers — *partial*. Model: `replicate`, `get_channel_index` on characters. Proof: parsing lemmas.
  replicate and camel_to_snake proved; get_channel_index accepts a trailing newline (channel_index_newline) Theorems: `Names.camelToSnake_ident`, `Utils.replicate_entries`, `Utils.channel_index_partial`, `Utils.channel_index_newline`.
* **C60** MLP sizes and reversal — *proved*. Model: `Linear`, `MLP`, `dropout` over a field. Proof: induction over the layers.
  exact arithmetic Theorems: `Mlp.mlp_layers`, `Mlp.mlp_succeeds`, `Mlp.mlp_scalar`, `Mlp.mlp_reverse`, `Mlp.reverse_too_early`.
* **C61** dropout keeps the mean and rejects bad rates — *proved*. Model: `Linear`, `MLP`, `dropout` over a field. Proof: induction over the layers.
  exact arithmetic; expectation over any finite distribution of keys Theorems: `Mlp.dropout_rejects`, `Mlp.dropout_zero`, `Mlp.dropout_elements`, `Mlp.dropout_mean`.
* **C62** max_pool returns the largest real element of each window — *proved*. Model: window reduction on arrays as functions of positions. Proof: sums and maxima over windows.
  every rank, over any linear order with a least element Theorems: `Pool.max_pool_largest`.
* **C63** MLP dropout uses a fresh key before each activation and nowhere else — *proved*. Model: `Linear`, `MLP`, `dropout` over a field. Proof: induction over the layers.
  exact arithmetic, ideal key splitting Theorems: `Mlp.mlp_dropout_args`, `Mlp.mlp_dropout`.
* **C64** LayerNorm normalises each slice on its own — *proved*. Model: layer and instance normalisation on arrays of any rank over a field. Proof: broadcasting lemmas; sums over slices.
  Theorems: `Norm.layer_norm_formula`, `Norm.layer_norm_stats`, `Norm.layer_norm_slicewise`.
* **C65** InstanceNorm normalises per example and channel and scales per channel — *partial*. Model: layer and instance normalisation on arrays of any rank over a field. Proof: broadcasting lemmas; sums over slices.
  Statistics proved for both formats. With the channels on axis 1 the own scale and offset are not per channel (instance_norm_scale_wrong). Theorems: `Norm.instance_norm_partial`, `Norm.instance_norm_scale_wrong`.
* **C66** BatchNorm in training normalises with the statistics of the (cross-replica) batch — *proved*. Model: batch normalisation on arrays of any rank over a field. Proof: broadcasting lemmas; sums over slices and devices.
  Theorems: `BatchNorm.batch_norm_batch`, `BatchNorm.batch_norm_channels`.
* **C67** BatchNorm outside training uses and keeps the moving averages — *proved*. Model: batch normalisation on arrays of any rank over a field. Proof: broadcasting lemmas; sums over slices and devices.
  Theorems: `BatchNorm.batch_norm_test`.
* **C68** BatchNorm's moving averages are the debiased exponential averages of the training statistics — *proved*. Model: batch normalisation with its two moving averages. Proof: elementwise refinement to the scalar average, induction over the history of calls.
  Theorems: `BatchNorm.batch_norm_averages`.
* **C69** BatchNorm's own parameters have size 1 on the reduced axes — *partial*. Model: batch normalisation on arrays of any rank over a field. Proof: broadcasting lemmas; sums over slices and devices.
  Proved for axes that are not negative; false for negative axes (negative_axis_shape). Theorems: `BatchNorm.own_shape_partial`, `BatchNorm.negative_axis_shape`.
* **C70** GroupNorm returns an array of the input's shape — *partial*. Model: group normalisation with row-major reshapes. Proof: bijection between slices of the reshaped array and groups of channels; induction over earlier calls.
  Proved when only the first size changes between calls and axes are not negative; false otherwise (group_norm_shape_wrong). Theorems: `GroupNorm.group_norm_partial`, `GroupNorm.group_norm_shape_wrong`.
* **C71** GroupNorm never mixes groups or examples — *partial*. Model: group normalisation with row-major reshapes. Proof: bijection between slices of the reshaped array and groups of channels; induction over earlier calls.
  Proved for axes that are not negative; false for negative axes (group_norm_negative_axis). Theorems: `GroupNorm.group_norm_partial`, `GroupNorm.group_norm_per_channel`, `GroupNorm.group_norm_negative_axis`.
* **C72** A transposed convolution is the transpose of the convolution — *proved*. Model: values of both convolutions as sums over kernel positions and channels. Proof: both inner products rewritten as one sum over pairs of positions; the paddings match position by position.
  Theorems: `ConvT.transposed_adjoint`.
* **C73** VectorQuantizer returns the nearest embedding — *proved*. Model: flattening, distances, argmax and lookup on arrays of any shape. Proof: row-major positions of the flat array; argmax by induction.
  Theorems: `VQ.vq_nearest`.
* **C74** VectorQuantizer rejects inputs of the wrong last dimension — *partial*. Model: flattening, distances, argmax and lookup on arrays of any shape. Proof: row-major positions of the flat array; argmax by induction.
  inputs without elements can be accepted and change shape, see vq_empty_shape Theorems: `VQ.vq_rejects_partial`, `VQ.vq_empty_shape`.
* **C75** Perplexity lies between 1 and the number of embeddings — *proved*. Model: the same over the real numbers with exp and log. Proof: log x <= x - 1 summed over the embeddings.
  Theorems: `VQ.perplexity_bounds`, `VQ.perplexity_least`.
* **C76** VectorQuantizerEMA learns only in training and as documented — *proved*. Model: state of the module with both moving averages; calls as transitions. Proof: invariant over histories relating the state to all batches so far.
  Theorems: `VQ.vq_ema_eval`, `VQ.vq_ema_forward`, `VQ.vq_ema_range`, `VQ.vq_ema_learns`.
* **C77** Embeddings learnt by moving averages stay within the inputs — *proved*. Model: state of the module with both moving averages; calls as transitions. Proof: invariant over histories relating the state to all batches so far.
  Theorems: `VQ.vq_ema_between`, `VQ.vq_ema_unused`.
* **C78** SpectralNorm never divides by more than the first singular value — *proved*. Model: flattening, power iteration with an abstract reciprocal square root, and the state u0 and sigma. Proof: Cauchy-Schwarz for W and its transpose; an invariant on the stored vector over histories.
  Theorems: `Spectral.spectral_norm_estimate`.
* **C79** More power iteration never gives a smaller estimate — *proved*. Model: flattening, power iteration with an abstract reciprocal square root, and the state u0 and sigma. Proof: Cauchy-Schwarz for W and its transpose; an invariant on the stored vector over histories.
  Theorems: `Spectral.spectral_norm_monotone`, `Spectral.spectral_norm_more_steps`.
* **C80** SpectralNorm accepts the documented ranks — *partial*. Model: flattening, power iteration with an abstract reciprocal square root, and the state u0 and sigma. Proof: Cauchy-Schwarz for W and its transpose; an invariant on the stored vector over histories.
  scalars raise instead of being returned; without steps the call fails with a NameError Theorems: `Spectral.spectral_norm_scalar`, `Spectral.spectral_norm_flag`, `Spectral.spectral_norm_accepts_partial`.
* **C81** Default module names separate the words of the class name — *proved*. Model: the scan of the regular expression over characters. Proof: induction over the parts of the name, one lemma for each kind of neighbouring characters.
  Theorems: `Camel.camelToSnake_words`.
* **C82** EMAParamsTree averages every parameter on its own — *partial*. Model: the traversal of the tree with the naming scope of the call and the states by module name; the module for one parameter is a function of its state. Proof: names given in one call are distinct; invariant over histories relating every state to the history of one parameter; decoding of the mangled names.
  if the order of the trees changes, only for parameters whose mangled names differ, are identifiers and do not end in a number; otherwise averages can be swapped or the call fails (ema_tree_order_swaps, ema_tree_rejects) Theorems: `PTree.tree_same_order`, `PTree.tree_any_order_partial`, `PTree.tree_succeeds_partial`, `PTree.ema_tree_same_order`, `PTree.ema_tree_any_order_partial`, `PTree.usual_apart`, `PTree.usual_modules_apart`, `PTree.ema_tree_order_swaps`, `PTree.ema_tree_rejects`.
* **C83** SNParamsTree normalises every parameter — *partial*. Model: the traversal of the tree with the naming scope of the call and the states by module name; the module for one parameter is a function of its state. Proof: names given in one call are distinct; invariant over histories relating every state to the history of one parameter; decoding of the mangled names.
  fails on every tree with a scalar or vector that is not ignored (sn_tree_vector); for calls that succeed the claim is proved Theorems: `PTree.usual_modules_apart`, `PTree.sn_tree_vector`, `PTree.sn_tree_normalised`.
* **C84** Recurrent cores compute the documented equations — *proved*. Model: the calls of VanillaRNN, LSTM and GRU in exact arithmetic; logistic function and tanh are any functions. Proof: values of concatenation, columns, broadcasting and products at every position; inversion of successful calls; the general theorem on ResetCore instantiated.
  Theorems: `Cores.lstm_equations`, `Cores.gru_equations`, `Cores.rnn_equations`, `Cores.rank_rejected`, `Cores.lstm_batch_rejected`.
* **C85** Batch elements go through a recurrent core as if alone — *proved*. Model: the calls of VanillaRNN, LSTM and GRU in exact arithmetic; logistic function and tanh are any functions. Proof: values of concatenation, columns, broadcasting and products at every position; inversion of successful calls; the general theorem on ResetCore instantiated.
  Theorems: `Cores.lstm_batch`, `Cores.gru_batch`, `Cores.rnn_batch`, `Cores.lstm_acts`, `Cores.gru_acts`, `Cores.lstm_resets`, `Cores.gru_resets`.
* **C86** Recurrent states stay bounded over any unroll — *proved*. Model: as C84, unrolled by static_unroll. Proof: invariant over the steps; convex combinations; bounds on the gates, shown to hold for the real functions.
  Theorems: `Cores.lstm_bounded`, `Cores.gru_bounded`, `Cores.rnn_nonneg`, `Cores.lstm_from_initial`, `Cores.gru_from_initial`.
* **C87** Recurrent cores keep the shape of their state, so both unrolls agree — *partial*. Model: as C84, with static_unroll and dynamic_unroll. Proof: inversion of successful calls, then C55.
  for GRU and VanillaRNN only if the state has the leading axes of the inputs; otherwise the state grows and dynamic_unroll raises (unbatched_state_grows) Theorems: `Cores.lstm_keeps`, `Cores.lstm_unrolls_agree`, `Cores.gru_keeps_partial`, `Cores.rnn_keeps_partial`, `Cores.unrolls_agree_partial`, `Cores.identity_unrolls`, `Cores.unbatched_state_grows`.
* **C88** Attention computes the documented weighted means — *proved*. Model: Model/Attention: `MultiHeadAttention` with its projections, reshapes, both `einsum`s with the sizes of 1 they accept, the mask, the softmax as JAX computes it (with the maximum subtracted) and the `or` defaults, in exact arithmetic over any field with any exponential function and square root.. Proof: Every step of the call is evaluated; C88 removes the maximum by the laws of the exponential function, C89 takes that it is 1 at 0 and nowhere negative, C90 that it is rounded to 0 for very negative numbers (and bounds the weight without this), C91 and C92 follow from one theorem about rearranged keys for any function..
  Theorems: `Attention.attention_equations`.
* **C89** Attention averages values — *proved*. Model: Model/Attention: `MultiHeadAttention` with its projections, reshapes, both `einsum`s with the sizes of 1 they accept, the mask, the softmax as JAX computes it (with the maximum subtracted) and the `or` defaults, in exact arithmetic over any field with any exponential function and square root.. Proof: Every step of the call is evaluated; C88 removes the maximum by the laws of the exponential function, C89 takes that it is 1 at 0 and nowhere negative, C90 that it is rounded to 0 for very negative numbers (and bounds the weight without this), C91 and C92 follow from one theorem about rearranged keys for any function..
  Theorems: `Attention.attention_average`.
* **C90** Masked keys have no influence — *partial*. Model: Model/Attention: `MultiHeadAttention` with its projections, reshapes, both `einsum`s with the sizes of 1 they accept, the mask, the softmax as JAX computes it (with the maximum subtracted) and the `or` defaults, in exact arithmetic over any field with any exponential function and square root.. Proof: Every step of the call is evaluated; C88 removes the maximum by the laws of the exponential function, C89 takes that it is 1 at 0 and nowhere negative, C90 that it is rounded to 0 for very negative numbers (and bounds the weight without this), C91 and C92 follow from one theorem about rearranged keys for any function..
  for queries that see some key and dot products that differ by less than about 1e10, and exponentials rounded to 0; a query that sees no key attends as if there were no mask (`all_hidden`) Theorems: `Attention.hidden_ignored_partial`, `Attention.causal_partial`, `Attention.all_hidden`, `Attention.hidden_small`.
* **C91** Attention treats batch elements and queries separately — *partial*. Model: Model/Attention: `MultiHeadAttention` with its projections, reshapes, both `einsum`s with the sizes of 1 they accept, the mask, the softmax as JAX computes it (with the maximum subtracted) and the `or` defaults, in exact arithmetic over any field with any exponential function and square root.. Proof: Every step of the call is evaluated; C88 removes the maximum by the laws of the exponential function, C89 takes that it is 1 at 0 and nowhere negative, C90 that it is rounded to 0 for very negative numbers (and bounds the weight without this), C91 and C92 follow from one theorem about rearranged keys for any function..
  for equal batch sizes of queries, keys and values; a query of batch size 1 with more keys mixes queries (`batch_of_one_mixes`) Theorems: `Attention.separate_partial`, `Attention.batch_of_one_mixes`.
* **C92** The order of keys does not matter — *proved*. Model: Model/Attention: `MultiHeadAttention` with its projections, reshapes, both `einsum`s with the sizes of 1 they accept, the mask, the softmax as JAX computes it (with the maximum subtracted) and the `or` defaults, in exact arithmetic over any field with any exponential function and square root.. Proof: Every step of the call is evaluated; C88 removes the maximum by the laws of the exponential function, C89 takes that it is 1 at 0 and nowhere negative, C90 that it is rounded to 0 for very negative numbers (and bounds the weight without this), C91 and C92 follow from one theorem about rearranged keys for any function..
  Theorems: `Attention.order_irrelevant`.
* **C93** Attention rejects sizes that do not match — *proved*. Model: Model/Attention: `MultiHeadAttention` with its projections, reshapes, both `einsum`s with the sizes of 1 they accept, the mask, the softmax as JAX computes it (with the maximum subtracted) and the `or` defaults, in exact arithmetic over any field with any exponential function and square root.. Proof: Every step of the call is evaluated; C88 removes the maximum by the laws of the exponential function, C89 takes that it is 1 at 0 and nowhere negative, C90 that it is rounded to 0 for very negative numbers (and bounds the weight without this), C91 and C92 follow from one theorem about rearranged keys for any function..
  Theorems: `Attention.clash_rejected`, `Attention.value_clash_rejected`, `Attention.batch_of_one_mixes`.
* **C94** Variance scaling divides by the documented number of units — *proved*. Model: Model/Initializers: `_compute_fans`, all initializers of initializers.py and the default weights of `Linear` and the convolutions, in exact arithmetic over any ordered field; the samplers of `jax.random` are any functions of key, shape and position, the square root and the QR decomposition any functions.. Proof: The number of units is specified by an inductive relation on shapes; C94 and C95 take that the square root squares to its argument and that samples are in range; C96 takes orthonormal columns of Q and proves orthogonality through transposition, reshape and `moveaxis` (the square case by the two-sided inverse of matrices); C98 relates any two key sequences with the same next key..
  Theorems: `Initializers.variance_scaling`, `Initializers.variance_scaling_bounds`, `Initializers.variance_scaling_rejects`.
* **C95** Bounds of initial values — *proved*. Model: Model/Initializers: `_compute_fans`, all initializers of initializers.py and the default weights of `Linear` and the convolutions, in exact arithmetic over any ordered field; the samplers of `jax.random` are any functions of key, shape and position, the square root and the QR decomposition any functions.. Proof: The number of units is specified by an inductive relation on shapes; C94 and C95 take that the square root squares to its argument and that samples are in range; C96 takes orthonormal columns of Q and proves orthogonality through transposition, reshape and `moveaxis` (the square case by the two-sided inverse of matrices); C98 relates any two key sequences with the same next key..
  Theorems: `Initializers.random_uniform_bounds`, `Initializers.truncated_normal_bounds`, `Initializers.uniform_scaling_bounds`, `Initializers.uniform_scaling_negative`, `Initializers.default_weights_bounds`, `Initializers.samples_scaled`.
* **C96** Orthogonal initializers are orthogonal — *partial*. Model: Model/Initializers: `_compute_fans`, all initializers of initializers.py and the default weights of `Linear` and the convolutions, in exact arithmetic over any ordered field; the samplers of `jax.random` are any functions of key, shape and position, the square root and the QR decomposition any functions.. Proof: The number of units is specified by an inductive relation on shapes; C94 and C95 take that the square root squares to its argument and that samples are in range; C96 takes orthonormal columns of Q and proves orthogonality through transposition, reshape and `moveaxis` (the square case by the two-sided inverse of matrices); C98 relates any two key sequences with the same next key..
  when the QR decomposition of the sample has orthonormal columns and no zero on the diagonal of R; with a zero there the row or column is zero (`orthogonal_zero_diagonal`) Theorems: `Initializers.orthogonal_partial`, `Initializers.orthogonal_zero_diagonal`, `Initializers.orthogonal_rejects`.
* **C97** Identity and constant initializers — *proved*. Model: Model/Initializers: `_compute_fans`, all initializers of initializers.py and the default weights of `Linear` and the convolutions, in exact arithmetic over any ordered field; the samplers of `jax.random` are any functions of key, shape and position, the square root and the QR decomposition any functions.. Proof: The number of units is specified by an inductive relation on shapes; C94 and C95 take that the square root squares to its argument and that samples are in range; C96 takes orthonormal columns of Q and proves orthogonality through transposition, reshape and `moveaxis` (the square case by the two-sided inverse of matrices); C98 relates any two key sequences with the same next key..
  Theorems: `Initializers.identity_diagonal`, `Initializers.identity_rejects`, `Initializers.constant_fills`.
* **C98** Initializers draw exactly one key — *proved*. Model: Model/Initializers: `_compute_fans`, all initializers of initializers.py and the default weights of `Linear` and the convolutions, in exact arithmetic over any ordered field; the samplers of `jax.random` are any functions of key, shape and position, the square root and the QR decomposition any functions.. Proof: The number of units is specified by an inductive relation on shapes; C94 and C95 take that the square root squares to its argument and that samples are in range; C96 takes orthonormal columns of Q and proves orthogonality through transposition, reshape and `moveaxis` (the square case by the two-sided inverse of matrices); C98 relates any two key sequences with the same next key..
  Theorems: `Initializers.random_draw_one`, `Initializers.deterministic_draw_none`.
* **C99** multinomial draws each category with its probability — *proved*. Model: Model/Basic: `multinomial` with the softmax of Model/Attention, cumulative sums, the comparison with broadcasting, `argmin` of booleans and both branches on the number of samples, in exact arithmetic over any ordered field; `jax.random.uniform` is any function.. Proof: The first position where the uniform number does not exceed the cumulative sum is characterised; the last cumulative sum is 1.  C100 takes an exponential function that is 1 at 0 and nowhere negative..
  Theorems: `Basic.multinomial_inverse`, `Basic.drawn_unique`, `Basic.multinomial_rejects`.
* **C100** multinomial never draws impossible categories — *partial*. Model: Model/Basic: `multinomial` with the softmax of Model/Attention, cumulative sums, the comparison with broadcasting, `argmin` of booleans and both branches on the number of samples, in exact arithmetic over any ordered field; `jax.random.uniform` is any function.. Proof: The first position where the uniform number does not exceed the cumulative sum is characterised; the last cumulative sum is 1.  C100 takes an exponential function that is 1 at 0 and nowhere negative..
  for positive uniform numbers; the uniform number 0 draws the first category whatever its probability (`multinomial_zero`) Theorems: `Basic.multinomial_possible_partial`, `Basic.multinomial_zero`.
* **C101** Sequential composes its layers — *proved*. Model: Model/Basic: the loop of `Sequential.__call__` with its counter, for layers in any monad.. Proof: By induction on the layers, against an inductive specification of a chain of calls and, for lawful monads, the splitting law..
  Theorems: `Basic.sequential_chain`, `Basic.sequential_append`, `Basic.sequential_empty_first`.
* **C102** expand_apply adds and removes one axis — *proved*. Model: Model/Basic: `expand_apply` with `expand_dims` and `squeeze`, and `one_hot`.. Proof: `squeeze` is shown to invert the relation of expanded arrays; sums over classes have one non-zero term..
  Theorems: `Basic.expand_apply_slices`, `Basic.expand_apply_identity`, `Basic.expand_apply_rejects`.
* **C103** one_hot selects exactly the class — *proved*. Model: Model/Basic: `expand_apply` with `expand_dims` and `squeeze`, and `one_hot`.. Proof: `squeeze` is shown to invert the relation of expanded arrays; sums over classes have one non-zero term..
  Theorems: `Basic.one_hot_selects`.
* **C104** A convolution treats the examples of a batch one by one, in either data format — *proved*. Model: Model/ConvArr: `ConvND.__init__` and `__call__` on arrays with batch and channel axes, dimension numbers, mask, bias and the extra axis of an unbatched input; `lax.conv_general_dilated` reads its operands through the dimension numbers, example by example, with the sums of Model/Conv.. Proof: Reading and writing through dimension numbers is shown to be reading and writing along the layout of the data format; each example of a result is then the image-level convolution of Model/Conv..
  Theorems: `ConvArr.batch_examples`, `ConvArr.batch_computes`, `ConvArr.data_format`, `ConvArr.call_rejects`.
* **C105** Weights under a zero of the mask of a convolution do not matter — *proved*. Model: Model/ConvArr: `ConvND.__init__` and `__call__` on arrays with batch and channel axes, dimension numbers, mask, bias and the extra axis of an unbatched input; `lax.conv_general_dilated` reads its operands through the dimension numbers, example by example, with the sums of Model/Conv.. Proof: Reading and writing through dimension numbers is shown to be reading and writing along the layout of the data format; each example of a result is then the image-level convolution of Model/Conv..
  Theorems: `ConvArr.mask_hides`, `ConvArr.mask_rejects`.
* **C106** A depthwise convolution filters every channel on its own — *proved*. Model: Model/ConvArr: `DepthwiseConv2D` and `SeparableDepthwiseConv2D` on arrays, over any semiring; the strings of dimension numbers are parsed as `lax` does.. Proof: With as many groups as channels each sum has one input channel; for C107 the sums over the two kernel axes are exchanged, and positions outside the intermediate picture are positions outside the input..
  Theorems: `Depthwise.depthwise_computes`, `Depthwise.depthwise_separate`, `Depthwise.depthwise_grouped`.
* **C107** A separable depthwise convolution is the depthwise convolution with the product of its kernels — *partial*. Model: Model/ConvArr: `DepthwiseConv2D` and `SeparableDepthwiseConv2D` on arrays, over any semiring; the strings of dimension numbers are parsed as `lax` does.. Proof: With as many groups as channels each sum has one input channel; for C107 the sums over the two kernel axes are exchanged, and positions outside the intermediate picture are positions outside the input..
  for padding strings and stride 1 along the second axis; false for other strides (`separable_stride`) and for explicit paddings (`separable_padding`) Theorems: `Depthwise.separable_product_partial`, `Depthwise.separable_stride`, `Depthwise.separable_padding`.
* **C108** A convolutional LSTM computes its documented equations and can start from its initial state — *partial*. Model: Model/ConvArr: `ConvNDLSTM.__call__` with its two convolutions (`ConvND` on arrays), the split in four parts and the gates, over any field with any two functions as sigmoid and tanh; `initial_state` with `add_batch`.. Proof: The convolutions with `SAME` padding and stride 1 are brought to a centred kernel that reads 0 outside; the gates then follow element by element..
  `initial_state` fits when `input_shape` holds the spatial sizes only; with the documented `input_shape` a step on a batch raises (`initial_documented`) Theorems: `ConvLSTM.equations`, `ConvLSTM.step_bounded`, `ConvLSTM.from_initial_partial`, `ConvLSTM.initial_documented`.
* **C109** A convolution without padding commutes with taking parts of its input — *proved*. Model: Model/Conv: `ConvND.__init__` and `__call__` on one example; C104 carries this over to batches.. Proof: C109: without padding all positions read lie inside the input, and the corners of the kernel bound the output.  C110 and C111: the sums are compared term by term..
  Theorems: `ConvShift.valid_shift`.
* **C110** A convolution with groups is a convolution for each group — *proved*. Model: Model/Conv: `ConvND.__init__` and `__call__` on one example; C104 carries this over to batches.. Proof: C109: without padding all positions read lie inside the input, and the corners of the kernel bound the output.  C110 and C111: the sums are compared term by term..
  Theorems: `ConvShift.groups_separate`.
* **C111** A convolution without bias is linear — *proved*. Model: Model/Conv: `ConvND.__init__` and `__call__` on one example; C104 carries this over to batches.. Proof: C109: without padding all positions read lie inside the input, and the corners of the kernel bound the output.  C110 and C111: the sums are compared term by term..
  Theorems: `ConvShift.linear_input`, `ConvShift.linear_weights`.
* **C112** A summary has one record per call of a method — *partial*. Model: Model/Summarise: `log_used_modules` as interceptor of `wrap_method` on forests of calls, with the `_submodules` of all modules; `params_dict` called by the summary notifies the modules on the stack, as the code does.. Proof: Simulation with a run without summary, by induction over the forest: the records are those expected, and the recorded submodules differ only by modules that are active.  The failures are shown by cases..
  Proved when no method raises; a caught exception leaves None, and the call stack includes the call itself, against the documentation. Theorems: `Summarise.summary_calls`, `Summarise.summary_iff`, `Summarise.gap_iff`, `Summarise.records_partial`, `Summarise.call_stack_documented`, `Summarise.caught_leaves_gap`.
* **C113** The parameters in a summary are those of the module — *partial*. Model: Model/Summarise: `log_used_modules` as interceptor of `wrap_method` on forests of calls, with the `_submodules` of all modules; `params_dict` called by the summary notifies the modules on the stack, as the code does.. Proof: Simulation with a run without summary, by induction over the forest: the records are those expected, and the recorded submodules differ only by modules that are active.  The failures are shown by cases..
  Fails when a calling module owns parameters: the summary itself registers callers as submodules. Proved when callers own none. Theorems: `Summarise.params_exact_partial`, `Summarise.params_complete`, `Summarise.params_sound`, `Summarise.params_of_caller`.
* **C114** A table has the columns asked for and a row per matching call — *partial*. Model: Model/Summarise: `tabulate`, its columns and filters, `owned_params`, `format_bytes`, `format_array`, `tree_size` and `tree_bytes`; the drawing of the table, `repr` and `pformat` are not modelled.. Proof: Induction over records and names; the sorting is shown to permute and to order; arithmetic for the rounding..
  Rejection and rows proved; making the table fails for functions that catch an exception of a method. Theorems: `Tabulate.tabulate_rejects`, `Tabulate.tabulate_rows`, `Tabulate.tabulate_total_partial`, `Tabulate.tabulate_fails`.
* **C115** The owned parameters of a row are those of the module itself — *partial*. Model: Model/Summarise: `tabulate`, its columns and filters, `owned_params`, `format_bytes`, `format_array`, `tree_size` and `tree_bytes`; the drawing of the table, `repr` and `pformat` are not modelled.. Proof: Induction over records and names; the sorting is shown to permute and to order; arithmetic for the rounding..
  Fails for parameter names with a slash. Theorems: `Tabulate.owned_params_partial`, `Tabulate.owned_slash`.
* **C116** Numbers of bytes are shown to the nearest hundredth of the right unit — *proved*. Model: Model/Summarise: `tabulate`, its columns and filters, `owned_params`, `format_bytes`, `format_array`, `tree_size` and `tree_bytes`; the drawing of the table, `repr` and `pformat` are not modelled.. Proof: Induction over records and names; the sorting is shown to permute and to order; arithmetic for the rounding..
  Theorems: `Tabulate.format_bytes_spec`, `Tabulate.shows_thousand`.
* **C117** The texts of arrays and counts can be read back — *proved*. Model: Model/Summarise: `tabulate`, its columns and filters, `owned_params`, `format_bytes`, `format_array`, `tree_size` and `tree_bytes`; the drawing of the table, `repr` and `pformat` are not modelled.. Proof: Induction over records and names; the sorting is shown to permute and to order; arithmetic for the rounding..
  Theorems: `Tabulate.format_array_inj`, `Tabulate.format_array_text`, `Tabulate.thousands_value`, `Tabulate.thousands_groups`.
* **C118** A residual network runs on every batch of pictures — *proved*. Model: `Model/ResNet.lean`: both kinds of blocks, groups, the network and its configurations, on the models of convolutions, batch normalisation, pooling and linear layers, in exact arithmetic; parameters are what `hk.get_parameter` gives. Proof: `Lemmas/Stage.lean`: a predicate on layers (success and sizes, states changed, choices of examples carried through) is shown for each kind of layer and preserved by composition and by sums with a shortcut; `Props/ResNet.lean` applies it along blocks, groups and the network by induction.
  Theorems: `ResNet.net_runs`, `ResNet.net_asks`, `ResNet.net_trains`, `ResNet.standard_fits`, `ResNet.standard_depth`.
* **C119** When a residual network can be made, and blocks without projection — *proved*. Model: `Net.make`, `Block.make` and `BnConfig.batchNorm`. Proof: inversion of the constructors; for blocks without projection the layers are run with the lemmas above and the sum is decided by the sizes.
  The theorems say exactly when `ResNet.__init__` and a block without projection succeed; see the end of DESIGN.md for the cases where this is surprising. Theorems: `ResNet.make_iff`, `ResNet.bare_block`, `ResNet.bare_stride_two`.
* **C120** A residual network at the start of training — *proved*. Model: as for C118. Proof: induction over the layers of a block; the last batch normalisation gives 0.
  Theorems: `ResNet.zero_block`, `ResNet.zero_logits`.
* **C121** A residual network treats the pictures of a batch alike — *proved*. Model: `Model/ResNet.lean`: both kinds of blocks, groups, the network and its configurations, on the models of convolutions, batch normalisation, pooling and linear layers, in exact arithmetic; parameters are what `hk.get_parameter` gives. Proof: `Lemmas/Stage.lean`: a predicate on layers (success and sizes, states changed, choices of examples carried through) is shown for each kind of layer and preserved by composition and by sums with a shortcut; `Props/ResNet.lean` applies it along blocks, groups and the network by induction.
  Theorems: `ResNet.net_trains`, `ResNet.eval_examples`, `ResNet.train_order`.
* **C122** The layers of a residual network have distinct names — *proved*. Model: names as strings, as in the code. Proof: induction over blocks and groups; the number in a name can be read off up to the next slash.
  Theorems: `ResNet.net_nodup`, `ResNet.net_asks`, `ResNet.params_nodup`.
* **C123** When a MobileNet can be made and runs — *proved*. Model: `Model/MobileNet.lean`: the block and the network, on the models of convolutions, batch normalisation and linear layers, in exact arithmetic; parameters are what `hk.get_parameter` gives. Proof: `Lemmas/Picture.lean` gives formulas for the elements of each kind of layer; `Props/MobileNet.lean` composes them with the predicate of `Lemmas/Stage.lean` along the blocks by induction, together with what each batch normalisation sees and learns.
  Theorems: `MobileNet.make_iff`, `MobileNet.net_runs`, `MobileNet.net_asks`, `MobileNet.net_runs_iff`.
* **C124** A MobileNet computes the equations of separable convolutions — *proved*. Model: `Model/MobileNet.lean`: the block and the network, on the models of convolutions, batch normalisation and linear layers, in exact arithmetic; parameters are what `hk.get_parameter` gives. Proof: `Lemmas/Picture.lean` gives formulas for the elements of each kind of layer; `Props/MobileNet.lean` composes them with the predicate of `Lemmas/Stage.lean` along the blocks by induction, together with what each batch normalisation sees and learns.
  Theorems: `MobileNet.net_computes`, `MobileNet.block_computes`.
* **C125** A MobileNet treats examples alike and learns averages — *proved*. Model: `Model/MobileNet.lean`: the block and the network, on the models of convolutions, batch normalisation and linear layers, in exact arithmetic; parameters are what `hk.get_parameter` gives. Proof: `Lemmas/Picture.lean` gives formulas for the elements of each kind of layer; `Props/MobileNet.lean` composes them with the predicate of `Lemmas/Stage.lean` along the blocks by induction, together with what each batch normalisation sees and learns.
  Theorems: `MobileNet.net_learns`, `MobileNet.first_averages`, `MobileNet.net_trains`, `MobileNet.eval_examples`, `MobileNet.train_order`.
* **C126** The modules of a MobileNet have different names — *proved*. Model: `Model/MobileNet.lean`: the block and the network, on the models of convolutions, batch normalisation and linear layers, in exact arithmetic; parameters are what `hk.get_parameter` gives. Proof: `Lemmas/Picture.lean` gives formulas for the elements of each kind of layer; `Props/MobileNet.lean` composes them with the predicate of `Lemmas/Stage.lean` along the blocks by induction, together with what each batch normalisation sees and learns.
  Theorems: `MobileNet.net_nodup`, `MobileNet.params_nodup`, `MobileNet.net_asks`.
* **C127** The sizes inside a MobileNet — *proved*. Model: `Model/MobileNet.lean`: the block and the network, on the models of convolutions, batch normalisation and linear layers, in exact arithmetic; parameters are what `hk.get_parameter` gives. Proof: `Lemmas/Picture.lean` gives formulas for the elements of each kind of layer; `Props/MobileNet.lean` composes them with the predicate of `Lemmas/Stage.lean` along the blocks by induction, together with what each batch normalisation sees and learns.
  Theorems: `MobileNet.features`, `MobileNet.averages_shape`, `MobileNet.standard_features`.
* **C128** A residual network computes its equations — *proved*. Model: `Model/ResNet.lean`, as for C118 to C122. Proof: `Lemmas/Flow.lean` composes the formulas of `Lemmas/Picture.lean`, also for sums and the greatest elements of windows; `Props/ResNetValues.lean` follows the layers, blocks and groups by induction, with formulas that record what each batch normalisation gets.
  Theorems: `ResNet.block_computes`, `ResNet.net_computes`, `ResNet.pool_greatest`.
* **C129** A residual network learns the averages of its activations — *proved*. Model: `Model/ResNet.lean`, as for C118 to C122. Proof: `Lemmas/Flow.lean` composes the formulas of `Lemmas/Picture.lean`, also for sums and the greatest elements of windows; `Props/ResNetValues.lean` follows the layers, blocks and groups by induction, with formulas that record what each batch normalisation gets.
  Theorems: `ResNet.block_learns`, `ResNet.net_learns`, `ResNet.first_averages`.
* **C130** Recording gives the graph of what a function did — *proved*. Model: `Model/Dot.lean`: objects by address, graphs as records in a memory of cells, the stack of graphs, and `exec` over the tree of what a function does; the text `_graph_to_dot` writes, line by line. Proof: `Props/Dot.lean`: a separate definition `seen` says what a part of a function adds to the current graph, without memory or stack; execution is shown to store exactly this, by induction over the tree, with the frame that cells before are kept.
  Theorems: `Dot.to_graph_records`, `Dot.every_operation`.
* **C131** Recording and drawing leave no traces — *proved*. Model: `Model/Dot.lean`: objects by address, graphs as records in a memory of cells, the stack of graphs, and `exec` over the tree of what a function does; the text `_graph_to_dot` writes, line by line. Proof: `Props/Dot.lean`: a separate definition `seen` says what a part of a function adds to the current graph, without memory or stack; execution is shown to store exactly this, by induction over the tree, with the frame that cells before are kept.
  Theorems: `Dot.to_dot_restores`, `Dot.to_dot_titles`.
* **C132** The drawing has the clusters of the graph — *proved*. Model: as for C130. Proof: `Props/DotDraw.lean`: drawing is shown to write `sketch`, a list of lines defined by recursion over the graph without the sets and counters of the code; reading it back with a stack gives the clusters.
  Theorems: `Dot.clusters_nested`, `Dot.fonts_shrink`.
* **C133** The drawing has an edge for each operand — *proved*. Model: as for C130. Proof: `Props/DotEdges.lean`: the edges and declarations of a sketch by recursion; that a value is made before it is used is carried over from the function to its graph; witnesses for the cases in which C134 and C135 fail.
  Theorems: `Dot.edges_drawn`, `Dot.edge_copies`, `Dot.every_operand`.
* **C134** Edges join declared nodes — *partial*. Model: as for C130. Proof: `Props/DotEdges.lean`: the edges and declarations of a sketch by recursion; that a value is made before it is used is carried over from the function to its graph; witnesses for the cases in which C134 and C135 fail.
  false in the code for the second and later values that an operation returns (second_value); edges_join_partial states exactly which edges start at a declared node Theorems: `Dot.edges_join_partial`, `Dot.second_value`.
* **C135** Nothing is declared twice — *partial*. Model: as for C130. Proof: `Props/DotEdges.lean`: the edges and declarations of a sketch by recursion; that a value is made before it is used is carried over from the function to its graph; witnesses for the cases in which C134 and C135 fail.
  false in the code for captured values used more than once (captured_twice) and objects passed more than once (passed_twice) Theorems: `Dot.declared_once_partial`, `Dot.captured_twice`, `Dot.passed_twice`.
* **C136** Different nodes have different names — *partial*. Model: as for C130. Proof: `Props/DotText.lean`: a reader of labels undoes `html.escape`, one character after the other; decimal numbers of equal length are told apart; the names of outputs are those of the last path of each address.
  false in the code if addresses have different numbers of digits (names_collide); proved for addresses with equally many digits, and for clusters Theorems: `Dot.name_texts`, `Dot.names_differ_partial`, `Dot.names_collide`, `Dot.cluster_names`.
* **C137** Labels show the texts they are made of — *partial*. Model: as for C130. Proof: `Props/DotText.lean`: a reader of labels undoes `html.escape`, one character after the other; decimal numbers of equal length are told apart; the names of outputs are those of the last path of each address.
  false in the code for keys of arguments after the first (key_lost), and for the reprs and elements that are not escaped; proved for all titles, and for operations, arguments and captured values if these parts have no special characters Theorems: `Dot.title_reads`, `Dot.escape_safe`, `Dot.node_reads_partial`, `Dot.arg_reads_partial`, `Dot.capture_reads_partial`, `Dot.key_lost`.
* **C138** Outputs are marked — *partial*. Model: as for C130. Proof: `Props/DotText.lean`: a reader of labels undoes `html.escape`, one character after the other; decimal numbers of equal length are told apart; the names of outputs are those of the last path of each address.
  false in the code for values that are not the first an operation returns (output_unmarked), and arguments returned as they are; outputs_marked_partial states exactly which are marked and how Theorems: `Dot.outputs_marked_partial`, `Dot.output_unmarked`.
* **C139** Drawing does not fail — *proved*. Model: as for C130. Proof: `Props/DotText.lean`: a reader of labels undoes `html.escape`, one character after the other; decimal numbers of equal length are told apart; the names of outputs are those of the last path of each address.
  Theorems: `Dot.drawing_total`.
* **C140** The language model looks at nothing after a token and at no padding — *partial*. Model: `Model/Transformer.lean`: the modules of the example, its forward pass and its loss, on the models of attention, layer normalisation, linear layers, dropout and embeddings, in exact arithmetic; keys are any sequence. Proof: `Props/Transformer.lean`: the call is shown to be a function on rows; rows after normalisation are bounded (no entry is beyond the square root of the width times the scale, plus the offset), so a condition on the parameters bounds all attention scores; positions that see only each other keep agreeing layer by layer, by induction.
  Proved for positions with a real token at or before them, an exponential function that is 0 for very negative numbers, and attention weights for which scores stay below half of 1e10. False otherwise: `padding_first_sees_all`, `padding_first_leaks`. Theorems: `Transformer.causal_partial`, `Transformer.padding_first_sees_all`, `Transformer.padding_first_leaks`.
* **C141** The transformer is a stack of pre-normalised residual layers — *proved*. Model: `Model/Transformer.lean`: the modules of the example, its forward pass and its loss, on the models of attention, layer normalisation, linear layers, dropout and embeddings, in exact arithmetic; keys are any sequence. Proof: `Props/Transformer.lean`: the equations of each layer compose by induction over the layers; dropout at rate 0 is the identity.
  Parameters are given with the shapes that the modules ask for; a width of 1 is broadcast by the first layer instead of rejected. Theorems: `Transformer.forward_equations`, `Transformer.width_rejected`, `Transformer.no_layers_rejected`, `Transformer.evaluation_deterministic`.
* **C142** The loss is the mean cross-entropy over real tokens — *proved*. Model: `Model/Transformer.lean`: the modules of the example, its forward pass and its loss, on the models of attention, layer normalisation, linear layers, dropout and embeddings, in exact arithmetic; keys are any sequence. Proof: `Props/Transformer.lean`: sums with the mask are sums over the real positions; these see themselves, so that the agreement of C140 applies without further condition.
  For an exponential function that is 0 for very negative numbers (independence of padding), and for one with the laws of the exponential function (cross-entropy). Without any real token the code divides by 0, which is an error in the model. Theorems: `Transformer.loss_cross_entropy`, `Transformer.padding_ignored`.
* **C143** A bias is added where it belongs, and can be taken off again — *proved*. Model: `Model/BiasCall.lean`: the module and its call, on `calculate_bias_shape` of `Model/Bias.lean`, in exact arithmetic. Proof: the shape of the bias, padded with ones, is that of the selected dimensions (C52), so that reading it by broadcasting is reading it at the selected coordinates.
  The size the module was made for has to be a tuple: a list is never taken (`list_size_rejected`). Theorems: `Bias.bias_adds`, `Bias.bias_undone`, `Bias.bias_shared`, `Bias.bias_accepts`, `Bias.list_size_rejected`, `Bias.multiplier_widens`.
* **C144** Top-k masks of the pruning example keep the largest elements, and as many as asked for — *proved*. Model: `Model/Pruning.lean`: `topk_mask` with `argsort` and `shuffle` as any functions that return an order of the positions. Proof: writing along an order of the positions permutes the written list; so each position has a rank that does not depend on the fraction, and is kept if its rank is among the last `k`.
  `argsort` and `shuffle` are assumed to return orders of the positions, `argsort` an ascending one; exact arithmetic. Theorems: `Pruning.topk_binary`, `Pruning.topk_count`, `Pruning.topk_largest`, `Pruning.topk_nested`, `Pruning.topk_all`, `Pruning.topk_none`, `Pruning.ties_unbiased`.
* **C145** Masks of the pruning example prune the chosen parameters and leave the others as they are — *proved*. Model: `Model/Pruning.lean`: partitions, masks, `update_mask`, `get_sparsity`, `module_matching`. Proof: induction over the list of predicates gives the part of each entry; mapping over two dictionaries is characterised entry by entry; counts by C144.
  Hypothesis: one mask for each predicate, as `update_mask` makes; with fewer masks parameters are dropped without an error (`missing_mask_drops`). Theorems: `Pruning.parts_entries`, `Pruning.parts_dicts`, `Pruning.apply_entries`, `Pruning.apply_masks`, `Pruning.missing_mask_drops`, `Pruning.apply_idempotent`, `Pruning.update_fits`, `Pruning.update_prunes`, `Pruning.fraction_zero`, `Pruning.sparsity_report`, `Pruning.pruned_zeros`, `Pruning.matching_iff`, `Pruning.matching_shape`.
* **C146** Training with pruning: masked weights stay fixed between updates of the masks — *proved*. Model: `Model/Pruning.lean`: one round and the loop, for any function that computes updates. Proof: an invariant: parameters, averages and masks have the same names and shapes; induction over the rounds.
  The optimiser is any function that returns updates of the names and shapes of the parameters; predicates look at names and shapes only, as those of the example do. Theorems: `Pruning.step_equations`, `Pruning.start_good`, `Pruning.loop_runs`, `Pruning.masked_frozen`, `Pruning.masks_of_last_update`.
* **C147** The pruning schedule rises from iteration 1000 to iteration 8000 — *partial*. Model: `Model/Pruning.lean`: `progress`, `zhugupta_func`, the loop. Proof: `schedule_partial`: monotone, 0 up to 1000, 1 exactly from 9000 on; `not_done_at_8000`; `final_masks` after all 10001 rounds.
  The fraction reaches 1 at iteration 9000, not 8000 (`not_done_at_8000`: it is 511/512 there); the rest of the claim is proved. Theorems: `Pruning.schedule_partial`, `Pruning.not_done_at_8000`, `Pruning.density_falls`, `Pruning.final_masks`.
* **C148** `impala_lite` runs to its end and uses every trajectory at most once, under every interleaving — *proved*. Model: `Model/ImpalaLite.lean`: a transition system with one step for each access to something shared. Proof: an invariant on the line of all trajectories, preserved by each step; progress by cases on who can go on; each step adds one to a bounded count.
  Accesses to the queue and to the parameters are atomic; what is inside a trajectory is left out. Theorems: `ImpalaLite.batches_ordered`, `ImpalaLite.used_once`, `ImpalaLite.no_deadlock`, `ImpalaLite.bounded_runs`, `ImpalaLite.final_state`, `ImpalaLite.runs_end`.
* **C149** The pipeline of the IMPALA learner neither loses, repeats nor reorders trajectories — *proved*. Model: `Model/ImpalaLearner.lean`: actors, two queues, worker, learner and main thread as a transition system. Proof: two invariants, one for the flow of trajectories and one for the phases of the threads, preserved by each of 13 kinds of steps.
  Accesses to queues, flags and parameters are atomic; what is inside a trajectory is left out. Theorems: `Impala.pipeline_ordered`, `Impala.versions_causal`.
* **C150** `Learner.run` returns after its last update — *partial*. Model: `Model/ImpalaLearner.lean`. Proof: `hangs_iff`: exactly when `run` cannot return any more; `learner_can_hang`: for all sizes an interleaving that gets there; `always_returns` and `few_trajectories_return_partial`: conditions under which it returns.
  The code falsifies the claim: after the last update the worker may block for ever in `put` on the second queue (`learner_can_hang`). Proved: exactly when this happens, and that it does not happen with fewer than two batches more than iterations. Theorems: `Impala.hangs_iff`, `Impala.always_returns`, `Impala.few_trajectories_return_partial`, `Impala.learner_can_hang`.
* **C151** The IMPALA example ends after the learner has returned — *partial*. Model: `Model/ImpalaLearner.lean`. Proof: after `run` has returned, queued and coming trajectories are as many at each time; `main_hangs_iff`: `main` ends iff they fit into the queue; `main_can_hang`: for all sizes an interleaving in which they do not.
  The code falsifies the claim: an actor may block for ever in `put` on the first queue, which nobody reads any more (`main_can_hang`). Proved: exactly when this happens. Theorems: `Impala.main_hangs_iff`, `Impala.main_can_hang`, `Impala.main_ends_partial`.
* **C152** The trajectories of an IMPALA actor are overlapping windows of one interaction — *proved*. Model: `Model/ImpalaActor.lean`: actor, agent and environment as functions of their states; keys as in `Model/PRNG.lean`. Proof: induction on the unrolls against an interaction without cuts (`play`); the key tree for the keys.
  The environment gives a reward with every last step, as `dm_env` asks for; otherwise the actor stops (C153). The network acts on the elements of a batch one by one. Theorems: `ImpalaActor.windows`, `ImpalaActor.whole_length`, `ImpalaActor.preprocess_eq`, `ImpalaActor.trajectories_tile`, `ImpalaActor.keys_distinct`, `ImpalaActor.params_of_transitions`, `ImpalaActor.learner_repeats`.
* **C153** The episode returns that an actor logs are the sums of the rewards of the episodes — *proved*. Model: `Model/ImpalaActor.lean`. Proof: an invariant that cuts the steps so far into episodes, carried through all unrolls; such a cut is unique.
  Rewards are elements of a field, without rounding. Theorems: `ImpalaActor.returns_logged`, `ImpalaActor.episodes_unique`, `ImpalaActor.last_needs_reward`.
* **C154** The IMPALA loss is a sum over the steps within episodes — *proved*. Model: `Model/ImpalaLoss.lean`: the arrays of `_loss` as lists over time; V-trace as `rlax` computes it; probabilities, entropies and ratios are any functions. Proof: rows as pairs of neighbouring transitions; induction on them; discount 0 cuts the recursion of V-trace; a concrete trajectory for ends with discount 1.
  Over a field of characteristic 0, without rounding; `rlax` functions other than V-trace are any functions, means over time are means. Theorems: `ImpalaLoss.loss_sums`, `ImpalaLoss.row_at`, `ImpalaLoss.clip_reward`, `ImpalaLoss.rows_length`, `ImpalaLoss.loss_reads`.
* **C155** On policy, the V-trace targets of the IMPALA learner are discounted returns — *proved*. Model: `Model/ImpalaLoss.lean`: the arrays of `_loss` as lists over time; V-trace as `rlax` computes it; probabilities, entropies and ratios are any functions. Proof: rows as pairs of neighbouring transitions; induction on them; discount 0 cuts the recursion of V-trace; a concrete trajectory for ends with discount 1.
  V-trace as `rlax.vtrace_td_error_and_advantage` computes it, which is not part of the repository; without rounding. Theorems: `ImpalaLoss.fits_rows`, `ImpalaLoss.vtrace_sum`, `ImpalaLoss.on_policy`, `ImpalaLoss.on_policy_ratios`.
* **C156** The IMPALA loss keeps episodes apart — *partial*. Model: `Model/ImpalaLoss.lean`: the arrays of `_loss` as lists over time; V-trace as `rlax` computes it; probabilities, entropies and ratios are any functions. Proof: rows as pairs of neighbouring transitions; induction on them; discount 0 cuts the recursion of V-trace; a concrete trajectory for ends with discount 1.
  True if the episode ends with discount 0 (`episodes_apart_partial`). The code falsifies the claim for episodes that end with another discount, as with `dm_env.truncation`: the step before the end is not masked, and its target uses the value of the first step of the next episode (`truncation_leaks`). Theorems: `ImpalaLoss.episodes_apart_partial`, `ImpalaLoss.truncation_leaks`.
* **C157** The divergence of the VAE example is the Kullback-Leibler divergence — *proved*. Model: `Model/Vae.lean`: `klGaussian` on arrays with broadcasting.. Proof: `Props/Gaussian.lean` computes the divergence of normal distributions from Mathlib's definition (log-likelihood ratio of densities, second moments, product measures, invariance under measurable equivalences); `Props/Vae.lean: kl_gaussian` reads off the rows and uses log v ≤ v − 1 with its case of equality..
  exact arithmetic; log is the real logarithm Theorems: `Vae.kl_gaussian`.
* **C158** The binary cross entropy of the VAE example is the negative log-likelihood — *proved*. Model: `binaryCrossEntropy` with its check of shapes, the reshape to rows, and `logaddexp(0, l)` as log(exp 0 + exp l).. Proof: `binary_cross_entropy`: each summand is the logarithm of the probability of its pixel; sums of logarithms are logarithms of products..
  exact arithmetic; exp and log are the real functions Theorems: `Vae.binary_cross_entropy`.
* **C159** The loss of the VAE example bounds the evidence — *proved*. Model: `encoder`, `decoder`, `Net.call`, `lossFn` on the models of Linear, Flatten and reshape; the numbers from jax.random are any functions of key, shape and index.. Proof: `loss_value` composes the layers; `loss_shape` reads the shape from a loss that succeeds; `evidence_lower_bound` uses the variational inequality `Gaussian.evidence_bound`, the affine image of standard normals (`normals_map`) and integrability by linear growth of the log-likelihood in the code; `image_drawn` measures the uniform numbers that make a pixel white..
  exact arithmetic; jax.random.normal is averaged over independent standard normal numbers Theorems: `Vae.loss_value`, `Vae.loss_shape`, `Vae.image_drawn`, `Vae.evidence_lower_bound`.
* **C160** The loss of the character model is the mean surprise of the targets, and causal — *proved*. Model: `Model/CharRnn.lean`: `makeNetwork`, `unroll`, `sequenceLoss` on the models of `DeepRNN`, `LSTM`, `MLP`, `dynamic_unroll` and `log_softmax`.. Proof: `Props/CharRnn.lean`: `network_step` composes the layers, `unroll_run` is the induction over time; `Props/CharRnnText.lean: loss_value` splits the sum and cancels the maximum that log_softmax subtracts..
  exact arithmetic; exp and log are functions with the laws of exponential and logarithm Theorems: `CharRnn.loss_value`, `CharRnn.loss_rejects`, `CharRnn.prob_causal`.
* **C161** The loss and the sampling of the character model belong to one distribution of texts — *proved*. Model: The same, and `sample`, `examples`, `timeMajor`.. Proof: `chain_sum` by induction over the length; `loss_likelihood`, `loss_is_sampling` and `data_likelihood` join the loss, the sampling and the data..
  exact arithmetic, exp and log are the real functions Theorems: `CharRnn.prob_sum`, `CharRnn.chain_append`, `CharRnn.chain_sum`, `CharRnn.loss_likelihood`, `CharRnn.loss_is_sampling`, `CharRnn.data_likelihood`.
* **C162** The sampling of the character model is ancestral — *proved*. Model: `sample`, `body`, `foriLoop`: keys are terms of splits, categorical is any function of key and logits.. Proof: `sample_ancestral` carries an invariant of tokens, key and state through the loop; `sample_iff` adds uniqueness; `subkeys_distinct` counts splits; `sample_law` uses independence of the noise of different keys; `inverse_exact` and `sample_law_inverse` show that such noise and drawing exist..
  keys of different splits are different terms; for the law the noise of different keys is independent Theorems: `CharRnn.sample_ancestral`, `CharRnn.subkeys_distinct`, `CharRnn.sample_iff`, `CharRnn.sample_prefix`, `CharRnn.sample_decodes`, `CharRnn.sample_rejects`, `CharRnn.sample_law`, `CharRnn.inverse_exact`, `CharRnn.sample_law_inverse`.
* **C163** The batches of the character data set tile the text and the epochs — *proved*. Model: `preprocess`, `chunks`, `examples`, `batch`, `timeMajor`; the shuffle is any order per epoch.. Proof: `chunks_tile` by induction over the chunks; `batches_stream` by quotient and remainder; `batches_epochs` by permutations..
  tf.data operations as lists; shuffle is any permutation per epoch Theorems: `CharRnn.preprocess_rejects`, `CharRnn.chunks_tile`, `CharRnn.batches_stream`, `CharRnn.batches_epochs`, `CharRnn.batch_arrays`.
* **C164** The shards of a split of ImageNet tile it — *proved*. Model: `Model/ImageNet.lean`: `Split`, `section_` (np.array_split of np.arange), `shard`.. Proof: `Props/ImageNet.lean`: `shard_eq` gives the ends in closed form; `shards_tile`, `shards_partition` by induction over the boundaries; `shards_too_many`, `shard_index`, `splits_apart`..
  np.array_split as documented Theorems: `ImageNet.shards_tile`, `ImageNet.shards_partition`, `ImageNet.shards_too_many`, `ImageNet.shard_index`, `ImageNet.splits_apart`.
* **C165** The learning rate of the ImageNet example rises linearly and falls as a cosine — *proved*. Model: `Flags`, `lrSchedule`, `Flags.numTrainSteps`.. Proof: `lr_warmup`, `lr_cosine`, then `lr_shape` from the monotonicity of the cosine on [0, pi] and `lr_training` from the rounding of the number of steps..
  exact real arithmetic Theorems: `ImageNet.lr_warmup`, `ImageNet.lr_cosine`, `ImageNet.lr_shape`, `ImageNet.lr_training`.
* **C166** The loss of the ImageNet example is a smoothed cross entropy whose least value is known — *proved*. Model: `lossOf` from the logits on, with `oneHot`, `smoothLabels`, `softmaxCrossEntropy`, `l2Loss`, `isIn`.. Proof: `loss_eq`, `loss_smoothing` cancel the maximum that log_softmax subtracts; `gibbs` is Gibbs' inequality with equality; `loss_least`, `loss_reached`..
  exact arithmetic, exp and log are the real functions Theorems: `ImageNet.asked_distribution`, `ImageNet.loss_eq`, `ImageNet.loss_smoothing`, `ImageNet.loss_least`, `ImageNet.loss_reached`.
* **C167** The devices of the ImageNet example keep the same parameters — *proved*. Model: `Replica`, `Learner` (any loss and optimiser), `pmean`, `trainStep`, `trainLoop`.. Proof: `step_eq`; `loop_agree` by induction over the steps; `step_mean` by induction over the devices; `states_differ` is a witness..
  exact arithmetic: the mean of equal lists of gradients is the same on all devices Theorems: `ImageNet.step_eq`, `ImageNet.loop_agree`, `ImageNet.step_mean`, `ImageNet.states_differ`.
* **C168** The evaluation of the ImageNet example counts each example once — *proved*. Model: `batchList`, `argmax`, `evalBatch`, `evaluate`.. Proof: `argmax_spec` and `batches_spec` by induction; `evaluate_eq`, `evaluate_error`..
  the data set is a list of examples; counts are exact Theorems: `ImageNet.argmax_spec`, `ImageNet.batches_spec`, `ImageNet.evaluate_eq`, `ImageNet.evaluate_error`.
* **C169** Crops, transposes and batches of the ImageNet data set — *proved*. Model: `centerCrop`, `transposeFn`, `transposeBack`, `batchStream`, `trainBatches`.. Proof: `centerCrop_spec` by integer arithmetic; `transpose_inverse`; `trainBatches_get`, `trainBatches_once`..
  7/8 of the side is exact; shuffling is left out: the stream is any Theorems: `ImageNet.centerCrop_spec`, `ImageNet.transpose_inverse`, `ImageNet.trainBatches_get`, `ImageNet.trainBatches_once`.
* **C170** The updater of the transformer example runs the optimiser, counts its steps and uses no key twice — *proved*. Model: `Model/LmTrain.lean`: `TrainState`, `Updater` (any network, loss and optimiser), `init`, `update`; keys are ideal.. Proof: `Props/LmTrain.lean`: `train_step`, `reports_steps`, `reports_loss` by induction over the updates; `keys_fresh` by the depth of the keys; `train_descends` gives the run of the optimiser and keys none of which is split off from another..
  splitting of keys is ideal Theorems: `LmTrain.train_step`, `LmTrain.reports_steps`, `LmTrain.reports_loss`, `LmTrain.keys_fresh`, `LmTrain.train_descends`.
* **C171** Checkpoints of the transformer example hold states of training, whatever crashes happen — *proved*. Model: `fileName`, `checkpointPaths`, `ckptInit`, and `step`, a transition system of the process and the directory: starting, opening a file (which empties it), writing it, updating, crashing.. Proof: `Inv` is an invariant of all steps (`inv_step`), for any predicate kept by init and update; `states_trained`, `files_named`, `file_step`, `files_stay`, `names_distinct`, `crashes_unseen`; `data_repeats` is a witness..
  a write that was cut short leaves a file that cannot be loaded; the directory holds only the files of this program Theorems: `LmTrain.states_trained`, `LmTrain.files_named`, `LmTrain.file_step`, `LmTrain.files_stay`, `LmTrain.crashes_unseen`, `LmTrain.names_distinct`, `LmTrain.data_repeats`.
* **C172** After a crash the transformer example resumes from the newest checkpoint — *partial*. Model: As C171; the listing of the directory is an input, any permutation of the names.. Proof: `names_ordered` by the digits; `resume_newest_partial`, `loses_at_most_partial` for sorted listings, steps below ten million and a newest file that is complete; `restart_succeeds_partial` without crashes while a file is written; `any_checkpoint`, `torn_stuck`, `resume_risks`, `names_unordered` show that these are needed..
  proved for sorted listings, fewer than ten million steps and a newest file that is complete; the code falsifies the rest: os.listdir is not sorted (any_checkpoint), a torn newest file makes every start fail (torn_stuck), and a resumed process first empties the file it loaded (resume_risks) Theorems: `LmTrain.names_ordered`, `LmTrain.names_unordered`, `LmTrain.resume_newest_partial`, `LmTrain.loses_at_most_partial`, `LmTrain.torn_writing`, `LmTrain.restart_succeeds_partial`, `LmTrain.torn_stuck`, `LmTrain.resume_risks`, `LmTrain.any_checkpoint`.
* **C173** The records of the transformer example predict each token of a text from those before it — *proved*. Model: `cropOrPad`, `record`, `stack`.. Proof: `record_length`, `record_obs`, `record_target`, `record_next`, `record_counts`; `batch_loss` from the loss of C142..
  shuffling is left out; tokens are positive and below the size of the vocabulary Theorems: `LmTrain.record_length`, `LmTrain.record_obs`, `LmTrain.record_target`, `LmTrain.record_next`, `LmTrain.record_counts`, `LmTrain.batch_loss`.
* **C174** The text of a module shows a call equivalent to its construction — *partial*. Model: `Model/AutoRepr.lean`: `ArgSpec` and `bind` (what `getfullargspec` and `getcallargs` of Python do), `namesAndValues` (the arguments shown), `splitLines`, `join`, `indent`. The text of values (`repr`, `pprint`) and the choice between one line and several are not modelled.. Proof: `Props/AutoRepr.lean`: `repr_equivalent_partial` reads the shown arguments as a call and binds it; `varargs_never` and `no_self_never` are the negation for arguments of `*args`; `split_join`, `indent_lines`, `indent_indent` by induction over lines..
  proved for constructions that give nothing to *args; otherwise the code falsifies it (varargs_never, no_self_never) Theorems: `AutoRepr.default_at`, `AutoRepr.repr_equivalent_partial`, `AutoRepr.varargs_never`, `AutoRepr.no_self_never`, `AutoRepr.split_join`, `AutoRepr.indent_lines`, `AutoRepr.indent_indent`, `AutoRepr.indent_zero`.
* **C175** The deprecated frozendict is a mapping with lawful equality, hash, pickling and tree structure — *proved*. Model: `Model/FrozenDict.lean`: storage, sorted keys, items, attributes, equality, pickling, flattening.. Proof: `Props/FrozenDict.lean`: `getitem_new`, `iter_increasing`, `eq_iff`, `eq_hash`, `perm_eq`, `reduced_eq`, `map_leaves`, `flatten_unflatten`..
  keys of one linearly ordered type, so that sorting does not raise Theorems: `FrozenDict.getitem_new`, `FrozenDict.iter_increasing`, `FrozenDict.getattr_eq`, `FrozenDict.eq_iff`, `FrozenDict.eq_hash`, `FrozenDict.perm_eq`, `FrozenDict.reduced_eq`, `FrozenDict.map_leaves`, `FrozenDict.flatten_unflatten`.
* **C176** The test utilities find every module and class and every combination of parameters — *proved*. Model: `Model/TestUtils.lean`: the search as a loop over its three variables with bounded iterations; classes; products of parameters.. Proof: `Props/TestUtils.lean`: `find_spec` from an invariant (each visited module on the stack has its children visited or above it) and a measure (stack and attributes of modules not visited); `subclasses_spec`, `combined_spec`, `product_order`, `bools_spec`, `range_spec`, `names_collide`..
  names of modules need not be unique (then the sort fails, which is proved); attributes that are not modules are left out of the model Theorems: `TestUtils.find_spec`, `TestUtils.subclasses_spec`, `TestUtils.combined_spec`, `TestUtils.combined_nil`, `TestUtils.product_order`, `TestUtils.bools_spec`, `TestUtils.range_spec`, `TestUtils.names_collide`.
* **C177** The MNIST example evaluates on whole sections of its data and trains on the cross entropy — *proved*. Model: `Model/Mnist.lean`: `repeated`, `evalBatch`, `loss`, `argmax`, `accuracy`, in exact arithmetic; the network is any function of one image.. Proof: `Props/Mnist.lean`: `batch_section`, `batch_whole`, `batches_cover`, `loss_eq`, `loss_nonneg`, `accuracy_eq`..
  exact arithmetic; shuffling and reading are not modelled Theorems: `Mnist.batch_section`, `Mnist.batch_whole`, `Mnist.batches_cover`, `Mnist.loss_eq`, `Mnist.loss_nonneg`, `Mnist.accuracy_eq`.
* **C178** The MNIST example evaluates an exponential moving average that does not influence training — *proved*. Model: `Model/Mnist.lean`: `emaUpdate`, the loop with its variables, the positions of the generators and what is printed; the network, the optimiser and the training batches are any.. Proof: `Props/Mnist.lean`: `run_state`, `run_printed` by induction over steps, `main_printed`; `averaged_eq`, `weights_sum`, `averaged_between`..
  exact arithmetic; the optimiser keeps the shapes of the parameters Theorems: `Mnist.run_state`, `Mnist.run_printed`, `Mnist.main_printed`, `Mnist.averaged_eq`, `Mnist.weights_sum`, `Mnist.averaged_between`.
* **C179** Method hooks that are entered are left once, whatever raises — *proved*. Model: `Model/MethodHooks.lean`: hooks as any context managers; `exitAll` and `enterAll` (`contextlib.ExitStack`), `withHooks` (`_module_method_call` and the use of `out` in `wrap_method`), `callMethod`, programs with calls, hooks and exceptions. Names and interceptors are in `Model/Machine.lean`, which leaves method hooks out.. Proof: `Props/MethodHooks.lean`: `hooks_balanced` by induction over programs, `call_returns`, `suppressed_unbound`; `call_calm`, `watch_invisible`..
  hooks are state transformers that do not themselves call methods Theorems: `MethodHooks.hooks_balanced`, `MethodHooks.call_returns`, `MethodHooks.suppressed_unbound`.
* **C180** Method hooks that only watch are invisible — *proved*. Model: `Model/MethodHooks.lean`: hooks as any context managers; `exitAll` and `enterAll` (`contextlib.ExitStack`), `withHooks` (`_module_method_call` and the use of `out` in `wrap_method`), `callMethod`, programs with calls, hooks and exceptions. Names and interceptors are in `Model/Machine.lean`, which leaves method hooks out.. Proof: `Props/MethodHooks.lean`: `hooks_balanced` by induction over programs, `call_returns`, `suppressed_unbound`; `call_calm`, `watch_invisible`..
  hooks are state transformers that do not themselves call methods Theorems: `MethodHooks.call_calm`, `MethodHooks.watch_invisible`.
* **C181** Unrolling a batch of trajectories is stepping each of them alone — *proved*. Model: `Model/ImpalaNets.lean`: `batchApply` on rows, `Catch.call`/`unroll`, `Atari.core` (ResetCore of the LSTM on a row), `dynamicUnroll`, `unroll`, `call`, `Agent.step` with its squeezes, `Agent.unroll`, stacking. Layers, LSTM and head are any functions of one entry.. Proof: `Props/ImpalaNets.lean`: `catch_unroll`, `atari_unroll` over a row-wise unroll by induction over time, `step_cell`, `batch_repeats`; `nets_forget`, `episodes_alone`, `calls_keep_time`..
  layers, LSTM and head are any functions of one entry of the batch Theorems: `ImpalaNets.catch_unroll`, `ImpalaNets.atari_unroll`, `ImpalaNets.step_cell`, `ImpalaNets.batch_repeats`.
* **C182** No network of the IMPALA example carries anything from one episode into the outputs of the next — *proved*. Model: `Model/ImpalaNets.lean`: `batchApply` on rows, `Catch.call`/`unroll`, `Atari.core` (ResetCore of the LSTM on a row), `dynamicUnroll`, `unroll`, `call`, `Agent.step` with its squeezes, `Agent.unroll`, stacking. Layers, LSTM and head are any functions of one entry.. Proof: `Props/ImpalaNets.lean`: `catch_unroll`, `atari_unroll` over a row-wise unroll by induction over time, `step_cell`, `batch_repeats`; `nets_forget`, `episodes_alone`, `calls_keep_time`..
  the second sentence is a disagreement with what `RNNCore.__call__` promises Theorems: `ImpalaNets.nets_forget`, `ImpalaNets.episodes_alone`, `ImpalaNets.calls_keep_time`.
* **C183** The loss of impala_lite is the mean of what the full example sums — *proved*. Model: `Model/ImpalaLiteAgent.lean`: `preprocess`, `step`, `rows` and `loss` on stacked trajectories, `rollout`, `runActor`. V-trace and the functions of `rlax` are those of `Model/ImpalaLoss.lean`.. Proof: `Props/ImpalaLiteAgent.lean`: `loss_mean` via `loss_sums` of the full example, `preprocess_same`, `step_ok`; `windows` by induction over rollouts, `whole_length`, `keys_distinct`..
  exact arithmetic; `rlax` as modelled for C154 Theorems: `ImpalaLiteAgent.loss_mean`, `ImpalaLiteAgent.preprocess_same`, `ImpalaLiteAgent.step_ok`.
* **C184** The trajectories of an impala_lite actor are windows of one interaction — *proved*. Model: `Model/ImpalaLiteAgent.lean`: `preprocess`, `step`, `rows` and `loss` on stacked trajectories, `rollout`, `runActor`. V-trace and the functions of `rlax` are those of `Model/ImpalaLoss.lean`.. Proof: `Props/ImpalaLiteAgent.lean`: `loss_mean` via `loss_sums` of the full example, `preprocess_same`, `step_ok`; `windows` by induction over rollouts, `whole_length`, `keys_distinct`..
  the environment is a function of its state and the action Theorems: `ImpalaLiteAgent.windows`, `ImpalaLiteAgent.whole_length`, `ImpalaLiteAgent.keys_distinct`, `ImpalaLiteAgent.init_key_apart`.
* **C185** hk.grad gives the derivative of the function without gradients and keeps its effects — *proved*. Model: `Model/Grad.lean`: `statefulFun`, `jaxValueAndGrad` for any operator `D` on partial functions of the argument, `valueAndGrad`, `grad`, on the machine of `Model/Machine.lean`.. Proof: `Props/Grad.lean`: `grad_of_plain`, `grad_of_aux`, `grad_raises`, `grad_outside`, by refinement to the local machine and the lemmas on `temporary_internal_state`..
  the derivative is any operator on the function of the argument; one argument Theorems: `Grad.grad_of_plain`, `Grad.grad_of_aux`, `Grad.grad_raises`, `Grad.grad_outside`.
* **C186** get_original_fn gives the user's function after any wrapping — *proved*. Model: `Model/OriginalFn.lean`: function objects with the attribute `_original_fn` as a store, `tieIn`, `getOriginal`, the four functions as far as they create functions and tie, programs of calls.. Proof: `Props/OriginalFn.lean`: `original_of_result`, `original_stays`, `original_of_user`, `calls_succeed`, by an invariant over the calls..
  pairs made by the user and functions copied by `functools.wraps` are not modelled Theorems: `OriginalFn.original_of_result`, `OriginalFn.original_stays`, `OriginalFn.original_of_user`, `OriginalFn.calls_succeed`.
* **C187** The Atari torsos give each picture its own vector, for all sizes — *proved*. Model: `Model/AtariTorso.lean`: both torsos on arrays, on the models of convolutions, pooling, flattening and linear layers.. Proof: `Props/AtariTorso.lean`: `shallow_is`, `deep_is` against sums over one picture, `torso_alone`, `torso_rows`, `shallow_blind`..
  exact arithmetic; dtypes and initializers not modelled Theorems: `AtariTorso.shallow_is`, `AtariTorso.deep_is`, `AtariTorso.torso_alone`, `AtariTorso.torso_rows`, `AtariTorso.shallow_blind`.
* **C188** hk.to_module makes calls of a function run as in a name scope — *proved*. Model: `Model/ToModule.lean`: the class made by `to_module`, its constructor and call, as programs of the machine.. Proof: `Props/ToModule.lean`: `as_scope` compares both runs on the local machine; the second notification of the running modules adds what they know (`notifyLoop_known`). `new_named`, `new_raises`, `lambda_raises`, `calls_share`..
  modules_with_named_call and interceptors are excluded by hypothesis; docstrings not modelled Theorems: `ToModule.as_scope`, `ToModule.new_named`, `ToModule.new_raises`, `ToModule.lambda_raises`, `ToModule.calls_share`.
* **C189** Training of the character model is independent of what it logs — *proved*. Model: `Model/RnnTrain.lean`: `update` and `main` of `examples/rnn/train.py` over any task (initialiser, gradient, optimiser, loss, sampler) and streams of batches; `rng` is the model of `PRNGSequence`. A negative number of steps is not modelled.. Proof: `Props/RnnTrain.lean`: the variables before step n are given in closed form (`varsAt`), kept by each step (`body_at`); `main_log`, `main_trains`, `main_evals`, `keys_differ`, `keys_handed`, `main_zero`..
  the network, loss and sampler of the example are those of C160 and C162, here any functions Theorems: `RnnTrain.main_log`, `RnnTrain.main_trains`, `RnnTrain.main_evals`, `RnnTrain.keys_differ`, `RnnTrain.keys_handed`, `RnnTrain.main_zero`.
* **C190** Every interleaving of the IMPALA threads computes what a sequential program computes — *proved*. Model: `Model/ImpalaSystem.lean`: the threads of `Model/ImpalaLearner.lean` with contents: `Learner.update` over any gradient, optimiser and norms, `Actor.unroll_and_push` over any unrolling, `_params_for_actor` and what the logger is given. A batch is stacked when it is used; objects in the queues are not changed in between by anyone.. Proof: `Props/ImpalaSystem.lean`: the sequential program is `replay`; the invariant `Inv` says that what waits in the queues is what `replay` would make next and that a trajectory that is being put is made from where the actor then stands; with `Flow` of C149 it is kept by every access (`inv_step`); `sequential`, `served_together`, `batch_next`, `data_follows`..
  the assignment of the pair `_params_for_actor` is one access, as it is in CPython Theorems: `ImpalaSystem.sequential`, `ImpalaSystem.served_together`, `ImpalaSystem.batch_next`, `ImpalaSystem.data_follows`.
* **C191** A stack of layers through hk.transform: which parameters init makes and what apply computes — *proved*. Model: `Model/Machine.lean` and `Model/Frame.lean` (the machine of `hk.transform`, modules and `get_parameter`); the program is `stack` in `Props/Stack.lean`. The thread has no creators, getters or interceptors and `profiler_name_scopes` is off (`Bare`).. Proof: `Props/Stack.lean`: specification `named`, `initial`, `compose`; on the local machine one layer is `new_layer` (with `kth_name` of C15), `call_layer`, `getAll_new`/`getAll_old`; induction over the layers (`init_run`, `apply_run`) with the invariant that every parameter stored so far is under a name given before; `init_stack`, `apply_stack`, `apply_init`, `keys_distinct`..
  names of layers are identifiers without a number at the end, as the names made from class names; initializers draw at most one key Theorems: `Stack.init_stack`, `Stack.keys_distinct`, `Stack.apply_stack`, `Stack.apply_init`.
* **C192** A tree of modules through hk.transform_with_state: one entry per module, in order of construction, and apply is the composition — *proved*. Model: `Model/Machine.lean`, `Model/Frame.lean`, `Model/Names.lean`; the program is `progs` in `Props/ModuleTree.lean`. The thread has no creators, getters or interceptors and `profiler_name_scopes` is off (`Bare`). Attributes of module objects are not modelled; a module finds those made in its `__init__` by their numbers, which follow its own.. Proof: `Props/ModuleTree.lean`: specification `flatL` (names, parameters and state in order), `startP`, `startS`, `composeL` (threads the state); names are distinct by the first component of a path (`Under.unique`, `flatL_nodup`); on the local machine `construct_body`, `new_tree` (making), `call_node`, `getStates_new`, `getStates_read`, `setStates_run`, then mutual induction over trees and lists of trees: `read_call`/`read_calls`/`read_list` for entries that are there (frozen or not, so also for the second call within `init`), `init_call`/`init_calls`/`init_list` for new ones; `init_trees`, `apply_trees`, `apply_init`, `names_distinct`..
  names are identifiers without a number at the end, as the names made from class names; initializers draw at most one key Theorems: `ModuleTree.init_trees`, `ModuleTree.names_distinct`, `ModuleTree.apply_trees`, `ModuleTree.apply_init`.
* **C193** The threads of impala_lite compute what a sequential program computes — *proved*. Model: `Model/ImpalaLiteSystem.lean`: `Work` (what the threads call, any functions), `update`, `Data`, `effect`, `step`, `run` on top of the accesses of `Model/ImpalaLite.lean`; `actorRound` is one round of `run_actor` made of `rollout` in `Model/ImpalaLiteAgent.lean`. Reading the parameters, `put`, `get` and storing new parameters are atomic; an agent that raises is not covered.. Proof: `Props/ImpalaLiteSystem.lean`: specification `replay` (sequential), `alone` (one actor); invariant `Inv` (all trajectories put so far are those that `makeAll` makes with the parameters of their versions, actors that hold a trajectory are one round ahead) kept by each access (`inv_step`), with the order of C148; `sequential`, `only_batches_matter`, `actor_alone`; `alone_runFrom` relates rounds to the loop of `run_actor`, giving `actor_runs`..
  Theorems: `ImpalaLiteSystem.sequential`, `ImpalaLiteSystem.only_batches_matter`, `ImpalaLiteSystem.actor_alone`, `ImpalaLiteSystem.actor_runs`.
* **C194** Layers that are made first and called later, shared or not, have one entry each, where they were made — *proved*. Model: `Props/SharedLayers.lean`: `loop` (the loop of `Sequential.__call__`), `shell`, `sequential` are programs on the model of `Model/Frame` and `Model/Machine`, with the trees of C192; `Mnist.net` is `net_fn`. What the layers compute is any function; extra arguments of the first layer are not covered.. Proof: `Props/SharedLayers.lean`: specification `items`, `firsts`, `compose`; induction over the layers (`loop_init`, with the modules seen so far; `loop_read`) from `init_call` and `read_call` of C192; entries of different modules are apart (`items_apart`, from `flatL_nodup`); `init_sequential`, `apply_sequential`, `apply_init`, `init_first_calls`, `entries`, `mnist_init`, `mnist_apply`..
  Theorems: `SharedLayers.init_sequential`, `SharedLayers.apply_sequential`, `SharedLayers.apply_init`, `SharedLayers.init_first_calls`, `SharedLayers.entries`, `SharedLayers.mnist_init`, `SharedLayers.mnist_apply`.
* **C195** Straight-line programs of get_parameter, next_rng_key, and modules made and called anywhere: what init builds and what apply computes — *proved*. Model: `Props/StraightLine.lean`: `Body` is the syntax of the programs, `exec` their meaning on the model of `Model/Frame` and `Model/Machine`; `SimpleNet.net` is the function of examples/impala_lite.py. What is computed in between is any function. State, control flow and modules made in `__init__` are not in these programs (see C04 and C192).. Proof: `Props/StraightLine.lean`: specification `events` (what is asked for, in order), `built` (a fold over it) and `value` (no frame, no heap); induction over the program with an invariant that says what calling each module in scope does (`ScopeI`, `ScopeA`, in any later heap); `run_init`, `run_apply`; `init_program`, `apply_program`, `apply_init`, `first_value`, `only_asked`, `simple_net_init`, `simple_net_apply`..
  Theorems: `StraightLine.init_program`, `StraightLine.apply_program`, `StraightLine.apply_init`, `StraightLine.first_value`, `StraightLine.only_asked`, `StraightLine.simple_net_init`, `StraightLine.simple_net_apply`.
* **C196** The language model of examples/transformer, for any number of layers: the parameters and keys of init, and what apply computes — *proved*. Model: `Props/TransformerProgram.lean`: `Net` (programs in which modules are called where they are made), `Net.body` (as programs of C195), `linear`, `layerNorm`, `attention`, `dense`, `layers`, `transformer`, `forward`. Initializers and array operations are any functions (`Ops`).. Proof: `Props/TransformerProgram.lean`: specification `newParams` (the dictionary, with keys) and `logits` (the fold over layers `step`); `hname_inj` (names of different layers differ), `layers_ok`, `layers_events`, `layers_value` by induction on the number of layers, `fold_items` (init fills module by module); `init_transformer`, `apply_transformer`, `apply_new`, `count_params`..
  Theorems: `TransformerProgram.init_transformer`, `TransformerProgram.apply_transformer`, `TransformerProgram.apply_new`, `TransformerProgram.count_params`.
* **C197** Programs with parameters, state, keys, modules, errors and any control flow compute what they say on a plain memory of parameters, state and keys — *proved*. Model: `Props/AnyProgram.lean`: `Ask` and `Code` are the programs, `exec` their meaning on the model of `Model/Frame` and `Model/Machine`. A continuation is any function of the value before it. `Obj` is a module with the modules made in its `__init__`. Not in `Code`: `__init__` that does anything else than making modules, further methods, `try`.. Proof: `Props/AnyProgram.lean`: specification `Mem`, `answer`, `flat`; `op_answer` (each operation), `run_flat` by induction on the program, with an invariant on the stack, the name counters and the modules in scope; `new_obj` and `good_obj` by induction on modules made in `__init__`; `init_code`, `apply_code`. `flat_more` and `flat_keeps` by induction on the program give `apply_more` and `apply_keeps`; `flat_keyless`, likewise, gives `apply_keyless` and `init_keyless`. Beside them a counter (`counts`, for every count) and a program with branches and an error..
  Theorems: `AnyProgram.init_code`, `AnyProgram.apply_code`, `AnyProgram.apply_more`, `AnyProgram.apply_keeps`, `AnyProgram.apply_keyless`, `AnyProgram.init_keyless`.
* **C198** Batch normalisation through hk.transform_with_state: which parameters and state it has, and what training does to them — *proved*. Model: `Props/BatchNormProgram.lean`: `ema`, `call`, `bn` are programs in the sense of C197, so they run on the model of frames; the averages are modules made in `__init__`. The property `average` is entered like `__call__` (the difference only matters for modules made there). Operations on arrays are any functions (`Ops`; what they are in exact arithmetic is in C66-C68). No replica axis; scale and offset are own parameters.. Proof: `Props/BatchNormProgram.lean`: `init_code` and `apply_code` of C197 reduce to the memory, where `bn_flat`, `finish_flat` and evaluation give the results; `trained` by induction on the batches..
  Theorems: `BatchNormProgram.init_training`, `BatchNormProgram.init_eval`, `BatchNormProgram.apply_training`, `BatchNormProgram.apply_eval`, `BatchNormProgram.apply_local`, `BatchNormProgram.trained`.
* **C199** The variational auto-encoder of examples/vae.py: its parameters, what it computes, and that training draws with no key twice — *proved*. Model: `Props/VaeProgram.lean`: `encoder`, `decoder`, `call`, `vae` are straight-line programs in the sense of C195, so they run on the model of frames; `loop` and `mainDraws` take the keys of `main` with `PRNGSeq.next`. Operations on arrays are any functions (`Ops`). Keys are symbolic: different paths of splits are different keys. Not modelled: data, gradients, the optimiser, `jax.jit` (the key is an argument of the compiled functions).. Proof: `Props/VaeProgram.lean`: `init_program` and `apply_program` of C195 with `vae_asks` and `vae_computes`; `init_takes` counts the keys of `init`; `draws_distinct` by induction on the steps (`loop_keys`) and on paths of splits (`left_keyNo`)..
  Theorems: `VaeProgram.vae_init`, `VaeProgram.vae_apply`, `VaeProgram.draws_distinct`.
* **C200** apply after init computes what init computed, whatever the control flow, and hk.testing.transform_and_run returns it — *proved*. Model: `Model/TransformAndRun.lean`: the wrapper as a program; programs are those of C197. `Still` excludes `next_rng_key` and its like and `running_init`.. Proof: `Props/TransformAndRun.lean`: `flat_retraces` by induction on programs and on modules made in `__init__`, with the relation `Rel` between the memories of `init` at a point, at its end, and of `apply` at that point; `init_code` and `apply_code` of C197 carry it to the machine. `keyed_differs` shows that keys must be excluded. State is compared as dictionaries, without their order..
  Theorems: `TransformAndRun.apply_after_init`, `TransformAndRun.run_context`, `TransformAndRun.run_code`, `TransformAndRun.run_passes`, `TransformAndRun.run_raises`.
* **C201** hk.nets.MLP with any number of layers, with and without dropout, through hk.transform — *proved*. Model: `Props/MlpProgram.lean`: the module as a program of C197, with one body for all layers, found by their number, and the loop of `__call__` by recursion. Array functions are any functions; sizes are given rather than read off the arrays; layers have a bias. The two errors for a rate without a key and the other way round are in C63.. Proof: `layers_ok` and `layers_den` by induction over the layers (names `linear_i` are asked for once each); `loop_flat` by induction over the layers that are left, for any memories `M i` before layer `i`; `init_loop` and `apply_loop` give them; `init_code` and `apply_code` of C197 carry it to the machine..
  Theorems: `MlpProgram.mlp_init`, `MlpProgram.mlp_apply`, `MlpProgram.mlp_dropout`, `MlpProgram.mlp_no_key`.
* **C202** The deep torso of the IMPALA example, with any sections, through hk.transform — *proved*. Model: `Props/DeepTorsoProgram.lean`: `block`, `blocks`, `sections`, `tail`, `torso` as programs of C197, with the loops by recursion and modules made where they are made in the code. Array functions are any functions; shapes of parameters are given rather than read off the arrays. In the example the torso is called in a `BatchApply` in another module; here it is called on its own.. Proof: `Used` says what names were asked for before block `j` of section `i`; `blocks_flat` and `sections_flat` by induction over the loops, for any memories `M t` before layer `t`; `reqs_nodup` shows that names do not clash, so `layer_init` applies to each layer; `init_code` and `apply_code` of C197 carry it to the machine..
  Theorems: `DeepTorsoProgram.torso_init`, `DeepTorsoProgram.torso_apply`.
* **C203** Recurrent cores unrolled over any number of steps share one set of parameters, through hk.transform — *proved*. Model: `Props/UnrollProgram.lean`: `lstm`, `vanilla`, `gru` and the loop of `static_unroll` as programs of C197, with layers made in each call where the code makes them there. Array functions are any functions; sizes are given rather than read off the arrays; the checks of the rank of the inputs, `time_major=False` and `dynamic_unroll` are not in it (see C55 and C87 for the last).. Proof: `unroll_flat`: if the first step takes memory `m` to `m'` and every step keeps `m'`, so does the unrolled core, with the outputs of the fold; `loop_flat` by induction over the steps. The steps come from `layer_init` and `layer_apply` of C202; `init_code` and `apply_code` of C197 carry it to the machine..
  Theorems: `UnrollProgram.lstm_init`, `UnrollProgram.lstm_apply`, `UnrollProgram.vanilla_init`, `UnrollProgram.vanilla_apply`, `UnrollProgram.vanilla_single_init`, `UnrollProgram.vanilla_single_apply`, `UnrollProgram.gru_init`, `UnrollProgram.gru_apply`.
<!-- end properties -->

## Trusted base

* Lean 4.33.0 kernel. Axioms used: at most `propext`, `Classical.choice`, `Quot.sound`.
* The correspondence between the cited Python lines and the Lean definitions (by reading).
* JAX and NumPy primitives behave as described in the comments of the model (value semantics; compilation does not change values).
* RNG keys are symbolic: `split k n` gives keys identified by `(k, n, i)`; that threefry does not collide is not modelled.
* Floating point is replaced by exact arithmetic.
* Non-terminating user programs and Python features outside the Haiku API (globals, monkey patching by users, garbage collection) are not modelled.

Modelled code (simplifications are stated at each definition):

<!-- begin model -->
* `Model/AtariTorso.lean` – The torsos of the Atari network. Models `AtariShallowTorso`, `ResidualBlock` and `AtariDeepTorso` of `/repo/examples/impala/haiku_nets.py` on the models of convolutions, pooling and linear layers, in exact arithmetic. Parameters are what `hk.get_parameter` gives; dtypes and initializers are not modelled.
* `Model/Attention.lean` – Multi-head attention. Models `MultiHeadAttention` of `/repo/haiku/_src/attention.py` in exact arithmetic; the exponential function and the square root are any functions. Dtypes are not modelled.
* `Model/AutoRepr.lean` – The text of a module. Models `auto_repr`, `compare_or_false`, `fancy_repr` and `indent` (`/repo/haiku/_src/utils.py` 30-112), which every construction of a module runs (`/repo/haiku/_src/module.py` 138).
* `Model/Basic.lean` – Functions and modules of basic.py. Models `one_hot`, `multinomial`, `Sequential` and `expand_apply` of `/repo/haiku/_src/basic.py` in exact arithmetic; the exponential function is any function. (`Linear` and `dropout` are in `Verif.Model.Mlp`, `BatchApply` in `Verif.Model.Shapes`.) Dtypes are not modelled.
* `Model/Bias.lean` – Shape of a bias. Models `calculate_bias_shape` of `/repo/haiku/_src/bias.py`.
* `Model/BiasCall.lean` – Adding a bias. Models `Bias` of `/repo/haiku/_src/bias.py` in exact arithmetic. Dtypes are not modelled.
* `Model/CharRnn.lean` – The character model example. Models `/repo/examples/rnn/train.py` and `/repo/examples/rnn/dataset.py` on the models of `DeepRNN`, `LSTM`, `MLP` and `dynamic_unroll`, in exact arithmetic. Elementary functions and `jax.random.categorical` are any functions; parameters are what `hk.get_parameter` gives. The optimiser, `jax.grad`, `jax.jit` and flags are not modelled.
* `Model/Conv.lean` – Padding and convolution. Models `/repo/haiku/_src/pad.py` and the parts of `/repo/haiku/_src/conv.py` that decide sizes and which inputs an output reads.
* `Model/ConvArr.lean` – Convolutions of arrays. Models `ConvND.__call__` of `/repo/haiku/_src/conv.py` on whole arrays with both data formats, masks, biases and unbatched inputs, `/repo/haiku/_src/depthwise_conv.py`, and `ConvNDLSTM` of `/repo/haiku/_src/recurrent.py`, in exact arithmetic. Dtypes and initializers are not modelled.
* `Model/ConvT.lean` – Values of a transposed convolution. Models `ConvNDTranspose.__call__` of `/repo/haiku/_src/conv.py` with `output_shape`, on one example.
* `Model/Cores.lean` – Recurrent cores. Models `VanillaRNN`, `LSTM`, `GRU` and `IdentityCore` of `/repo/haiku/_src/recurrent.py` in exact arithmetic; the logistic function and the hyperbolic tangent are any functions. Dtypes are not modelled.
* `Model/DeepRnn.lean` – `DeepRNN`. Models `_DeepRNN`, `DeepRNN` and `deep_rnn_with_skip_connections` of `/repo/haiku/_src/recurrent.py`.
* `Model/Dot.lean` – Graphs of the operations of a function. Models `/repo/haiku/_src/dot.py`: how `to_graph` records the operations of a function, clustered by the calls of methods of modules and of compiled functions, and the text `_graph_to_dot` writes. What the function does is given by the operations JAX sees, as a tree. Objects have an address; that of an array also gives its shape and dtype. JAX's tracers are not modelled: an operation is given by the values it gets and those it returns.
* `Model/Ema.lean` – Exponential moving averages. Models `ExponentialMovingAverage` of `/repo/haiku/_src/moving_averages.py` in exact arithmetic. Arrays are averaged element by element, so one element is modelled.
* `Model/Embed.lean` – Embeddings. Models `Embed` of `/repo/haiku/_src/embed.py`.
* `Model/Filtering.lean` – Partitioning, filtering, mapping and merging parameters. Models `/repo/haiku/_src/filtering.py`. Simplifications: predicates and functions are pure, and the final conversion `to_immutable_dict` is left out (it keeps every entry, see `Verif.Model.Tree`).
* `Model/Frame.lean` – Operations on the current frame. Models the functions of `/repo/haiku/_src/base.py`, `/repo/haiku/_src/module.py`, `/repo/haiku/_src/lift.py` and `/repo/haiku/_src/stateful.py` that read and write the current frame without pushing or popping any stack. `Env` is what these functions only read, `Loc` is what they may change.
* `Model/FrozenDict.lean` – The deprecated `frozendict`. Models `/repo/haiku/_src/data_structures.py` 244-309, which is kept for old checkpoints. Keys are of one linearly ordered type, so that `sorted` does not raise.
* `Model/Grad.lean` – `hk.value_and_grad` and `hk.grad`. The derivative of JAX is any operator `D` that takes the function from arguments to values, as far as it is defined, and the argument.
* `Model/Hooks.lean` – Chains of hooks. Models `run_creators` (`/repo/haiku/_src/base.py` 340-359), `run_getters` (410-427) and `run_interceptors` (`/repo/haiku/_src/module.py` 270-295) for hooks that call `next` any number of times, with any arguments, and catch exceptions. The three functions have the same shape: a copy of the stack is made, and every call of `next` pops the oldest hook left in that one copy.
* `Model/Identity.lean` – `assert_state_unchanged` on object identities. Models `/repo/haiku/_src/base.py` 806-846: the check compares sets of `id(...)` of the stored objects. Here stored objects are represented by their addresses only, and what runs inside the block by the changes it makes to them. CPython gives a new object an address that no live object has; the check keeps no reference to the objects it saw, so their addresses may be given out again.
* `Model/ImageNet.lean` – The ImageNet example. Models `/repo/examples/imagenet/dataset.py` and `/repo/examples/imagenet/train.py`, in exact arithmetic. The network, its gradient and the optimiser are any functions; parameters on devices are elements of any module over the numbers. Reading, decoding and resizing of images, shuffling, dtypes and logging are not modelled.
* `Model/ImpalaActor.lean` – The actor of `examples/impala`. An actor steps an agent and an environment in turn and cuts the interaction into trajectories. Agent and environment are any functions.
* `Model/ImpalaLearner.lean` – The threads of `examples/impala`. Actors put trajectories into a first queue, a worker thread of the learner takes them out in batches and puts the batches into a second queue, the learner takes batches out of this one and updates the parameters. After its last update the learner sets a flag and joins the worker; then the main thread sets a second flag and joins the actors. As in `Verif.Model.ImpalaLite` a step is one access to something shared, and an access that would block is no step.
* `Model/ImpalaLite.lean` – The threads of `examples/impala_lite.py`. Actors put trajectories into a queue of bounded size, the learner takes them out in batches. A step of the model is one access to something shared: reading the parameters, `put`, `get`, and storing new parameters. An access that would block is no step.
* `Model/ImpalaLiteAgent.lean` – The agent, the loss and the actor of `examples/impala_lite.py`. The functions of `rlax` are those of `Verif.Model.ImpalaLoss`, time steps those of `Verif.Model.ImpalaActor`; the layers of `SimpleNet` are any function of one time step.
* `Model/ImpalaLiteSystem.lean` – What the threads of `examples/impala_lite.py` compute. The threads are those of `Verif.Model.ImpalaLite`, where trajectories are known by the actor that made them, their number and the version of the parameters; here they have contents, as objects that the queue refers to.
* `Model/ImpalaLoss.lean` – The loss of the learner in `examples/impala`. The functions of `rlax` are not part of the repository; V-trace is modelled as `rlax.vtrace_td_error_and_advantage` computes it with its default arguments (`lambda_ = 1`, both clipping thresholds 1), the probabilities of actions, the entropy and the importance ratios are any functions.
* `Model/ImpalaNets.lean` – The networks and the agent of `examples/impala`. An array `[T, B, ...]` is the list of its `T` rows, each the list of its `B` entries. The convolutions, linear layers and the LSTM are any functions of one entry of a batch: what they do within a batch is the subject of other models (`Verif.Model.ConvArr`, `Verif.Model.Cores`).
* `Model/ImpalaSystem.lean` – What the threads of `examples/impala` compute. The threads are those of `Verif.Model.ImpalaLearner`, where trajectories are known by the actor that made them, their number and the version of the parameters; here they have contents, as objects that the queues refer to.
* `Model/Initializers.lean` – Initializers. Models `/repo/haiku/_src/initializers.py` and the default initializers of `Linear` and the convolutions in exact arithmetic. Dtypes are not modelled; the square root and the QR decomposition are any functions.
* `Model/Lift.lean` – `hk.lift` as a program. Models `LiftingModule` (`/repo/haiku/_src/lift.py` 41-82) on top of the frame operations `liftUnpack` and `liftPack`.
* `Model/LmTrain.lean` – Training of the transformer example. Models the data set (`/repo/examples/transformer/dataset.py`) and the updaters with checkpoints (`/repo/examples/transformer/train.py` 111-209) as a process that may be stopped at any point. The network, its loss and the optimiser are any functions; splitting of keys is ideal. Shuffling, `jit` and logging are not modelled.
* `Model/Local.lean` – The local machine. A second machine for the same programs, without stacks: entering a `with` block saves the surrounding values and leaving it, normally or by an exception, puts them back. It is not a model of code but the specification of what the stacks are for; `Verif.Lemmas.Refine` shows that the stack machine computes the same.
* `Model/Machine.lean` – The interpreter. `Prog` is the syntax of user programs: every call they can make to the modelled part of Haiku, with arbitrary (Lean) functions as continuations. `Prog.run` interprets a program on a machine `Mach σ`, which supplies the primitive operations that push and pop Haiku's stacks. `stackMach` is the machine of the code: explicit stacks, pushed on entry and popped on exit of the `with` blocks, with the popped element checked.
* `Model/MethodHooks.lean` – Method hooks. Models `hook_methods`, `_module_method_call` and their use in `wrap_method` (`/repo/haiku/_src/module.py` 397-437, 603-618) for any context managers as hooks, with `contextlib.ExitStack` and `contextlib.contextmanager` of Python. Names, interceptors and the list of submodules are in the other model (`Verif/Model/Machine.lean`).
* `Model/Mlp.lean` – Linear layers, dropout and multi-layer perceptrons. Models `Linear` and `dropout` of `/repo/haiku/_src/basic.py` and `MLP` of `/repo/haiku/_src/nets/mlp.py` in exact arithmetic.
* `Model/Mnist.lean` – The MNIST example. Models `/repo/examples/mnist.py`, in exact arithmetic. The network, the gradient and the optimiser are any functions. Reading and shuffling of images are not modelled: the training batches are any sequence.
* `Model/MobileNet.lean` – MobileNetV1. Models `/repo/haiku/_src/nets/mobilenetv1.py` on the models of convolutions, batch normalisation and linear layers, in exact arithmetic. Parameters are what `hk.get_parameter` gives; dtypes and initializers are not modelled.
* `Model/Names.lean` – Module names. Models `/repo/haiku/_src/module.py` 442-443 (`valid_identifier`), 556-601 (`unique_and_canonical_name`) and `/repo/haiku/_src/utils.py` 245-246 (`camel_to_snake`). Strings are lists of characters.
* `Model/Nd.lean` – Array functions of JAX used by the normalisation layers. Value semantics of `jnp.mean`, `jnp.var`, `jnp.broadcast_to`, `jnp.reshape` and element-wise arithmetic, as called by `/repo/haiku/_src/batch_norm.py`, `/repo/haiku/_src/layer_norm.py` and `/repo/haiku/_src/group_norm.py`, in exact arithmetic.
* `Model/Norm.lean` – Normalisation layers. Models `LayerNorm` and `InstanceNorm` of `/repo/haiku/_src/layer_norm.py`, `BatchNorm` of `/repo/haiku/_src/batch_norm.py` and `GroupNorm` of `/repo/haiku/_src/group_norm.py`, in exact arithmetic. `rsqrt` is any function. Dtypes are not modelled.
* `Model/OptimizeRng.lean` – `hk.experimental.optimize_rng_use`. Models `/repo/haiku/_src/random.py` 25-101 in three ways: as seen by one thread with the whole RNG interface (`RFun`), as seen by several threads that share the global `base.next_rng_key_internal` (`Hook.*`), and for arbitrary programs (`optimizeM`).
* `Model/OriginalFn.lean` – The function behind a transformed function. Function objects carry the attribute `_original_fn`. A program is a list of calls of `transform`, `transform_with_state`, `without_state` and `without_apply_rng`, each on functions of the user or on results of earlier calls.
* `Model/PRNG.lean` – `hk.PRNGSequence`. Models `/repo/haiku/_src/base.py` 35 and 475-568. Keys are symbolic: a key is the path of splits that produced it, so `jax.random.split` never collides.
* `Model/ParamsTree.lean` – Averages and spectral normalisation of a tree of parameters. Models `EMAParamsTree` of `/repo/haiku/_src/moving_averages.py` and `SNParamsTree` of `/repo/haiku/_src/spectral_norm.py`, which differ only in the module that is made for every parameter and in the text that replaces `~`.
* `Model/Perplexity.lean` – Perplexity. Models the perplexity that `/repo/haiku/_src/nets/vqvae.py` reports, over the real numbers.
* `Model/Pool.lean` – Pooling. Models `/repo/haiku/_src/pool.py`.
* `Model/Pruning.lean` – The pruning example. Models `/repo/examples/mnist_pruning.py` in exact arithmetic: `topk_mask`, the partitions, the masks, the sparsity report and the training loop of `main`. Not modelled: the network, the loss and the optimiser (the loop takes any function for them), the data sets, printing, `jax.jit`, int32 overflow.
* `Model/Recurrent.lean` – Recurrent cores. Models `static_unroll`, `dynamic_unroll`, `ResetCore` and `_DeepRNN` of `/repo/haiku/_src/recurrent.py`. A nested structure is the list of its leaves. A core is any function of inputs, state and the Haiku state (parameters, state and keys, of any type `σ`), which may raise.
* `Model/ResNet.lean` – Residual networks. Models `/repo/haiku/_src/nets/resnet.py` on the models of convolutions, batch normalisation, pooling and linear layers, in exact arithmetic. Parameters are what `hk.get_parameter` gives; dtypes and initializers are not modelled.
* `Model/Reset.lean` – `ResetCore`. Models `ResetCore` of `/repo/haiku/_src/recurrent.py`.
* `Model/RnnTrain.lean` – The training of `examples/rnn`. The network, its loss, the optimiser and the sampling are any functions; the data sets are streams of batches. What the loss and the sampling of the example are is the subject of `Verif.Model.CharRnn`.
* `Model/Shapes.lean` – Shapes: reshaping and batch application. Models `/repo/haiku/_src/reshape.py` and `BatchApply` in `/repo/haiku/_src/basic.py`. An array is its shape and its elements in row-major order, which is how `jnp.reshape` sees it.
* `Model/SpectralNorm.lean` – Spectral normalisation. Models `SpectralNorm` of `/repo/haiku/_src/spectral_norm.py` in exact arithmetic.
* `Model/Summarise.lean` – Summaries of the modules used. Models `eval_summary` and `tabulate` of `/repo/haiku/_src/summarise.py`, with `tree_size`, `tree_bytes`, `simple_dtype`, `format_array` and `format_bytes` of `/repo/haiku/_src/utils.py` 173-273. What the user's function does is given by the calls of methods of modules it makes, as a forest. `repr` of modules and `pprint.pformat` are any functions, and the library that draws the table is not modelled: a table is its headers, alignments and rows of texts.
* `Model/TestUtils.lean` – Utilities for tests. Models the search for modules and classes and the combination of named parameters (`/repo/haiku/_src/test_utils.py` 86-156), which decide what the tests of the library cover.
* `Model/Threads.lean` – Threads. Models what the threads of a process share: the stacks of `/repo/haiku/_src/base.py` 46-50 and `/repo/haiku/_src/module.py` 219 are `ThreadLocalStack`s (`/repo/haiku/_src/data_structures.py` 81), i.e. one stack per thread in one object, and the flag `modules_with_named_call` (`/repo/haiku/_src/module.py` 41) is one variable for all threads. A thread takes one small step at a time: one access to a stack (push, pop, or acting on the current frame). `Prog.thr` gives the small steps of the programs of `Verif.Model.Machine`.
* `Model/ToModule.lean` – `hk.to_module`.
* `Model/Transform.lean` – `hk.transform` and its variants as Python callables. `Verif.Model.Machine` has `init` and `apply` of `transform_with_state` as program constructors. Here they are functions of positional arguments, wrapped by `without_state` and `without_apply_rng` as in `/repo/haiku/_src/transform.py`. Keyword arguments are not modelled.
* `Model/TransformAndRun.lean` – Running a function in a transform. Models `transform_and_run` of `/repo/haiku/_src/test_utils.py`, with which the functions of tests are run. The arguments of the function are part of the program; `functools.wraps` and the form with arguments before the function are not modelled.
* `Model/Transformer.lean` – The transformer example. Models `/repo/examples/transformer/model.py` and the forward pass and the loss of `/repo/examples/transformer/train.py` on the models of attention, layer normalisation, linear layers, dropout and embeddings, in exact arithmetic. The exponential and logarithm functions, the square roots and `gelu` are any functions. Parameters are what `hk.get_parameter` gives; dtypes and initializers are not modelled.
* `Model/Tree.lean` – Nested containers and `FlatMapping`. Models `/repo/haiku/_src/data_structures.py` 98-231 with the JAX tree functions it uses. `α` are the leaves. Keys are strings.
* `Model/Utils.lean` – Argument helpers. Models `replicate` and `get_channel_index` of `/repo/haiku/_src/utils.py`.
* `Model/VQ.lean` – Vector quantisation. Models `VectorQuantizer` and `VectorQuantizerEMA` of `/repo/haiku/_src/nets/vqvae.py` in exact arithmetic.
* `Model/Vae.lean` – The variational autoencoder example. Models `/repo/examples/vae.py` on the models of linear layers and reshaping, in exact arithmetic. The exponential and logarithm functions and the random numbers are any functions. Parameters are what `hk.get_parameter` gives; dtypes, initializers, the data sets and the optimiser are not modelled.
* `Model/Value.lean` – Values, hooks and the error/state monad used by the interpreters.
<!-- end model -->

Not modelled: the tracers of `dot.py` and its `abstract_to_dot`, the `repr` of values in `utils.py`, the documentation and the tests (with `integration`), the examples except for those named above, dtypes and rounding of floating-point numbers, and the parts of modelled files that the comments at the definitions name.

## Where the code disagrees with a property

* C04: parameters used only inside `hk.eval_shape` are dropped by init (`eval_shape_breaks`); `hk.fori_loop` over an empty range (`fori_loop_breaks`), the unchecked first step of `hk.scan` (`scan_breaks`) and a reversed `hk.scan` (`reverse_scan_breaks`) behave differently in init; a module constructed directly in the body of `hk.fori_loop` counts in the names of init but not of apply, so that a later module silently gets its parameters (`fori_names_break`); two `hk.lift`s under one name in two calls of `hk.jit` share their names, and apply gives the parameters of both to each (`lift_breaks`).
* C08: a key handed out inside a transformed region (e.g. `hk.jit`) that raises is handed out again when the exception is caught (`caught_key_reused`).
* C17: a valid identifier followed by a newline is accepted (`validIdentifier_accepts_newline`).
* C20: a hook that calls its `next` twice skips the hooks below it the second time, as the queue is shared (`second_next_skips_rest`, `next_twice_differs`).
* C25: in init a reversed `hk.scan` puts the output of the last element first (`scan_init_reverse_wrong`), and an empty scan runs the step once (`scan_init_empty_runs`).
* C26: in init `hk.fori_loop` over an empty range runs the body once (`fori_init_empty_runs`).
* C27: the condition of `hk.while_loop` sees the state before the loop (`while_stale_condition`); a condition consuming an already reserved key is not rejected and the body gets that key again (`while_condition_key_reused`).
* C32: taking an already reserved key goes unnoticed (`pop_not_noticed`); so do two writes to a state entry when the second object lands on the freed address of the first (`set_twice_not_noticed`), and a new parameter whose initializer returns an array stored already (`shared_array_not_noticed`).
* C34: a mutable mapping that is neither `dict` nor `FlatMapping` is left shared by `to_immutable_dict` (`other_mapping_shared`).
* C36: two equal FlatMappings can hash differently (`equal_but_hashed_differently`).
* C41: `without_apply_rng(transform(f))` is a `TransformedWithState` although its functions return no state (`without_apply_rng_kind_wrong`); a caught failed state lookup makes `without_state` reject the function (`failed_lookup_rejected`).
* C42: creators, getters and interceptors active around a nested transform act inside it (`hooks_leak_into_nested`).
* C44: the names of modules constructed inside `hk.jit`, `hk.cond`, ... are forgotten when the block ends (`update_internal_state` does not carry them), so a later
  module with the same requested name, in the same or a later entry of the context, gets the same name (`jit_collides`).
* C45: `params_dict()` drops a parameter when a parameter name with a slash gives two parameters one full name (`full_names_collide`).
* C46: for an input without elements `Reshape` accepts any size for `-1` and uses the rounded-down quotient (`wildcard_zero`).
* C47: `BatchApply` splits every output with the leading dimensions of the *first* mergeable input, so an input with other leading dimensions of the same product comes back reshaped (`batch_apply_mixed`).
* C49: for an input of size 0, `compute_adjusted_padding` accepts sizes that the transposed convolution does not produce (`transposed_empty`).
* C50: `_infer_shape` rejects the valid channel axis `-ndim` (`pool_first_axis`) and gives scalars a shape of rank 1 (`pool_scalar`).
* C52: `calculate_bias_shape` wraps dimensions below `-rank` instead of rejecting them (`bias_wraps`).
* C59: `get_channel_index` accepts `"NHWC\n"`: `$` also matches before a final newline (`channel_index_newline`).
* C53: `ExponentialMovingAverage.__call__(..., update_stats=False)` creates the missing state entries `counter` and `hidden` (`no_update_creates`).
* C60: `MLP.reverse` on a module that was never called does not raise, as documented, but returns a module that cannot be called (`reverse_too_early`).
* C56: a state of scalars only is taken for a batch by `ResetCore._is_batched`: the call raises or gives the state a new shape (`scalar_state_breaks`).
* C38: `profiler_name_scopes` (also called by `hk.to_dot`) sets a global that all threads see; with it set, the keys another thread gets can differ (`named_call_leaks`).
* C39: `optimize_rng_use` replaces the global `base.next_rng_key_internal`; when the counting regions of two threads overlap, a wrapper stays installed for good and requests are counted for the wrong thread (`hook_left_behind`, `foreign_requests`).
* C40: keys drawn by `next_rng_keys` and `maybe_next_rng_key` are not counted (`next_keys_not_counted`); without an RNG, a function that draws under `with_rng` or catches the error fails with an AttributeError (`no_rng_fails`); in `init` after a parameter exists, and in `apply` inside a module's method, `optimize_rng_use` fails on functions with parameters (`init_fails_after_parameter`, `apply_fails_in_method`).
* C65: with the channels on axis 1, `InstanceNorm` has one scale per position on the last axis instead of one per channel (`instance_norm_scale_wrong`).
* C69: a negative entry of `axis` is reduced by `BatchNorm` but not taken out of the shape of the scale and offset (`negative_axis_shape`).
* C70: `GroupNorm` uses the sizes of its first input for ever, so a later input with other sizes comes back with another shape (`group_norm_shape_wrong`).
* C71: negative axes of `GroupNorm` name other axes after the channels are split in groups; examples or groups are mixed (`group_norm_negative_axis`).
* C74: `VectorQuantizer` with `embedding_dim=3` accepts an input of shape `(0, 1)` and returns an array of shape `(0, 3)`: an input without elements passes both reshapes, and the subtraction broadcasts (`vq_empty_shape`).
* C77: an embedding of `VectorQuantizerEMA` that no vector was assigned to is overwritten with zeros by the first training call, whatever its initial value: the moving average of the sums starts from zero, not from the embeddings (`vq_ema_unused`).
* C80: `SpectralNorm` raises a `ValueError` for every scalar, although its documentation says that scalars are returned unchanged by default (`spectral_norm_scalar`); with `n_steps` 0 or less it fails with an `UnboundLocalError` (`spectral_norm_accepts_partial`).
* C82: `EMAParamsTree` names the average of parameter `w` of module `a/b` like that of parameter `w` of module `a__b`. The second one gets a number, so that trees in another order swap the averages (`ema_tree_order_swaps`); a parameter `w_1` of `a__b` is then rejected (`ema_tree_rejects`). A parameter whose name is no identifier is rejected too.
* C83: `SNParamsTree` raises a `ValueError` for any tree with a bias or other vector unless it is ignored (`sn_tree_vector`).
* C87: `GRU` and `VanillaRNN` take an unbatched state (`initial_state(None)`) with batched inputs; the next state is a batch. `static_unroll` accepts this, `dynamic_unroll` raises a `TypeError` (`unbatched_state_grows`).
* C90: a query whose mask is 0 for all keys attends to all of them as if there were no mask (in floating point, to all of them equally), because the same 1e10 is subtracted from all its logits.
* C91: attention accepts a query of batch size 1 with keys and values of batch size B, but then reshapes the B results to `(1, t, -1)`: the result has batch size 1 and its features mix different queries and batch elements.
* C95: `UniformScaling` does not check its scale; with a negative one the lower limit is above the upper one and every element is the same number (`uniform_scaling_negative`).
* C96: `Orthogonal` multiplies columns by `jnp.sign(jnp.diag(r))`, which is 0 for a sample without full rank: the column is then zero instead of normal.  The docstring says that rows along `axis` are orthonormal when that axis is the larger one; it is the other way round, they are when it is the smaller one.
* C100: `multinomial` compares with `a > probs`, so the uniform number 0, which `jax.random.uniform` returns now and then, draws category 0 even if its probability is 0.
* C107: `SeparableDepthwiseConv2D` gives the stride of both axes to its first convolution and the padding to both: the first one, whose kernel is one column wide, already skips columns, so that with stride 2 the second one combines columns two apart and the output is smaller (`separable_stride`); explicit paddings are applied twice along both axes (`separable_padding`).
* C108: `ConvNDLSTM` documents `input_shape` as the shape of the inputs excluding batch size, but `initial_state` appends the output channels to it, so it must not hold the channels of the inputs: with the documented value the first step on a batch raises a `ValueError` (`initial_documented`).
* C112: when the function catches an exception raised by a method, `eval_summary` returns `None` in place of the record (`caught_leaves_gap`), and `tabulate` then raises an `AttributeError` (`tabulate_fails`). The documentation says that the call stack of `C`, called by `B`, called by `A`, is `[B, A]`; it is `[C, B, A]` (`call_stack_documented`).
* C113: making a record calls `params_dict()` of every active module, which registers that module as a submodule of all others on the stack, including those it called; hence a module called by a module with parameters of its own is shown with the parameters of its caller, and `tabulate` counts them (`params_of_caller`).
* C115: a parameter named "a/w" of module "m" is not shown for "m" but may be shown as "w" of module "m/a" (`owned_slash`).
* C116: just below a power of 1000 the number is rounded up to 1000 of the smaller unit, e.g. 999999 bytes are "1000.00 KB" (`shows_thousand`).
* C119 (ResNet): `use_projection` is documented as a sequence of length 4, but its length is not checked (`nets/resnet.py` 350-356): with fewer entries the constructor raises `IndexError`, further entries are ignored. A block with stride 2 and no projection fails on all pictures with more than 2 rows or columns; on smaller ones the sum is broadcast and the picture keeps its size (`bare_stride_two`). `bn_config={"create_scale": False}` makes every network of version 1 with bottleneck fail with `ValueError`, since its last batch normalisations are given `scale_init=jnp.zeros`; with another `scale_init` it is a `TypeError`.
* C127 (MobileNetV1): the docstring of `nets/mobilenetv1.py` says that the average returns (N, 1, 1, 1024); `jnp.mean(out, axis=(1, 2))` drops these axes and returns (N, 1024) (`averages_shape`), so that the following `Flatten` changes nothing. A stride of 0 or a block with 0 output channels before another block is accepted by the constructor and makes every call fail (`net_runs_iff`).
* C134: `_graph_to_dot` declares a node only for the first value an operation returns (`node.id` is `outputs[0]`), but edges start at the value used; an edge from the second value starts at a node without a declaration (`second_value`).
* C135: `captures` is a list, so a captured value that two edges start from is declared twice (`captured_twice`), and an object passed as two arguments has all its copies declared for each of its paths (`passed_twice`).
* C136: the name of a copy of an argument is its address followed by its number without a separator, so that it may be the address of something else (`names_collide`).
* C137: only the first key of the path of an argument is escaped; with a key like `a<b` the label reads otherwise and its brackets do not match (`key_lost`).  `repr`s of values in labels of operations and elements of captured values are not escaped either.
* C138: only operations whose first value is returned are marked as outputs (`output_unmarked`).
* C140: at a position without a real token up to it (padding at the start of a sequence) every key is masked, the penalty of 1e10 is the same for all and cancels, and attention sees all positions, also later ones (`padding_first_sees_all`, `padding_first_leaks`). The loss ignores these positions.
* C143: `output_size` may be any sequence, by its documentation, but a list is never equal to the shape of the input, and making the message of the error raises a `TypeError` (`list_size_rejected`); a multiplier of higher rank than the input adds dimensions to the result (`multiplier_widens`).
* C147: the comment in `examples/mnist_pruning.py` (line 299) says that pruning ends at iteration 8000, but `progress = min(max((step - 1000) / 8000, 0), 1)` reaches 1 at iteration 9000 (`schedule_partial`, `not_done_at_8000`).
* C145: `apply_mask` zips partitions with masks, so a list of masks that is too short drops the parameters of the remaining predicates from the result without an error (`missing_mask_drops`).
* C150: `Learner.run` (`examples/impala/learner.py` 214-217) joins the worker thread after setting `_done`, but the worker puts batches into `_device_q`, which holds one, without a timeout (line 184). If one batch is in the queue and the worker has another, it never sees `_done`, and `run` never returns (`hangs_iff`, `learner_can_hang`).
* C151: `main` of `examples/impala/run_catch.py` (95-98) joins the actors after setting `stop_signal`, but an actor that has passed its test puts one more trajectory into `_host_q`, which nobody reads any more. With more such actors than free places `main` never ends (`main_hangs_iff`, `main_can_hang`).
* C156: `_loss` (`examples/impala/learner.py` 113-116) masks the time from the last step of an episode to the first of the next, but V-trace goes through it. If the episode ended with a discount above 0 (a truncation), the targets of its steps contain the value of the first state of the next episode, with the discount 1 that `preprocess_step` gives to first steps (`truncation_leaks`).
* C45: a method that raises is not recorded in its callers (`wrap_method` notifies only after the method has returned), so parameters made by a call whose exception is caught are missing from `params_dict()` of the catching module (`caught_not_shown`). A second `super().__init__()` forgets the recorded submodules (`twice_not_shown`). Lifted parameters are stored below the lifting module but under no module that ran; a module that called the lifting module from outside its name does not show them (`lifted_not_shown`).
* C172: the transformer example takes the last of the names in the order of `os.listdir`, which is arbitrary: `any_checkpoint` proves that for every complete checkpoint there is a listing with which it resumes from that one, however old. `torn_stuck`: a crash while the newest checkpoint is written leaves a file that every later start (with a sorted listing) fails to load. `resume_risks`: the first update after a resumption writes the checkpoint again that was just loaded, so a crash at that point loses the training. `names_unordered`: from ten million steps on the names are not in the order of the steps (the example stops at a million).
* C171: a resumed process reads its data from the beginning again, so its states are not those of uninterrupted training (`data_repeats`); they are if the data is determined by the step (`crashes_unseen`).
* C174: `auto_repr` promises a call equivalent to the construction, but arguments for `*args` are shown without keyword after the named ones, which is no call; where every named one is at its default and left out it is a call that gives `*args` fewer arguments (`varargs_never`). For `__init__(*args)` without `self` only the last argument is shown (`no_self_never`).
* C182: `AtariNet.__call__` (`examples/impala/haiku_nets.py` 146-148) adds a time dimension and returns what `unroll` returns, so that its output is `[1, B, ...]` where an `RNNCore` should give `[B, ...]`; under `hk.dynamic_unroll` the outputs would be `[T, 1, B, ...]` (`calls_keep_time`). The agent only uses `unroll`, so nothing in the example is affected.
