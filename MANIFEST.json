{
 "claims": [
  {
   "property": "C01",
   "status": "proved",
   "theorems": [
    "Verif.Props.Context.ambient_untouched"
   ],
   "note": "For every program run by init or apply, returning or raising, on the machine with explicit frame stack."
  },
  {
   "property": "C02",
   "status": "proved",
   "theorems": [
    "Verif.Props.Params.apply_only_reads",
    "Verif.Props.Params.apply_missing_raises",
    "Verif.Props.Params.existing_returned"
   ],
   "note": "For every program in every reachable apply frame, whatever hooks are active and however it ends."
  },
  {
   "property": "C03",
   "status": "proved",
   "theorems": [
    "Verif.Props.Params.existing_returned",
    "Verif.Props.Params.param_never_changes",
    "Verif.Props.Params.created_once",
    "Verif.Props.Params.reads_agree",
    "Verif.Props.Params.first_request",
    "Verif.Props.State.init_returns"
   ],
   "note": "Over the recorded accesses of every run, including through stateful control flow; the first request and every later one also as exact equations."
  },
  {
   "property": "C04",
   "status": "partial",
   "theorems": [
    "Verif.Props.InitApply.apply_retraces_init_partial",
    "Verif.Props.InitApply.eval_shape_breaks",
    "Verif.Props.InitApply.fori_loop_breaks",
    "Verif.Props.InitApply.scan_breaks",
    "Verif.Props.InitApply.fori_names_break",
    "Verif.Props.InitApply.reverse_scan_breaks",
    "Verif.Props.InitApply.lift_breaks"
   ],
   "note": "Proved (exact output and state) for programs with parameters, state, modules, name scopes, hooks, with_rng, jit, vmap, nested transforms, eval_shape of functions making nothing, cond/switch on branches that do not look at values (with loops inside), non-empty fori_loop and forward scan whose first step keeps structure and constructs no module directly. The conditions on loops and eval_shape are needed (witnesses proved). Not covered: control flow under vmap, and lift, with which the claim fails in general (lift_breaks)."
  },
  {
   "property": "C05",
   "status": "proved",
   "theorems": [
    "Verif.Props.State.initial_and_current",
    "Verif.Props.State.initial_fixed",
    "Verif.Props.State.init_returns",
    "Verif.Props.State.apply_returns"
   ],
   "note": "Every run; what init and apply return is stated over the recorded accesses of the run."
  },
  {
   "property": "C06",
   "status": "proved",
   "theorems": [
    "Verif.Props.State.read_last_write",
    "Verif.Props.State.state_created_when_absent",
    "Verif.Props.State.set_state_writes",
    "Verif.Props.State.get_state_existing",
    "Verif.Props.State.get_state_missing"
   ],
   "note": "Every run, plus exact equations for get_state and set_state."
  },
  {
   "property": "C07",
   "status": "proved",
   "theorems": [
    "Verif.Props.PRNG.keys_never_repeat",
    "Verif.Props.PRNG.held_key_never_handed_out",
    "Verif.Props.PRNG.no_key_split_twice"
   ],
   "note": "All operation sequences on a PRNGSequence; jax.random.split is modelled as a free constructor (distinct inputs give distinct keys)."
  },
  {
   "property": "C08",
   "status": "proved",
   "theorems": [
    "Verif.Props.Rng.keys_distinct",
    "Verif.Props.Rng.caught_key_reused",
    "Verif.Props.Rng.named_call_key_reused",
    "Verif.Props.Rng.eval_shape_key_reused",
    "Verif.Props.Rng.with_rng_key_reused"
   ],
   "note": "Every program meeting the quantifier (Careful), with named calls on or off; handlers may also surround control flow that draws no keys. Each exclusion has a witness: caught_key_reused, named_call_key_reused, eval_shape_key_reused, with_rng_key_reused, while_condition_key_reused (C27)."
  },
  {
   "property": "C09",
   "status": "proved",
   "theorems": [
    "Verif.Props.PRNG.reserve_keeps_delivery",
    "Verif.Props.PRNG.reserve_then_next",
    "Verif.Props.PRNG.take_length",
    "Verif.Props.PRNG.take_reserved_first",
    "Verif.Props.PRNG.take_eq_next",
    "Verif.Props.PRNG.take_nonpos"
   ],
   "note": ""
  },
  {
   "property": "C10",
   "status": "proved",
   "theorems": [
    "Verif.Props.PRNG.snapshot_resume"
   ],
   "note": ""
  },
  {
   "property": "C11",
   "status": "proved",
   "theorems": [
    "Verif.Props.PRNG.reserve_up_to_full_length",
    "Verif.Props.PRNG.dropped_keys_never_handed_out"
   ],
   "note": ""
  },
  {
   "property": "C12",
   "status": "proved",
   "theorems": [
    "Verif.Props.Rng.no_rng_no_key",
    "Verif.Props.Rng.no_rng_no_key_program",
    "Verif.Props.Rng.none_rng_no_key"
   ],
   "note": "Every program not using with_rng; the operations as equations."
  },
  {
   "property": "C13",
   "status": "proved",
   "theorems": [
    "Verif.Props.Names.names_unique"
   ],
   "note": "For every caller, every list of requested names, successes and failures interleaved."
  },
  {
   "property": "C14",
   "status": "proved",
   "theorems": [
    "Verif.Props.Names.auto_never_fails",
    "Verif.Props.Names.numbered_fails_iff"
   ],
   "note": "Both halves; a numeric suffix with leading zeros counts as its value."
  },
  {
   "property": "C15",
   "status": "proved",
   "theorems": [
    "Verif.Props.Names.kth_name"
   ],
   "note": ""
  },
  {
   "property": "C16",
   "status": "proved",
   "theorems": [
    "Verif.Props.Names.full_name_determines_owner"
   ],
   "note": "For every module name reachable by nested constructions and every scope state."
  },
  {
   "property": "C17",
   "status": "partial",
   "theorems": [
    "Verif.Props.Names.validIdentifier_iff",
    "Verif.Props.Names.validIdentifier_accepts_newline",
    "Verif.Props.Names.validIdentifier_iff_partial"
   ],
   "note": "validIdentifier_iff characterises exactly what is accepted; the property fails for an identifier followed by a newline (validIdentifier_accepts_newline), and holds for every other string (validIdentifier_iff_partial)."
  },
  {
   "property": "C18",
   "status": "proved",
   "theorems": [
    "Verif.Props.Context.same_place",
    "Verif.Props.Context.handler_place",
    "Verif.Props.Context.with_rng_restores"
   ],
   "note": ""
  },
  {
   "property": "C19",
   "status": "proved",
   "theorems": [
    "Verif.Props.HookOrder.method_intercepted",
    "Verif.Props.HookOrder.blocks_register",
    "Verif.Props.Hooks.hooks_in_order",
    "Verif.Props.Hooks.chain_is_composition",
    "Verif.Props.Hooks.all_hooks_run",
    "Verif.Props.Hooks.creators_chain",
    "Verif.Props.Hooks.getters_chain",
    "Verif.Props.Hooks.interceptors_chain"
   ],
   "note": "One chain model for creators, getters and interceptors; creators_chain, getters_chain and interceptors_chain tie it to the three runners of the code."
  },
  {
   "property": "C20",
   "status": "partial",
   "theorems": [
    "Verif.Props.Hooks.next_twice_partial",
    "Verif.Props.Hooks.second_next_skips_rest",
    "Verif.Props.Hooks.next_twice_differs"
   ],
   "note": "Violated: a second call of next skips the hooks already run (second_next_skips_rest, next_twice_differs). Holds for the hook registered last (next_twice_partial)."
  },
  {
   "property": "C21",
   "status": "proved",
   "theorems": [
    "Verif.Props.Getters.getters_do_not_store",
    "Verif.Props.Getters.getters_keep_data",
    "Verif.Props.Getters.init_same",
    "Verif.Props.Getters.apply_same"
   ],
   "note": "get_parameter/get_state leave the same data behind for all getters; two programs with the same calls and writes store the same if both return; init and apply corollaries"
  },
  {
   "property": "C22",
   "status": "proved",
   "theorems": [
    "Verif.Props.Control.jit_transparent",
    "Verif.Props.Control.jit_transparent_of_names"
   ],
   "note": "jit, grad, remat and the like share one wrapper in the model; names are put back afterwards, so the worlds agree up to names (equal when the body makes none)."
  },
  {
   "property": "C23",
   "status": "proved",
   "theorems": [
    "Verif.Props.Control.jit_atomic",
    "Verif.Props.Control.switch_atomic",
    "Verif.Props.Control.scan_atomic",
    "Verif.Props.Control.fori_atomic",
    "Verif.Props.Control.vmap_atomic",
    "Verif.Props.Control.while_atomic",
    "Verif.Props.Control.fori_init_atomic"
   ],
   "note": "jit-like wrappers, cond/switch, vmap in any mode; scan, fori_loop and while_loop in apply; fori_loop in init, where the first iteration runs in the enclosing function and only the rest is a transformed region. Module objects and the ghost record of keys handed out remain."
  },
  {
   "property": "C24",
   "status": "proved",
   "theorems": [
    "Verif.Props.Control.switch_is_branch",
    "Verif.Props.Control.cond_is_branch",
    "Verif.Props.Control.switch_returns"
   ],
   "note": ""
  },
  {
   "property": "C25",
   "status": "partial",
   "theorems": [
    "Verif.Props.Control.scan_apply",
    "Verif.Props.Control.scan_apply_returns",
    "Verif.Props.Control.scan_init_partial",
    "Verif.Props.Control.scan_init_reverse_wrong",
    "Verif.Props.Control.scan_init_empty_runs"
   ],
   "note": "Apply: both directions. Init: proved for a non-empty forward scan (scan_init_partial); refuted for reversed outputs (scan_init_reverse_wrong) and for empty scans (scan_init_empty_runs)."
  },
  {
   "property": "C26",
   "status": "partial",
   "theorems": [
    "Verif.Props.Control.fori_apply",
    "Verif.Props.Control.fori_apply_returns",
    "Verif.Props.Control.fori_init_partial",
    "Verif.Props.Control.fori_init_empty_runs"
   ],
   "note": "Apply: both directions. Init: proved for a non-empty range (fori_init_partial); refuted for an empty one (fori_init_empty_runs)."
  },
  {
   "property": "C27",
   "status": "partial",
   "theorems": [
    "Verif.Props.Control.while_apply_partial",
    "Verif.Props.Control.while_init_raises",
    "Verif.Props.Control.while_rejects",
    "Verif.Props.Control.while_stale_condition",
    "Verif.Props.Control.while_condition_key_reused"
   ],
   "note": "Equality with the Python loop is proved (both directions) for conditions that are functions of the loop value; refuted for conditions reading state (while_stale_condition). Rejection is proved for stores and for new keys in the sequence; refuted for a condition consuming an already reserved key (while_condition_key_reused)."
  },
  {
   "property": "C28",
   "status": "proved",
   "theorems": [
    "Verif.Props.Context.eval_shape_no_effect",
    "Verif.Props.Context.eval_shape_result"
   ],
   "note": ""
  },
  {
   "property": "C29",
   "status": "proved",
   "theorems": [
    "Verif.Props.Control.vmap_elementwise"
   ],
   "note": "Non-empty batches. JAX rejects state that depends on the batch syntactically; the model rejects it when the values differ."
  },
  {
   "property": "C30",
   "status": "proved",
   "theorems": [
    "Verif.Props.Diff.difference_update",
    "Verif.Props.Diff.difference_reports",
    "Verif.Props.Diff.difference_reports_rng",
    "Verif.Props.Diff.update_frozen"
   ],
   "note": "For every change test that never misses a change, any order of entries."
  },
  {
   "property": "C31",
   "status": "proved",
   "theorems": [
    "Verif.Props.Diff.no_new_parameters_iff"
   ],
   "note": ""
  },
  {
   "property": "C32",
   "status": "partial",
   "theorems": [
    "Verif.Props.Identity.detects_stores_partial",
    "Verif.Props.Identity.detects_single",
    "Verif.Props.Identity.unchanged_passes",
    "Verif.Props.Identity.pop_not_noticed",
    "Verif.Props.Identity.set_twice_not_noticed",
    "Verif.Props.Identity.shared_array_not_noticed"
   ],
   "note": "On object addresses. The check is exact for stores when no new object gets an address that was in use at the start of the block (detects_stores_partial), and every single state change or split is noticed (detects_single); refuted for taking reserved keys, for setting a state twice with address reuse, and for a new parameter sharing an array."
  },
  {
   "property": "C33",
   "status": "proved",
   "theorems": [
    "Verif.Props.Filtering.filter_entries",
    "Verif.Props.Filtering.partition_entries",
    "Verif.Props.Filtering.partition_dicts",
    "Verif.Props.Filtering.map_entries",
    "Verif.Props.Filtering.merge_entries",
    "Verif.Props.Filtering.merge_only",
    "Verif.Props.Filtering.merge_partition"
   ],
   "note": ""
  },
  {
   "property": "C34",
   "status": "proved",
   "theorems": [
    "Verif.Props.Tree.mutable_immutable",
    "Verif.Props.Tree.mutable_immutable_eq",
    "Verif.Props.Tree.immutable_eq",
    "Verif.Props.Tree.immutable_no_dict",
    "Verif.Props.Tree.immutable_unaffected",
    "Verif.Props.Tree.freezeAt_reads",
    "Verif.Props.Tree.other_mapping_shared"
   ],
   "note": "For trees of dicts, FlatMappings, sequences and leaves, and on a heap with shared cells; a mutable mapping type other than dict and FlatMapping is not copied (other_mapping_shared)."
  },
  {
   "property": "C35",
   "status": "proved",
   "theorems": [
    "Verif.Props.Tree.flatten_unflatten",
    "Verif.Props.Tree.tree_map_lookup",
    "Verif.Props.Tree.tree_map_leaf",
    "Verif.Props.Tree.components_consistent"
   ],
   "note": ""
  },
  {
   "property": "C36",
   "status": "partial",
   "theorems": [
    "Verif.Props.Tree.equal_hash_partial",
    "Verif.Props.Tree.equal_but_hashed_differently"
   ],
   "note": "Violated when a FlatMapping holds dicts (equal_but_hashed_differently); proved for FlatMappings without dicts, as to_immutable_dict builds them (equal_hash_partial)."
  },
  {
   "property": "C37",
   "status": "proved",
   "theorems": [
    "Verif.Props.Lift.pack_stores",
    "Verif.Props.Lift.pack_occupied",
    "Verif.Props.Lift.pack_keeps",
    "Verif.Props.Lift.unpack_returns",
    "Verif.Props.Lift.pack_unpack",
    "Verif.Props.Lift.lift_call_init",
    "Verif.Props.Lift.lift_call_apply"
   ],
   "note": "hk.lift inside a transform: packing, unpacking, round trip, and what the lifted function sees in init and apply."
  },
  {
   "property": "C38",
   "status": "partial",
   "theorems": [
    "Verif.Props.Threads.threads_independent_partial",
    "Verif.Props.Threads.thread_result_partial",
    "Verif.Props.Threads.named_call_leaks",
    "Verif.Props.Threads.others_invisible"
   ],
   "note": "any number of threads, any schedule of atomic steps; every other thread free of profiler_name_scopes, whose global setting leaks (named_call_leaks); the hook of optimize_rng_use is C39"
  },
  {
   "property": "C39",
   "status": "partial",
   "theorems": [
    "Verif.Props.HookThreads.exclusive_partial",
    "Verif.Props.HookThreads.hook_left_behind",
    "Verif.Props.HookThreads.foreign_requests",
    "Verif.Props.HookThreads.single_user_partial"
   ],
   "note": "exclusive counting regions, any number of threads (exclusive_partial); one user of optimize_rng_use, any schedule: hook restored (single_user_partial); the full claim is false of the code (hook_left_behind, foreign_requests)"
  },
  {
   "property": "C40",
   "status": "partial",
   "theorems": [
    "Verif.Props.OptimizeRng.hook_restored",
    "Verif.Props.OptimizeRng.rng_stack_kept",
    "Verif.Props.OptimizeRng.counted_exactly",
    "Verif.Props.OptimizeRng.next_keys_not_counted",
    "Verif.Props.OptimizeRng.no_rng_fails",
    "Verif.Props.OptimizeRng.one_split",
    "Verif.Props.OptimizeRng.keys_distinct",
    "Verif.Props.OptimizeRng.init_fails_after_parameter",
    "Verif.Props.OptimizeRng.apply_fails_in_method"
   ],
   "note": "all functions over the RNG interface; requests = count for repeatable functions under an RNG, one split, distinct keys, hook restored always; false for next_rng_keys/maybe_next_rng_key, without RNG and for some functions with parameters (witnesses)"
  },
  {
   "property": "C41",
   "status": "partial",
   "theorems": [
    "Verif.Props.Transform.transform_apply",
    "Verif.Props.Transform.transform_init",
    "Verif.Props.Transform.state_access_rejected",
    "Verif.Props.Transform.rejected_uses_state",
    "Verif.Props.Transform.failed_lookup_rejected",
    "Verif.Props.Transform.without_apply_rng_none",
    "Verif.Props.Transform.without_apply_rng_kind_partial",
    "Verif.Props.Transform.without_apply_rng_kind_wrong"
   ],
   "note": "without_state and transform follow the property; without_apply_rng(transform(f)) is labelled TransformedWithState (without_apply_rng_kind_wrong), and a function whose only state access fails and is caught is rejected too."
  },
  {
   "property": "C42",
   "status": "partial",
   "theorems": [
    "Verif.Props.Context.nested_isolated_partial",
    "Verif.Props.Context.hooks_leak_into_nested"
   ],
   "note": "Isolation of frames is proved; creators, getters and interceptors of the outer transform leak into the inner one (hooks_leak_into_nested)."
  },
  {
   "property": "C43",
   "status": "proved",
   "theorems": [
    "Verif.Props.Scopes.scope_prefix",
    "Verif.Props.Scopes.scope_prefix_plain",
    "Verif.Props.Scopes.scope_validated",
    "Verif.Props.Scopes.scopes_apart",
    "Verif.Props.Scopes.module_apart"
   ],
   "note": "name_scope is the body run inside nested modules, with all names relative to what a plain module would get; proved for every scope in which modules can be constructed and no interceptor is active"
  },
  {
   "property": "C44",
   "status": "partial",
   "theorems": [
    "Verif.Props.Scopes.resumes",
    "Verif.Props.Scopes.params_kept",
    "Verif.Props.Scopes.state_kept",
    "Verif.Props.Scopes.module_created",
    "Verif.Props.Scopes.entries_apart_partial",
    "Verif.Props.Scopes.numbering_continues",
    "Verif.Props.Scopes.jit_collides"
   ],
   "note": "resumption, kept parameters and state, numbering and non-collision proved for every chain of entries; modules constructed inside hk.jit (and the other wrapped transforms) are not recorded and do collide: proved by jit_collides"
  },
  {
   "property": "C45",
   "status": "partial",
   "theorems": [
    "Verif.Props.Submodules.selects_partial",
    "Verif.Props.Submodules.selects_names",
    "Verif.Props.Submodules.method_recorded",
    "Verif.Props.Submodules.ops_record_nothing",
    "Verif.Props.Submodules.full_names_collide",
    "Verif.Props.Submodules.method_accesses_shown",
    "Verif.Props.Submodules.constructor_accesses_shown",
    "Verif.Props.Submodules.accesses_covered",
    "Verif.Props.Submodules.shown_kept",
    "Verif.Props.Submodules.accessed_in_dict_partial",
    "Verif.Props.Submodules.caught_not_shown",
    "Verif.Props.Submodules.twice_not_shown",
    "Verif.Props.Submodules.lifted_not_shown"
   ],
   "note": "Exact content of params_dict/state_dict for names without a slash, names and soundness for all names; with slashes two parameters may share a full name (full_names_collide). Over whole runs everything accessed while a method runs is shown by the module and by its callers; this fails, with witnesses, for calls that raise and are caught, for super().__init__() called twice, and for lifted parameters seen from callers."
  },
  {
   "property": "C46",
   "status": "partial",
   "theorems": [
    "Verif.Props.Shapes.reshape_keeps",
    "Verif.Props.Shapes.wildcard_unique_partial",
    "Verif.Props.Shapes.wildcard_zero",
    "Verif.Props.Shapes.flatten_rank"
   ],
   "note": "proved: preserved dimensions, element count, Flatten rank; a fitting size for -1 is always found and is unique when the input has elements. For inputs without elements -1 is not unique (wildcard_zero)"
  },
  {
   "property": "C47",
   "status": "partial",
   "theorems": [
    "Verif.Props.Shapes.batch_apply_positions",
    "Verif.Props.Shapes.batch_apply_identity_partial",
    "Verif.Props.Shapes.batch_apply_mixed"
   ],
   "note": "proved when all inputs share the merged dimensions; inputs with other leading dimensions of the same product come back reshaped (batch_apply_mixed)"
  },
  {
   "property": "C48",
   "status": "proved",
   "theorems": [
    "Verif.Props.Conv.pad_sizes",
    "Verif.Props.Conv.string_pads",
    "Verif.Props.Conv.causal_reads_past",
    "Verif.Props.Conv.reverse_causal_reads_future"
   ],
   "note": "any number of dimensions, per-dimension mixtures, dilation and groups"
  },
  {
   "property": "C49",
   "status": "partial",
   "theorems": [
    "Verif.Props.Conv.transposed_shape_partial",
    "Verif.Props.Conv.adjusted_rejects",
    "Verif.Props.Conv.transposed_empty"
   ],
   "note": "proved for non-empty inputs; an input of size 0 can give another output size (transposed_empty)"
  },
  {
   "property": "C50",
   "status": "partial",
   "theorems": [
    "Verif.Props.Pool.infer_int_partial",
    "Verif.Props.Pool.pool_first_axis",
    "Verif.Props.Pool.pool_scalar",
    "Verif.Props.Pool.infer_seq"
   ],
   "note": "proved for rank at least 1 and channel axis other than -ndim, which is rejected although valid (pool_first_axis); scalars get rank 1 (pool_scalar)"
  },
  {
   "property": "C51",
   "status": "proved",
   "theorems": [
    "Verif.Props.Pool.avg_pool_mean",
    "Verif.Props.Pool.avg_pool_constant",
    "Verif.Props.Pool.avg_pool_total"
   ],
   "note": "every rank, over any field"
  },
  {
   "property": "C52",
   "status": "partial",
   "theorems": [
    "Verif.Props.Bias.bias_shape",
    "Verif.Props.Bias.bias_rejects_partial",
    "Verif.Props.Bias.bias_wraps"
   ],
   "note": "proved, except that dimensions below -rank wrap instead of being rejected (bias_wraps)"
  },
  {
   "property": "C53",
   "status": "partial",
   "theorems": [
    "Verif.Props.Ema.ema_hidden",
    "Verif.Props.Ema.ema_value",
    "Verif.Props.Ema.ema_convex",
    "Verif.Props.Ema.ema_constant",
    "Verif.Props.Ema.no_update_partial",
    "Verif.Props.Ema.no_update_creates",
    "Verif.Props.Ema.no_update_invisible",
    "Verif.Props.Ema.ema_stores_average"
   ],
   "note": "closed form, convexity, constants proved for every history; update_stats=False changes no existing entry and no later result, but creates missing entries"
  },
  {
   "property": "C54",
   "status": "proved",
   "theorems": [
    "Verif.Props.Ema.ema_warmup",
    "Verif.Props.Ema.ema_rejects",
    "Verif.Props.Ema.ema_stores_average"
   ],
   "note": ""
  },
  {
   "property": "C55",
   "status": "proved",
   "theorems": [
    "Verif.Props.Recurrent.unrolls_agree",
    "Verif.Props.Recurrent.static_steps",
    "Verif.Props.Recurrent.no_steps",
    "Verif.Props.Recurrent.growing_state",
    "Verif.Props.Recurrent.ragged_inputs"
   ],
   "note": "the core keeps the shapes of its state, as RNNCore demands; outside that the two differ (growing_state, ragged_inputs, no_steps)"
  },
  {
   "property": "C56",
   "status": "partial",
   "theorems": [
    "Verif.Props.Cores.lstm_resets",
    "Verif.Props.Cores.gru_resets",
    "Verif.Props.Reset.reset_segments",
    "Verif.Props.Reset.reset_batched",
    "Verif.Props.Reset.reset_unbatched_partial",
    "Verif.Props.Reset.scalar_state_breaks",
    "Verif.Props.Reset.reset_leafwise",
    "Verif.Props.Reset.reset_rejects"
   ],
   "note": "All cores acting on each batch element by itself, all inputs and reset signals. Missing (false of the code): unbatched states made of scalars only, see scalar_state_breaks."
  },
  {
   "property": "C57",
   "status": "proved",
   "theorems": [
    "Verif.Props.DeepRnn.deep_rnn",
    "Verif.Props.DeepRnn.deep_rnn_skip",
    "Verif.Props.DeepRnn.skip_rejects",
    "Verif.Props.DeepRnn.skip_empty",
    "Verif.Props.DeepRnn.deep_needs_states",
    "Verif.Props.DeepRnn.deep_initial_state",
    "Verif.Props.DeepRnn.concat_pieces",
    "Verif.Props.DeepRnn.concat_nests",
    "Verif.Props.DeepRnn.deep_layerwise"
   ],
   "note": ""
  },
  {
   "property": "C58",
   "status": "proved",
   "theorems": [
    "Verif.Props.Embed.embed_row",
    "Verif.Props.Embed.embed_styles_agree",
    "Verif.Props.Embed.embed_outside",
    "Verif.Props.Embed.embed_accepts",
    "Verif.Props.Embed.embed_make"
   ],
   "note": ""
  },
  {
   "property": "C59",
   "status": "partial",
   "theorems": [
    "Verif.Props.Names.camelToSnake_ident",
    "Verif.Props.Utils.replicate_entries",
    "Verif.Props.Utils.channel_index_partial",
    "Verif.Props.Utils.channel_index_newline"
   ],
   "note": "replicate and camel_to_snake proved; get_channel_index accepts a trailing newline (channel_index_newline)"
  },
  {
   "property": "C60",
   "status": "proved",
   "theorems": [
    "Verif.Props.Mlp.mlp_layers",
    "Verif.Props.Mlp.mlp_succeeds",
    "Verif.Props.Mlp.mlp_scalar",
    "Verif.Props.Mlp.mlp_reverse",
    "Verif.Props.Mlp.reverse_too_early"
   ],
   "note": "exact arithmetic"
  },
  {
   "property": "C61",
   "status": "proved",
   "theorems": [
    "Verif.Props.Mlp.dropout_rejects",
    "Verif.Props.Mlp.dropout_zero",
    "Verif.Props.Mlp.dropout_elements",
    "Verif.Props.Mlp.dropout_mean"
   ],
   "note": "exact arithmetic; expectation over any finite distribution of keys"
  },
  {
   "property": "C62",
   "status": "proved",
   "theorems": [
    "Verif.Props.Pool.max_pool_largest"
   ],
   "note": "every rank, over any linear order with a least element"
  },
  {
   "property": "C63",
   "status": "proved",
   "theorems": [
    "Verif.Props.Mlp.mlp_dropout_args",
    "Verif.Props.Mlp.mlp_dropout"
   ],
   "note": "exact arithmetic, ideal key splitting"
  },
  {
   "property": "C64",
   "status": "proved",
   "theorems": [
    "Verif.Props.Norm.layer_norm_formula",
    "Verif.Props.Norm.layer_norm_stats",
    "Verif.Props.Norm.layer_norm_slicewise"
   ],
   "note": ""
  },
  {
   "property": "C65",
   "status": "partial",
   "theorems": [
    "Verif.Props.Norm.instance_norm_partial",
    "Verif.Props.Norm.instance_norm_scale_wrong"
   ],
   "note": "Statistics proved for both formats. With the channels on axis 1 the own scale and offset are not per channel (instance_norm_scale_wrong)."
  },
  {
   "property": "C66",
   "status": "proved",
   "theorems": [
    "Verif.Props.BatchNorm.batch_norm_batch",
    "Verif.Props.BatchNorm.batch_norm_channels"
   ],
   "note": ""
  },
  {
   "property": "C67",
   "status": "proved",
   "theorems": [
    "Verif.Props.BatchNorm.batch_norm_test"
   ],
   "note": ""
  },
  {
   "property": "C68",
   "status": "proved",
   "theorems": [
    "Verif.Props.BatchNorm.batch_norm_averages"
   ],
   "note": ""
  },
  {
   "property": "C69",
   "status": "partial",
   "theorems": [
    "Verif.Props.BatchNorm.own_shape_partial",
    "Verif.Props.BatchNorm.negative_axis_shape"
   ],
   "note": "Proved for axes that are not negative; false for negative axes (negative_axis_shape)."
  },
  {
   "property": "C70",
   "status": "partial",
   "theorems": [
    "Verif.Props.GroupNorm.group_norm_partial",
    "Verif.Props.GroupNorm.group_norm_shape_wrong"
   ],
   "note": "Proved when only the first size changes between calls and axes are not negative; false otherwise (group_norm_shape_wrong)."
  },
  {
   "property": "C71",
   "status": "partial",
   "theorems": [
    "Verif.Props.GroupNorm.group_norm_partial",
    "Verif.Props.GroupNorm.group_norm_per_channel",
    "Verif.Props.GroupNorm.group_norm_negative_axis"
   ],
   "note": "Proved for axes that are not negative; false for negative axes (group_norm_negative_axis)."
  },
  {
   "property": "C72",
   "status": "proved",
   "theorems": [
    "Verif.Props.ConvT.transposed_adjoint"
   ],
   "note": ""
  },
  {
   "property": "C73",
   "status": "proved",
   "theorems": [
    "Verif.Props.VQ.vq_nearest"
   ],
   "note": ""
  },
  {
   "property": "C74",
   "status": "partial",
   "theorems": [
    "Verif.Props.VQ.vq_rejects_partial",
    "Verif.Props.VQ.vq_empty_shape"
   ],
   "note": "inputs without elements can be accepted and change shape, see vq_empty_shape"
  },
  {
   "property": "C75",
   "status": "proved",
   "theorems": [
    "Verif.Props.VQ.perplexity_bounds",
    "Verif.Props.VQ.perplexity_least"
   ],
   "note": ""
  },
  {
   "property": "C76",
   "status": "proved",
   "theorems": [
    "Verif.Props.VQ.vq_ema_eval",
    "Verif.Props.VQ.vq_ema_forward",
    "Verif.Props.VQ.vq_ema_range",
    "Verif.Props.VQ.vq_ema_learns"
   ],
   "note": ""
  },
  {
   "property": "C77",
   "status": "proved",
   "theorems": [
    "Verif.Props.VQ.vq_ema_between",
    "Verif.Props.VQ.vq_ema_unused"
   ],
   "note": ""
  },
  {
   "property": "C78",
   "status": "proved",
   "theorems": [
    "Verif.Props.Spectral.spectral_norm_estimate"
   ],
   "note": ""
  },
  {
   "property": "C79",
   "status": "proved",
   "theorems": [
    "Verif.Props.Spectral.spectral_norm_monotone",
    "Verif.Props.Spectral.spectral_norm_more_steps"
   ],
   "note": ""
  },
  {
   "property": "C80",
   "status": "partial",
   "theorems": [
    "Verif.Props.Spectral.spectral_norm_scalar",
    "Verif.Props.Spectral.spectral_norm_flag",
    "Verif.Props.Spectral.spectral_norm_accepts_partial"
   ],
   "note": "scalars raise instead of being returned; without steps the call fails with a NameError"
  },
  {
   "property": "C81",
   "status": "proved",
   "theorems": [
    "Verif.Props.Camel.camelToSnake_words"
   ],
   "note": ""
  },
  {
   "property": "C82",
   "status": "partial",
   "theorems": [
    "Verif.Props.PTree.tree_same_order",
    "Verif.Props.PTree.tree_any_order_partial",
    "Verif.Props.PTree.tree_succeeds_partial",
    "Verif.Props.PTree.ema_tree_same_order",
    "Verif.Props.PTree.ema_tree_any_order_partial",
    "Verif.Props.PTree.usual_apart",
    "Verif.Props.PTree.usual_modules_apart",
    "Verif.Props.PTree.ema_tree_order_swaps",
    "Verif.Props.PTree.ema_tree_rejects"
   ],
   "note": "if the order of the trees changes, only for parameters whose mangled names differ, are identifiers and do not end in a number; otherwise averages can be swapped or the call fails (ema_tree_order_swaps, ema_tree_rejects)"
  },
  {
   "property": "C83",
   "status": "partial",
   "theorems": [
    "Verif.Props.PTree.usual_modules_apart",
    "Verif.Props.PTree.sn_tree_vector",
    "Verif.Props.PTree.sn_tree_normalised"
   ],
   "note": "fails on every tree with a scalar or vector that is not ignored (sn_tree_vector); for calls that succeed the claim is proved"
  },
  {
   "property": "C84",
   "status": "proved",
   "theorems": [
    "Verif.Props.Cores.lstm_equations",
    "Verif.Props.Cores.gru_equations",
    "Verif.Props.Cores.rnn_equations",
    "Verif.Props.Cores.rank_rejected",
    "Verif.Props.Cores.lstm_batch_rejected"
   ],
   "note": ""
  },
  {
   "property": "C85",
   "status": "proved",
   "theorems": [
    "Verif.Props.Cores.lstm_batch",
    "Verif.Props.Cores.gru_batch",
    "Verif.Props.Cores.rnn_batch",
    "Verif.Props.Cores.lstm_acts",
    "Verif.Props.Cores.gru_acts",
    "Verif.Props.Cores.lstm_resets",
    "Verif.Props.Cores.gru_resets"
   ],
   "note": ""
  },
  {
   "property": "C86",
   "status": "proved",
   "theorems": [
    "Verif.Props.Cores.lstm_bounded",
    "Verif.Props.Cores.gru_bounded",
    "Verif.Props.Cores.rnn_nonneg",
    "Verif.Props.Cores.lstm_from_initial",
    "Verif.Props.Cores.gru_from_initial"
   ],
   "note": ""
  },
  {
   "property": "C87",
   "status": "partial",
   "theorems": [
    "Verif.Props.Cores.lstm_keeps",
    "Verif.Props.Cores.lstm_unrolls_agree",
    "Verif.Props.Cores.gru_keeps_partial",
    "Verif.Props.Cores.rnn_keeps_partial",
    "Verif.Props.Cores.unrolls_agree_partial",
    "Verif.Props.Cores.identity_unrolls",
    "Verif.Props.Cores.unbatched_state_grows"
   ],
   "note": "for GRU and VanillaRNN only if the state has the leading axes of the inputs; otherwise the state grows and dynamic_unroll raises (unbatched_state_grows)"
  },
  {
   "property": "C88",
   "status": "proved",
   "theorems": [
    "Verif.Props.Attention.attention_equations"
   ],
   "note": ""
  },
  {
   "property": "C89",
   "status": "proved",
   "theorems": [
    "Verif.Props.Attention.attention_average"
   ],
   "note": ""
  },
  {
   "property": "C90",
   "status": "partial",
   "theorems": [
    "Verif.Props.Attention.hidden_ignored_partial",
    "Verif.Props.Attention.causal_partial",
    "Verif.Props.Attention.all_hidden",
    "Verif.Props.Attention.hidden_small"
   ],
   "note": "for queries that see some key and dot products that differ by less than about 1e10, and exponentials rounded to 0; a query that sees no key attends as if there were no mask (`all_hidden`)"
  },
  {
   "property": "C91",
   "status": "partial",
   "theorems": [
    "Verif.Props.Attention.separate_partial",
    "Verif.Props.Attention.batch_of_one_mixes"
   ],
   "note": "for equal batch sizes of queries, keys and values; a query of batch size 1 with more keys mixes queries (`batch_of_one_mixes`)"
  },
  {
   "property": "C92",
   "status": "proved",
   "theorems": [
    "Verif.Props.Attention.order_irrelevant"
   ],
   "note": ""
  },
  {
   "property": "C93",
   "status": "proved",
   "theorems": [
    "Verif.Props.Attention.clash_rejected",
    "Verif.Props.Attention.value_clash_rejected",
    "Verif.Props.Attention.batch_of_one_mixes"
   ],
   "note": ""
  },
  {
   "property": "C94",
   "status": "proved",
   "theorems": [
    "Verif.Props.Initializers.variance_scaling",
    "Verif.Props.Initializers.variance_scaling_bounds",
    "Verif.Props.Initializers.variance_scaling_rejects"
   ],
   "note": ""
  },
  {
   "property": "C95",
   "status": "proved",
   "theorems": [
    "Verif.Props.Initializers.random_uniform_bounds",
    "Verif.Props.Initializers.truncated_normal_bounds",
    "Verif.Props.Initializers.uniform_scaling_bounds",
    "Verif.Props.Initializers.uniform_scaling_negative",
    "Verif.Props.Initializers.default_weights_bounds",
    "Verif.Props.Initializers.samples_scaled"
   ],
   "note": ""
  },
  {
   "property": "C96",
   "status": "partial",
   "theorems": [
    "Verif.Props.Initializers.orthogonal_partial",
    "Verif.Props.Initializers.orthogonal_zero_diagonal",
    "Verif.Props.Initializers.orthogonal_rejects"
   ],
   "note": "when the QR decomposition of the sample has orthonormal columns and no zero on the diagonal of R; with a zero there the row or column is zero (`orthogonal_zero_diagonal`)"
  },
  {
   "property": "C97",
   "status": "proved",
   "theorems": [
    "Verif.Props.Initializers.identity_diagonal",
    "Verif.Props.Initializers.identity_rejects",
    "Verif.Props.Initializers.constant_fills"
   ],
   "note": ""
  },
  {
   "property": "C98",
   "status": "proved",
   "theorems": [
    "Verif.Props.Initializers.random_draw_one",
    "Verif.Props.Initializers.deterministic_draw_none"
   ],
   "note": ""
  },
  {
   "property": "C99",
   "status": "proved",
   "theorems": [
    "Verif.Props.Basic.multinomial_inverse",
    "Verif.Props.Basic.drawn_unique",
    "Verif.Props.Basic.multinomial_rejects"
   ],
   "note": ""
  },
  {
   "property": "C100",
   "status": "partial",
   "theorems": [
    "Verif.Props.Basic.multinomial_possible_partial",
    "Verif.Props.Basic.multinomial_zero"
   ],
   "note": "for positive uniform numbers; the uniform number 0 draws the first category whatever its probability (`multinomial_zero`)"
  },
  {
   "property": "C101",
   "status": "proved",
   "theorems": [
    "Verif.Props.Basic.sequential_chain",
    "Verif.Props.Basic.sequential_append",
    "Verif.Props.Basic.sequential_empty_first"
   ],
   "note": ""
  },
  {
   "property": "C102",
   "status": "proved",
   "theorems": [
    "Verif.Props.Basic.expand_apply_slices",
    "Verif.Props.Basic.expand_apply_identity",
    "Verif.Props.Basic.expand_apply_rejects"
   ],
   "note": ""
  },
  {
   "property": "C103",
   "status": "proved",
   "theorems": [
    "Verif.Props.Basic.one_hot_selects"
   ],
   "note": ""
  },
  {
   "property": "C104",
   "status": "proved",
   "theorems": [
    "Verif.Props.ConvArr.batch_examples",
    "Verif.Props.ConvArr.batch_computes",
    "Verif.Props.ConvArr.data_format",
    "Verif.Props.ConvArr.call_rejects"
   ],
   "note": ""
  },
  {
   "property": "C105",
   "status": "proved",
   "theorems": [
    "Verif.Props.ConvArr.mask_hides",
    "Verif.Props.ConvArr.mask_rejects"
   ],
   "note": ""
  },
  {
   "property": "C106",
   "status": "proved",
   "theorems": [
    "Verif.Props.Depthwise.depthwise_computes",
    "Verif.Props.Depthwise.depthwise_separate",
    "Verif.Props.Depthwise.depthwise_grouped"
   ],
   "note": ""
  },
  {
   "property": "C107",
   "status": "partial",
   "theorems": [
    "Verif.Props.Depthwise.separable_product_partial",
    "Verif.Props.Depthwise.separable_stride",
    "Verif.Props.Depthwise.separable_padding"
   ],
   "note": "for padding strings and stride 1 along the second axis; false for other strides (`separable_stride`) and for explicit paddings (`separable_padding`)"
  },
  {
   "property": "C108",
   "status": "partial",
   "theorems": [
    "Verif.Props.ConvLSTM.equations",
    "Verif.Props.ConvLSTM.step_bounded",
    "Verif.Props.ConvLSTM.from_initial_partial",
    "Verif.Props.ConvLSTM.initial_documented"
   ],
   "note": "`initial_state` fits when `input_shape` holds the spatial sizes only; with the documented `input_shape` a step on a batch raises (`initial_documented`)"
  },
  {
   "property": "C109",
   "status": "proved",
   "theorems": [
    "Verif.Props.ConvShift.valid_shift"
   ],
   "note": ""
  },
  {
   "property": "C110",
   "status": "proved",
   "theorems": [
    "Verif.Props.ConvShift.groups_separate"
   ],
   "note": ""
  },
  {
   "property": "C111",
   "status": "proved",
   "theorems": [
    "Verif.Props.ConvShift.linear_input",
    "Verif.Props.ConvShift.linear_weights"
   ],
   "note": ""
  },
  {
   "property": "C112",
   "status": "partial",
   "theorems": [
    "Verif.Props.Summarise.summary_calls",
    "Verif.Props.Summarise.summary_iff",
    "Verif.Props.Summarise.gap_iff",
    "Verif.Props.Summarise.records_partial",
    "Verif.Props.Summarise.call_stack_documented",
    "Verif.Props.Summarise.caught_leaves_gap"
   ],
   "note": "Proved when no method raises; a caught exception leaves None, and the call stack includes the call itself, against the documentation."
  },
  {
   "property": "C113",
   "status": "partial",
   "theorems": [
    "Verif.Props.Summarise.params_exact_partial",
    "Verif.Props.Summarise.params_complete",
    "Verif.Props.Summarise.params_sound",
    "Verif.Props.Summarise.params_of_caller"
   ],
   "note": "Fails when a calling module owns parameters: the summary itself registers callers as submodules. Proved when callers own none."
  },
  {
   "property": "C114",
   "status": "partial",
   "theorems": [
    "Verif.Props.Tabulate.tabulate_rejects",
    "Verif.Props.Tabulate.tabulate_rows",
    "Verif.Props.Tabulate.tabulate_total_partial",
    "Verif.Props.Tabulate.tabulate_fails"
   ],
   "note": "Rejection and rows proved; making the table fails for functions that catch an exception of a method."
  },
  {
   "property": "C115",
   "status": "partial",
   "theorems": [
    "Verif.Props.Tabulate.owned_params_partial",
    "Verif.Props.Tabulate.owned_slash"
   ],
   "note": "Fails for parameter names with a slash."
  },
  {
   "property": "C116",
   "status": "proved",
   "theorems": [
    "Verif.Props.Tabulate.format_bytes_spec",
    "Verif.Props.Tabulate.shows_thousand"
   ],
   "note": ""
  },
  {
   "property": "C117",
   "status": "proved",
   "theorems": [
    "Verif.Props.Tabulate.format_array_inj",
    "Verif.Props.Tabulate.format_array_text",
    "Verif.Props.Tabulate.thousands_value",
    "Verif.Props.Tabulate.thousands_groups"
   ],
   "note": ""
  },
  {
   "property": "C118",
   "status": "proved",
   "theorems": [
    "Verif.Props.ResNet.net_runs",
    "Verif.Props.ResNet.net_asks",
    "Verif.Props.ResNet.net_trains",
    "Verif.Props.ResNet.standard_fits",
    "Verif.Props.ResNet.standard_depth"
   ],
   "note": ""
  },
  {
   "property": "C119",
   "status": "proved",
   "theorems": [
    "Verif.Props.ResNet.make_iff",
    "Verif.Props.ResNet.bare_block",
    "Verif.Props.ResNet.bare_stride_two"
   ],
   "note": "The theorems say exactly when `ResNet.__init__` and a block without projection succeed; see the end of DESIGN.md for the cases where this is surprising."
  },
  {
   "property": "C120",
   "status": "proved",
   "theorems": [
    "Verif.Props.ResNet.zero_block",
    "Verif.Props.ResNet.zero_logits"
   ],
   "note": ""
  },
  {
   "property": "C121",
   "status": "proved",
   "theorems": [
    "Verif.Props.ResNet.net_trains",
    "Verif.Props.ResNet.eval_examples",
    "Verif.Props.ResNet.train_order"
   ],
   "note": ""
  },
  {
   "property": "C122",
   "status": "proved",
   "theorems": [
    "Verif.Props.ResNet.net_nodup",
    "Verif.Props.ResNet.net_asks",
    "Verif.Props.ResNet.params_nodup"
   ],
   "note": ""
  },
  {
   "property": "C123",
   "status": "proved",
   "theorems": [
    "Verif.Props.MobileNet.make_iff",
    "Verif.Props.MobileNet.net_runs",
    "Verif.Props.MobileNet.net_asks",
    "Verif.Props.MobileNet.net_runs_iff"
   ],
   "note": ""
  },
  {
   "property": "C124",
   "status": "proved",
   "theorems": [
    "Verif.Props.MobileNet.net_computes",
    "Verif.Props.MobileNet.block_computes"
   ],
   "note": ""
  },
  {
   "property": "C125",
   "status": "proved",
   "theorems": [
    "Verif.Props.MobileNet.net_learns",
    "Verif.Props.MobileNet.first_averages",
    "Verif.Props.MobileNet.net_trains",
    "Verif.Props.MobileNet.eval_examples",
    "Verif.Props.MobileNet.train_order"
   ],
   "note": ""
  },
  {
   "property": "C126",
   "status": "proved",
   "theorems": [
    "Verif.Props.MobileNet.net_nodup",
    "Verif.Props.MobileNet.params_nodup",
    "Verif.Props.MobileNet.net_asks"
   ],
   "note": ""
  },
  {
   "property": "C127",
   "status": "proved",
   "theorems": [
    "Verif.Props.MobileNet.features",
    "Verif.Props.MobileNet.averages_shape",
    "Verif.Props.MobileNet.standard_features"
   ],
   "note": ""
  },
  {
   "property": "C128",
   "status": "proved",
   "theorems": [
    "Verif.Props.ResNet.block_computes",
    "Verif.Props.ResNet.net_computes",
    "Verif.Props.ResNet.pool_greatest"
   ],
   "note": ""
  },
  {
   "property": "C129",
   "status": "proved",
   "theorems": [
    "Verif.Props.ResNet.block_learns",
    "Verif.Props.ResNet.net_learns",
    "Verif.Props.ResNet.first_averages"
   ],
   "note": ""
  },
  {
   "property": "C130",
   "status": "proved",
   "theorems": [
    "Verif.Props.Dot.to_graph_records",
    "Verif.Props.Dot.every_operation"
   ],
   "note": ""
  },
  {
   "property": "C131",
   "status": "proved",
   "theorems": [
    "Verif.Props.Dot.to_dot_restores",
    "Verif.Props.Dot.to_dot_titles"
   ],
   "note": ""
  },
  {
   "property": "C132",
   "status": "proved",
   "theorems": [
    "Verif.Props.Dot.clusters_nested",
    "Verif.Props.Dot.fonts_shrink"
   ],
   "note": ""
  },
  {
   "property": "C133",
   "status": "proved",
   "theorems": [
    "Verif.Props.Dot.edges_drawn",
    "Verif.Props.Dot.edge_copies",
    "Verif.Props.Dot.every_operand"
   ],
   "note": ""
  },
  {
   "property": "C134",
   "status": "partial",
   "theorems": [
    "Verif.Props.Dot.edges_join_partial",
    "Verif.Props.Dot.second_value"
   ],
   "note": "false in the code for the second and later values that an operation returns (second_value); edges_join_partial states exactly which edges start at a declared node"
  },
  {
   "property": "C135",
   "status": "partial",
   "theorems": [
    "Verif.Props.Dot.declared_once_partial",
    "Verif.Props.Dot.captured_twice",
    "Verif.Props.Dot.passed_twice"
   ],
   "note": "false in the code for captured values used more than once (captured_twice) and objects passed more than once (passed_twice)"
  },
  {
   "property": "C136",
   "status": "partial",
   "theorems": [
    "Verif.Props.Dot.name_texts",
    "Verif.Props.Dot.names_differ_partial",
    "Verif.Props.Dot.names_collide",
    "Verif.Props.Dot.cluster_names"
   ],
   "note": "false in the code if addresses have different numbers of digits (names_collide); proved for addresses with equally many digits, and for clusters"
  },
  {
   "property": "C137",
   "status": "partial",
   "theorems": [
    "Verif.Props.Dot.title_reads",
    "Verif.Props.Dot.escape_safe",
    "Verif.Props.Dot.node_reads_partial",
    "Verif.Props.Dot.arg_reads_partial",
    "Verif.Props.Dot.capture_reads_partial",
    "Verif.Props.Dot.key_lost"
   ],
   "note": "false in the code for keys of arguments after the first (key_lost), and for the reprs and elements that are not escaped; proved for all titles, and for operations, arguments and captured values if these parts have no special characters"
  },
  {
   "property": "C138",
   "status": "partial",
   "theorems": [
    "Verif.Props.Dot.outputs_marked_partial",
    "Verif.Props.Dot.output_unmarked"
   ],
   "note": "false in the code for values that are not the first an operation returns (output_unmarked), and arguments returned as they are; outputs_marked_partial states exactly which are marked and how"
  },
  {
   "property": "C139",
   "status": "proved",
   "theorems": [
    "Verif.Props.Dot.drawing_total"
   ],
   "note": ""
  },
  {
   "property": "C140",
   "status": "partial",
   "theorems": [
    "Verif.Props.Transformer.causal_partial",
    "Verif.Props.Transformer.padding_first_sees_all",
    "Verif.Props.Transformer.padding_first_leaks"
   ],
   "note": "Proved for positions with a real token at or before them, an exponential function that is 0 for very negative numbers, and attention weights for which scores stay below half of 1e10. False otherwise: `padding_first_sees_all`, `padding_first_leaks`."
  },
  {
   "property": "C141",
   "status": "proved",
   "theorems": [
    "Verif.Props.Transformer.forward_equations",
    "Verif.Props.Transformer.width_rejected",
    "Verif.Props.Transformer.no_layers_rejected",
    "Verif.Props.Transformer.evaluation_deterministic"
   ],
   "note": "Parameters are given with the shapes that the modules ask for; a width of 1 is broadcast by the first layer instead of rejected."
  },
  {
   "property": "C142",
   "status": "proved",
   "theorems": [
    "Verif.Props.Transformer.loss_cross_entropy",
    "Verif.Props.Transformer.padding_ignored"
   ],
   "note": "For an exponential function that is 0 for very negative numbers (independence of padding), and for one with the laws of the exponential function (cross-entropy). Without any real token the code divides by 0, which is an error in the model."
  },
  {
   "property": "C143",
   "status": "proved",
   "theorems": [
    "Verif.Props.Bias.bias_adds",
    "Verif.Props.Bias.bias_undone",
    "Verif.Props.Bias.bias_shared",
    "Verif.Props.Bias.bias_accepts",
    "Verif.Props.Bias.list_size_rejected",
    "Verif.Props.Bias.multiplier_widens"
   ],
   "note": "The size the module was made for has to be a tuple: a list is never taken (`list_size_rejected`)."
  },
  {
   "property": "C144",
   "status": "proved",
   "theorems": [
    "Verif.Props.Pruning.topk_binary",
    "Verif.Props.Pruning.topk_count",
    "Verif.Props.Pruning.topk_largest",
    "Verif.Props.Pruning.topk_nested",
    "Verif.Props.Pruning.topk_all",
    "Verif.Props.Pruning.topk_none",
    "Verif.Props.Pruning.ties_unbiased"
   ],
   "note": "`argsort` and `shuffle` are assumed to return orders of the positions, `argsort` an ascending one; exact arithmetic."
  },
  {
   "property": "C145",
   "status": "proved",
   "theorems": [
    "Verif.Props.Pruning.parts_entries",
    "Verif.Props.Pruning.parts_dicts",
    "Verif.Props.Pruning.apply_entries",
    "Verif.Props.Pruning.apply_masks",
    "Verif.Props.Pruning.missing_mask_drops",
    "Verif.Props.Pruning.apply_idempotent",
    "Verif.Props.Pruning.update_fits",
    "Verif.Props.Pruning.update_prunes",
    "Verif.Props.Pruning.fraction_zero",
    "Verif.Props.Pruning.sparsity_report",
    "Verif.Props.Pruning.pruned_zeros",
    "Verif.Props.Pruning.matching_iff",
    "Verif.Props.Pruning.matching_shape"
   ],
   "note": "Hypothesis: one mask for each predicate, as `update_mask` makes; with fewer masks parameters are dropped without an error (`missing_mask_drops`)."
  },
  {
   "property": "C146",
   "status": "proved",
   "theorems": [
    "Verif.Props.Pruning.step_equations",
    "Verif.Props.Pruning.start_good",
    "Verif.Props.Pruning.loop_runs",
    "Verif.Props.Pruning.masked_frozen",
    "Verif.Props.Pruning.masks_of_last_update"
   ],
   "note": "The optimiser is any function that returns updates of the names and shapes of the parameters; predicates look at names and shapes only, as those of the example do."
  },
  {
   "property": "C147",
   "status": "partial",
   "theorems": [
    "Verif.Props.Pruning.schedule_partial",
    "Verif.Props.Pruning.not_done_at_8000",
    "Verif.Props.Pruning.density_falls",
    "Verif.Props.Pruning.final_masks"
   ],
   "note": "The fraction reaches 1 at iteration 9000, not 8000 (`not_done_at_8000`: it is 511/512 there); the rest of the claim is proved."
  },
  {
   "property": "C148",
   "status": "proved",
   "theorems": [
    "Verif.Props.ImpalaLite.batches_ordered",
    "Verif.Props.ImpalaLite.used_once",
    "Verif.Props.ImpalaLite.no_deadlock",
    "Verif.Props.ImpalaLite.bounded_runs",
    "Verif.Props.ImpalaLite.final_state",
    "Verif.Props.ImpalaLite.runs_end"
   ],
   "note": "Accesses to the queue and to the parameters are atomic; what is inside a trajectory is left out."
  },
  {
   "property": "C149",
   "status": "proved",
   "theorems": [
    "Verif.Props.Impala.pipeline_ordered",
    "Verif.Props.Impala.versions_causal"
   ],
   "note": "Accesses to queues, flags and parameters are atomic; what is inside a trajectory is left out."
  },
  {
   "property": "C150",
   "status": "partial",
   "theorems": [
    "Verif.Props.Impala.hangs_iff",
    "Verif.Props.Impala.always_returns",
    "Verif.Props.Impala.few_trajectories_return_partial",
    "Verif.Props.Impala.learner_can_hang"
   ],
   "note": "The code falsifies the claim: after the last update the worker may block for ever in `put` on the second queue (`learner_can_hang`). Proved: exactly when this happens, and that it does not happen with fewer than two batches more than iterations."
  },
  {
   "property": "C151",
   "status": "partial",
   "theorems": [
    "Verif.Props.Impala.main_hangs_iff",
    "Verif.Props.Impala.main_can_hang",
    "Verif.Props.Impala.main_ends_partial"
   ],
   "note": "The code falsifies the claim: an actor may block for ever in `put` on the first queue, which nobody reads any more (`main_can_hang`). Proved: exactly when this happens."
  },
  {
   "property": "C152",
   "status": "proved",
   "theorems": [
    "Verif.Props.ImpalaActor.windows",
    "Verif.Props.ImpalaActor.whole_length",
    "Verif.Props.ImpalaActor.preprocess_eq",
    "Verif.Props.ImpalaActor.trajectories_tile",
    "Verif.Props.ImpalaActor.keys_distinct",
    "Verif.Props.ImpalaActor.params_of_transitions",
    "Verif.Props.ImpalaActor.learner_repeats"
   ],
   "note": "The environment gives a reward with every last step, as `dm_env` asks for; otherwise the actor stops (C153). The network acts on the elements of a batch one by one."
  },
  {
   "property": "C153",
   "status": "proved",
   "theorems": [
    "Verif.Props.ImpalaActor.returns_logged",
    "Verif.Props.ImpalaActor.episodes_unique",
    "Verif.Props.ImpalaActor.last_needs_reward"
   ],
   "note": "Rewards are elements of a field, without rounding."
  },
  {
   "property": "C154",
   "status": "proved",
   "theorems": [
    "Verif.Props.ImpalaLoss.loss_sums",
    "Verif.Props.ImpalaLoss.row_at",
    "Verif.Props.ImpalaLoss.clip_reward",
    "Verif.Props.ImpalaLoss.rows_length",
    "Verif.Props.ImpalaLoss.loss_reads"
   ],
   "note": "Over a field of characteristic 0, without rounding; `rlax` functions other than V-trace are any functions, means over time are means."
  },
  {
   "property": "C155",
   "status": "proved",
   "theorems": [
    "Verif.Props.ImpalaLoss.fits_rows",
    "Verif.Props.ImpalaLoss.vtrace_sum",
    "Verif.Props.ImpalaLoss.on_policy",
    "Verif.Props.ImpalaLoss.on_policy_ratios"
   ],
   "note": "V-trace as `rlax.vtrace_td_error_and_advantage` computes it, which is not part of the repository; without rounding."
  },
  {
   "property": "C156",
   "status": "partial",
   "theorems": [
    "Verif.Props.ImpalaLoss.episodes_apart_partial",
    "Verif.Props.ImpalaLoss.truncation_leaks"
   ],
   "note": "True if the episode ends with discount 0 (`episodes_apart_partial`). The code falsifies the claim for episodes that end with another discount, as with `dm_env.truncation`: the step before the end is not masked, and its target uses the value of the first step of the next episode (`truncation_leaks`)."
  },
  {
   "property": "C157",
   "status": "proved",
   "theorems": [
    "Verif.Props.Vae.kl_gaussian"
   ],
   "note": "exact arithmetic; log is the real logarithm"
  },
  {
   "property": "C158",
   "status": "proved",
   "theorems": [
    "Verif.Props.Vae.binary_cross_entropy"
   ],
   "note": "exact arithmetic; exp and log are the real functions"
  },
  {
   "property": "C159",
   "status": "proved",
   "theorems": [
    "Verif.Props.Vae.loss_value",
    "Verif.Props.Vae.loss_shape",
    "Verif.Props.Vae.image_drawn",
    "Verif.Props.Vae.evidence_lower_bound"
   ],
   "note": "exact arithmetic; jax.random.normal is averaged over independent standard normal numbers"
  },
  {
   "property": "C160",
   "status": "proved",
   "theorems": [
    "Verif.Props.CharRnn.loss_value",
    "Verif.Props.CharRnn.loss_rejects",
    "Verif.Props.CharRnn.prob_causal"
   ],
   "note": "exact arithmetic; exp and log are functions with the laws of exponential and logarithm"
  },
  {
   "property": "C161",
   "status": "proved",
   "theorems": [
    "Verif.Props.CharRnn.prob_sum",
    "Verif.Props.CharRnn.chain_append",
    "Verif.Props.CharRnn.chain_sum",
    "Verif.Props.CharRnn.loss_likelihood",
    "Verif.Props.CharRnn.loss_is_sampling",
    "Verif.Props.CharRnn.data_likelihood"
   ],
   "note": "exact arithmetic, exp and log are the real functions"
  },
  {
   "property": "C162",
   "status": "proved",
   "theorems": [
    "Verif.Props.CharRnn.sample_ancestral",
    "Verif.Props.CharRnn.subkeys_distinct",
    "Verif.Props.CharRnn.sample_iff",
    "Verif.Props.CharRnn.sample_prefix",
    "Verif.Props.CharRnn.sample_decodes",
    "Verif.Props.CharRnn.sample_rejects",
    "Verif.Props.CharRnn.sample_law",
    "Verif.Props.CharRnn.inverse_exact",
    "Verif.Props.CharRnn.sample_law_inverse"
   ],
   "note": "keys of different splits are different terms; for the law the noise of different keys is independent"
  },
  {
   "property": "C163",
   "status": "proved",
   "theorems": [
    "Verif.Props.CharRnn.preprocess_rejects",
    "Verif.Props.CharRnn.chunks_tile",
    "Verif.Props.CharRnn.batches_stream",
    "Verif.Props.CharRnn.batches_epochs",
    "Verif.Props.CharRnn.batch_arrays"
   ],
   "note": "tf.data operations as lists; shuffle is any permutation per epoch"
  },
  {
   "property": "C164",
   "status": "proved",
   "theorems": [
    "Verif.Props.ImageNet.shards_tile",
    "Verif.Props.ImageNet.shards_partition",
    "Verif.Props.ImageNet.shards_too_many",
    "Verif.Props.ImageNet.shard_index",
    "Verif.Props.ImageNet.splits_apart"
   ],
   "note": "np.array_split as documented"
  },
  {
   "property": "C165",
   "status": "proved",
   "theorems": [
    "Verif.Props.ImageNet.lr_warmup",
    "Verif.Props.ImageNet.lr_cosine",
    "Verif.Props.ImageNet.lr_shape",
    "Verif.Props.ImageNet.lr_training"
   ],
   "note": "exact real arithmetic"
  },
  {
   "property": "C166",
   "status": "proved",
   "theorems": [
    "Verif.Props.ImageNet.asked_distribution",
    "Verif.Props.ImageNet.loss_eq",
    "Verif.Props.ImageNet.loss_smoothing",
    "Verif.Props.ImageNet.loss_least",
    "Verif.Props.ImageNet.loss_reached"
   ],
   "note": "exact arithmetic, exp and log are the real functions"
  },
  {
   "property": "C167",
   "status": "proved",
   "theorems": [
    "Verif.Props.ImageNet.step_eq",
    "Verif.Props.ImageNet.loop_agree",
    "Verif.Props.ImageNet.step_mean",
    "Verif.Props.ImageNet.states_differ"
   ],
   "note": "exact arithmetic: the mean of equal lists of gradients is the same on all devices"
  },
  {
   "property": "C168",
   "status": "proved",
   "theorems": [
    "Verif.Props.ImageNet.argmax_spec",
    "Verif.Props.ImageNet.batches_spec",
    "Verif.Props.ImageNet.evaluate_eq",
    "Verif.Props.ImageNet.evaluate_error"
   ],
   "note": "the data set is a list of examples; counts are exact"
  },
  {
   "property": "C169",
   "status": "proved",
   "theorems": [
    "Verif.Props.ImageNet.centerCrop_spec",
    "Verif.Props.ImageNet.transpose_inverse",
    "Verif.Props.ImageNet.trainBatches_get",
    "Verif.Props.ImageNet.trainBatches_once"
   ],
   "note": "7/8 of the side is exact; shuffling is left out: the stream is any"
  },
  {
   "property": "C170",
   "status": "proved",
   "theorems": [
    "Verif.Props.LmTrain.train_step",
    "Verif.Props.LmTrain.reports_steps",
    "Verif.Props.LmTrain.reports_loss",
    "Verif.Props.LmTrain.keys_fresh",
    "Verif.Props.LmTrain.train_descends"
   ],
   "note": "splitting of keys is ideal"
  },
  {
   "property": "C171",
   "status": "proved",
   "theorems": [
    "Verif.Props.LmTrain.states_trained",
    "Verif.Props.LmTrain.files_named",
    "Verif.Props.LmTrain.file_step",
    "Verif.Props.LmTrain.files_stay",
    "Verif.Props.LmTrain.crashes_unseen",
    "Verif.Props.LmTrain.names_distinct",
    "Verif.Props.LmTrain.data_repeats"
   ],
   "note": "a write that was cut short leaves a file that cannot be loaded; the directory holds only the files of this program"
  },
  {
   "property": "C172",
   "status": "partial",
   "theorems": [
    "Verif.Props.LmTrain.names_ordered",
    "Verif.Props.LmTrain.names_unordered",
    "Verif.Props.LmTrain.resume_newest_partial",
    "Verif.Props.LmTrain.loses_at_most_partial",
    "Verif.Props.LmTrain.torn_writing",
    "Verif.Props.LmTrain.restart_succeeds_partial",
    "Verif.Props.LmTrain.torn_stuck",
    "Verif.Props.LmTrain.resume_risks",
    "Verif.Props.LmTrain.any_checkpoint"
   ],
   "note": "proved for sorted listings, fewer than ten million steps and a newest file that is complete; the code falsifies the rest: os.listdir is not sorted (any_checkpoint), a torn newest file makes every start fail (torn_stuck), and a resumed process first empties the file it loaded (resume_risks)"
  },
  {
   "property": "C173",
   "status": "proved",
   "theorems": [
    "Verif.Props.LmTrain.record_length",
    "Verif.Props.LmTrain.record_obs",
    "Verif.Props.LmTrain.record_target",
    "Verif.Props.LmTrain.record_next",
    "Verif.Props.LmTrain.record_counts",
    "Verif.Props.LmTrain.batch_loss"
   ],
   "note": "shuffling is left out; tokens are positive and below the size of the vocabulary"
  },
  {
   "property": "C174",
   "status": "partial",
   "theorems": [
    "Verif.Props.AutoRepr.default_at",
    "Verif.Props.AutoRepr.repr_equivalent_partial",
    "Verif.Props.AutoRepr.varargs_never",
    "Verif.Props.AutoRepr.no_self_never",
    "Verif.Props.AutoRepr.split_join",
    "Verif.Props.AutoRepr.indent_lines",
    "Verif.Props.AutoRepr.indent_indent",
    "Verif.Props.AutoRepr.indent_zero"
   ],
   "note": "proved for constructions that give nothing to *args; otherwise the code falsifies it (varargs_never, no_self_never)"
  },
  {
   "property": "C175",
   "status": "proved",
   "theorems": [
    "Verif.Props.FrozenDict.getitem_new",
    "Verif.Props.FrozenDict.iter_increasing",
    "Verif.Props.FrozenDict.getattr_eq",
    "Verif.Props.FrozenDict.eq_iff",
    "Verif.Props.FrozenDict.eq_hash",
    "Verif.Props.FrozenDict.perm_eq",
    "Verif.Props.FrozenDict.reduced_eq",
    "Verif.Props.FrozenDict.map_leaves",
    "Verif.Props.FrozenDict.flatten_unflatten"
   ],
   "note": "keys of one linearly ordered type, so that sorting does not raise"
  },
  {
   "property": "C176",
   "status": "proved",
   "theorems": [
    "Verif.Props.TestUtils.find_spec",
    "Verif.Props.TestUtils.subclasses_spec",
    "Verif.Props.TestUtils.combined_spec",
    "Verif.Props.TestUtils.combined_nil",
    "Verif.Props.TestUtils.product_order",
    "Verif.Props.TestUtils.bools_spec",
    "Verif.Props.TestUtils.range_spec",
    "Verif.Props.TestUtils.names_collide"
   ],
   "note": "names of modules need not be unique (then the sort fails, which is proved); attributes that are not modules are left out of the model"
  },
  {
   "property": "C177",
   "status": "proved",
   "theorems": [
    "Verif.Props.Mnist.batch_section",
    "Verif.Props.Mnist.batch_whole",
    "Verif.Props.Mnist.batches_cover",
    "Verif.Props.Mnist.loss_eq",
    "Verif.Props.Mnist.loss_nonneg",
    "Verif.Props.Mnist.accuracy_eq"
   ],
   "note": "exact arithmetic; shuffling and reading are not modelled"
  },
  {
   "property": "C178",
   "status": "proved",
   "theorems": [
    "Verif.Props.Mnist.run_state",
    "Verif.Props.Mnist.run_printed",
    "Verif.Props.Mnist.main_printed",
    "Verif.Props.Mnist.averaged_eq",
    "Verif.Props.Mnist.weights_sum",
    "Verif.Props.Mnist.averaged_between"
   ],
   "note": "exact arithmetic; the optimiser keeps the shapes of the parameters"
  },
  {
   "property": "C179",
   "status": "proved",
   "theorems": [
    "Verif.Props.MethodHooks.hooks_balanced",
    "Verif.Props.MethodHooks.call_returns",
    "Verif.Props.MethodHooks.suppressed_unbound"
   ],
   "note": "hooks are state transformers that do not themselves call methods"
  },
  {
   "property": "C180",
   "status": "proved",
   "theorems": [
    "Verif.Props.MethodHooks.call_calm",
    "Verif.Props.MethodHooks.watch_invisible"
   ],
   "note": "hooks are state transformers that do not themselves call methods"
  },
  {
   "property": "C181",
   "status": "proved",
   "theorems": [
    "Verif.Props.ImpalaNets.catch_unroll",
    "Verif.Props.ImpalaNets.atari_unroll",
    "Verif.Props.ImpalaNets.step_cell",
    "Verif.Props.ImpalaNets.batch_repeats"
   ],
   "note": "layers, LSTM and head are any functions of one entry of the batch"
  },
  {
   "property": "C182",
   "status": "proved",
   "theorems": [
    "Verif.Props.ImpalaNets.nets_forget",
    "Verif.Props.ImpalaNets.episodes_alone",
    "Verif.Props.ImpalaNets.calls_keep_time"
   ],
   "note": "the second sentence is a disagreement with what `RNNCore.__call__` promises"
  },
  {
   "property": "C183",
   "status": "proved",
   "theorems": [
    "Verif.Props.ImpalaLiteAgent.loss_mean",
    "Verif.Props.ImpalaLiteAgent.preprocess_same",
    "Verif.Props.ImpalaLiteAgent.step_ok"
   ],
   "note": "exact arithmetic; `rlax` as modelled for C154"
  },
  {
   "property": "C184",
   "status": "proved",
   "theorems": [
    "Verif.Props.ImpalaLiteAgent.windows",
    "Verif.Props.ImpalaLiteAgent.whole_length",
    "Verif.Props.ImpalaLiteAgent.keys_distinct",
    "Verif.Props.ImpalaLiteAgent.init_key_apart"
   ],
   "note": "the environment is a function of its state and the action"
  },
  {
   "property": "C185",
   "status": "proved",
   "theorems": [
    "Verif.Props.Grad.grad_of_plain",
    "Verif.Props.Grad.grad_of_aux",
    "Verif.Props.Grad.grad_raises",
    "Verif.Props.Grad.grad_outside"
   ],
   "note": "the derivative is any operator on the function of the argument; one argument"
  },
  {
   "property": "C186",
   "status": "proved",
   "theorems": [
    "Verif.Props.OriginalFn.original_of_result",
    "Verif.Props.OriginalFn.original_stays",
    "Verif.Props.OriginalFn.original_of_user",
    "Verif.Props.OriginalFn.calls_succeed"
   ],
   "note": "pairs made by the user and functions copied by `functools.wraps` are not modelled"
  },
  {
   "property": "C187",
   "status": "proved",
   "theorems": [
    "Verif.Props.AtariTorso.shallow_is",
    "Verif.Props.AtariTorso.deep_is",
    "Verif.Props.AtariTorso.torso_alone",
    "Verif.Props.AtariTorso.torso_rows",
    "Verif.Props.AtariTorso.shallow_blind"
   ],
   "note": "exact arithmetic; dtypes and initializers not modelled"
  },
  {
   "property": "C188",
   "status": "proved",
   "theorems": [
    "Verif.Props.ToModule.as_scope",
    "Verif.Props.ToModule.new_named",
    "Verif.Props.ToModule.new_raises",
    "Verif.Props.ToModule.lambda_raises",
    "Verif.Props.ToModule.calls_share"
   ],
   "note": "modules_with_named_call and interceptors are excluded by hypothesis; docstrings not modelled"
  },
  {
   "property": "C189",
   "status": "proved",
   "theorems": [
    "Verif.Props.RnnTrain.main_log",
    "Verif.Props.RnnTrain.main_trains",
    "Verif.Props.RnnTrain.main_evals",
    "Verif.Props.RnnTrain.keys_differ",
    "Verif.Props.RnnTrain.keys_handed",
    "Verif.Props.RnnTrain.main_zero"
   ],
   "note": "the network, loss and sampler of the example are those of C160 and C162, here any functions"
  },
  {
   "property": "C190",
   "status": "proved",
   "theorems": [
    "Verif.Props.ImpalaSystem.sequential",
    "Verif.Props.ImpalaSystem.served_together",
    "Verif.Props.ImpalaSystem.batch_next",
    "Verif.Props.ImpalaSystem.data_follows"
   ],
   "note": "the assignment of the pair `_params_for_actor` is one access, as it is in CPython"
  },
  {
   "property": "C191",
   "status": "proved",
   "theorems": [
    "Verif.Props.Stack.init_stack",
    "Verif.Props.Stack.keys_distinct",
    "Verif.Props.Stack.apply_stack",
    "Verif.Props.Stack.apply_init"
   ],
   "note": "names of layers are identifiers without a number at the end, as the names made from class names; initializers draw at most one key"
  },
  {
   "property": "C192",
   "status": "proved",
   "theorems": [
    "Verif.Props.ModuleTree.init_trees",
    "Verif.Props.ModuleTree.names_distinct",
    "Verif.Props.ModuleTree.apply_trees",
    "Verif.Props.ModuleTree.apply_init"
   ],
   "note": "names are identifiers without a number at the end, as the names made from class names; initializers draw at most one key"
  },
  {
   "property": "C193",
   "status": "proved",
   "theorems": [
    "Verif.Props.ImpalaLiteSystem.sequential",
    "Verif.Props.ImpalaLiteSystem.only_batches_matter",
    "Verif.Props.ImpalaLiteSystem.actor_alone",
    "Verif.Props.ImpalaLiteSystem.actor_runs"
   ],
   "note": ""
  },
  {
   "property": "C194",
   "status": "proved",
   "theorems": [
    "Verif.Props.SharedLayers.init_sequential",
    "Verif.Props.SharedLayers.apply_sequential",
    "Verif.Props.SharedLayers.apply_init",
    "Verif.Props.SharedLayers.init_first_calls",
    "Verif.Props.SharedLayers.entries",
    "Verif.Props.SharedLayers.mnist_init",
    "Verif.Props.SharedLayers.mnist_apply"
   ],
   "note": ""
  },
  {
   "property": "C195",
   "status": "proved",
   "theorems": [
    "Verif.Props.StraightLine.init_program",
    "Verif.Props.StraightLine.apply_program",
    "Verif.Props.StraightLine.apply_init",
    "Verif.Props.StraightLine.first_value",
    "Verif.Props.StraightLine.only_asked",
    "Verif.Props.StraightLine.simple_net_init",
    "Verif.Props.StraightLine.simple_net_apply"
   ],
   "note": ""
  },
  {
   "property": "C196",
   "status": "proved",
   "theorems": [
    "Verif.Props.TransformerProgram.init_transformer",
    "Verif.Props.TransformerProgram.apply_transformer",
    "Verif.Props.TransformerProgram.apply_new",
    "Verif.Props.TransformerProgram.count_params"
   ],
   "note": ""
  },
  {
   "property": "C197",
   "status": "proved",
   "theorems": [
    "Verif.Props.AnyProgram.init_code",
    "Verif.Props.AnyProgram.apply_code",
    "Verif.Props.AnyProgram.apply_more",
    "Verif.Props.AnyProgram.apply_keeps",
    "Verif.Props.AnyProgram.apply_keyless",
    "Verif.Props.AnyProgram.init_keyless"
   ],
   "note": ""
  },
  {
   "property": "C198",
   "status": "proved",
   "theorems": [
    "Verif.Props.BatchNormProgram.init_training",
    "Verif.Props.BatchNormProgram.init_eval",
    "Verif.Props.BatchNormProgram.apply_training",
    "Verif.Props.BatchNormProgram.apply_eval",
    "Verif.Props.BatchNormProgram.apply_local",
    "Verif.Props.BatchNormProgram.trained"
   ],
   "note": ""
  },
  {
   "property": "C199",
   "status": "proved",
   "theorems": [
    "Verif.Props.VaeProgram.vae_init",
    "Verif.Props.VaeProgram.vae_apply",
    "Verif.Props.VaeProgram.draws_distinct"
   ],
   "note": ""
  },
  {
   "property": "C200",
   "status": "proved",
   "theorems": [
    "Verif.Props.TransformAndRun.apply_after_init",
    "Verif.Props.TransformAndRun.run_context",
    "Verif.Props.TransformAndRun.run_code",
    "Verif.Props.TransformAndRun.run_passes",
    "Verif.Props.TransformAndRun.run_raises"
   ],
   "note": ""
  },
  {
   "property": "C201",
   "status": "proved",
   "theorems": [
    "Verif.Props.MlpProgram.mlp_init",
    "Verif.Props.MlpProgram.mlp_apply",
    "Verif.Props.MlpProgram.mlp_dropout",
    "Verif.Props.MlpProgram.mlp_no_key"
   ],
   "note": ""
  },
  {
   "property": "C202",
   "status": "proved",
   "theorems": [
    "Verif.Props.DeepTorsoProgram.torso_init",
    "Verif.Props.DeepTorsoProgram.torso_apply"
   ],
   "note": ""
  },
  {
   "property": "C203",
   "status": "proved",
   "theorems": [
    "Verif.Props.UnrollProgram.lstm_init",
    "Verif.Props.UnrollProgram.lstm_apply",
    "Verif.Props.UnrollProgram.vanilla_init",
    "Verif.Props.UnrollProgram.vanilla_apply",
    "Verif.Props.UnrollProgram.vanilla_single_init",
    "Verif.Props.UnrollProgram.vanilla_single_apply",
    "Verif.Props.UnrollProgram.gru_init",
    "Verif.Props.UnrollProgram.gru_apply"
   ],
   "note": ""
  }
 ]
}