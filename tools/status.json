{
 "C07": {
  "status": "proved",
  "note": "All operation sequences on a PRNGSequence; jax.random.split is modelled as a free constructor (distinct inputs give distinct keys)."
 },
 "C09": {
  "status": "proved",
  "note": ""
 },
 "C10": {
  "status": "proved",
  "note": ""
 },
 "C11": {
  "status": "proved",
  "note": ""
 },
 "C13": {
  "status": "proved",
  "note": "For every caller, every list of requested names, successes and failures interleaved."
 },
 "C14": {
  "status": "proved",
  "note": "Both halves; a numeric suffix with leading zeros counts as its value."
 },
 "C15": {
  "status": "proved",
  "note": ""
 },
 "C16": {
  "status": "proved",
  "note": "For every module name reachable by nested constructions and every scope state."
 },
 "C17": {
  "status": "partial",
  "note": "validIdentifier_iff characterises exactly what is accepted; the property fails for an identifier followed by a newline (validIdentifier_accepts_newline), and holds for every other string (validIdentifier_iff_partial)."
 },
 "C01": {
  "status": "proved",
  "note": "For every program run by init or apply, returning or raising, on the machine with explicit frame stack."
 },
 "C18": {
  "status": "proved",
  "note": ""
 },
 "C22": {
  "status": "proved",
  "note": "jit, grad, remat and the like share one wrapper in the model; names are put back afterwards, so the worlds agree up to names (equal when the body makes none)."
 },
 "C23": {
  "status": "proved",
  "note": "jit-like wrappers, cond/switch, vmap in any mode; scan, fori_loop and while_loop in apply; fori_loop in init, where the first iteration runs in the enclosing function and only the rest is a transformed region. Module objects and the ghost record of keys handed out remain."
 },
 "C24": {
  "status": "proved",
  "note": ""
 },
 "C25": {
  "status": "partial",
  "note": "Apply: both directions. Init: proved for a non-empty forward scan (scan_init_partial); refuted for reversed outputs (scan_init_reverse_wrong) and for empty scans (scan_init_empty_runs)."
 },
 "C26": {
  "status": "partial",
  "note": "Apply: both directions. Init: proved for a non-empty range (fori_init_partial); refuted for an empty one (fori_init_empty_runs)."
 },
 "C28": {
  "status": "proved",
  "note": ""
 },
 "C42": {
  "status": "partial",
  "note": "Isolation of frames is proved; creators, getters and interceptors of the outer transform leak into the inner one (hooks_leak_into_nested)."
 },
 "C27": {
  "status": "partial",
  "note": "Equality with the Python loop is proved (both directions) for conditions that are functions of the loop value; refuted for conditions reading state (while_stale_condition). Rejection is proved for stores and for new keys in the sequence; refuted for a condition consuming an already reserved key (while_condition_key_reused)."
 },
 "C29": {
  "status": "proved",
  "note": "Non-empty batches. JAX rejects state that depends on the batch syntactically; the model rejects it when the values differ."
 },
 "C30": {
  "status": "proved",
  "note": "For every change test that never misses a change, any order of entries."
 },
 "C31": {
  "status": "proved",
  "note": ""
 },
 "C59": {
  "status": "partial",
  "note": "replicate and camel_to_snake proved; get_channel_index accepts a trailing newline (channel_index_newline)"
 },
 "C02": {
  "status": "proved",
  "note": "For every program in every reachable apply frame, whatever hooks are active and however it ends."
 },
 "C03": {
  "status": "proved",
  "note": "Over the recorded accesses of every run, including through stateful control flow; the first request and every later one also as exact equations."
 },
 "C05": {
  "status": "proved",
  "note": "Every run; what init and apply return is stated over the recorded accesses of the run."
 },
 "C06": {
  "status": "proved",
  "note": "Every run, plus exact equations for get_state and set_state."
 },
 "C08": {
  "status": "proved",
  "note": "Every program meeting the quantifier (Careful), with named calls on or off; handlers may also surround control flow that draws no keys. Each exclusion has a witness: caught_key_reused, named_call_key_reused, eval_shape_key_reused, with_rng_key_reused, while_condition_key_reused (C27)."
 },
 "C12": {
  "status": "proved",
  "note": "Every program not using with_rng; the operations as equations."
 },
 "C32": {
  "status": "partial",
  "note": "On object addresses. The check is exact for stores when no new object gets an address that was in use at the start of the block (detects_stores_partial), and every single state change or split is noticed (detects_single); refuted for taking reserved keys, for setting a state twice with address reuse, and for a new parameter sharing an array."
 },
 "C19": {
  "status": "proved",
  "note": "One chain model for creators, getters and interceptors; creators_chain, getters_chain and interceptors_chain tie it to the three runners of the code."
 },
 "C20": {
  "status": "partial",
  "note": "Violated: a second call of next skips the hooks already run (second_next_skips_rest, next_twice_differs). Holds for the hook registered last (next_twice_partial)."
 },
 "C33": {
  "status": "proved",
  "note": ""
 },
 "C34": {
  "status": "proved",
  "note": "For trees of dicts, FlatMappings, sequences and leaves, and on a heap with shared cells; a mutable mapping type other than dict and FlatMapping is not copied (other_mapping_shared)."
 },
 "C35": {
  "status": "proved",
  "note": ""
 },
 "C36": {
  "status": "partial",
  "note": "Violated when a FlatMapping holds dicts (equal_but_hashed_differently); proved for FlatMappings without dicts, as to_immutable_dict builds them (equal_hash_partial)."
 },
 "C37": {
  "status": "proved",
  "note": "hk.lift inside a transform: packing, unpacking, round trip, and what the lifted function sees in init and apply."
 },
 "C41": {
  "status": "partial",
  "note": "without_state and transform follow the property; without_apply_rng(transform(f)) is labelled TransformedWithState (without_apply_rng_kind_wrong), and a function whose only state access fails and is caught is rejected too."
 },
 "C45": {
  "status": "partial",
  "note": "Exact content of params_dict/state_dict for names without a slash, names and soundness for all names; with slashes two parameters may share a full name (full_names_collide). Over whole runs everything accessed while a method runs is shown by the module and by its callers; this fails, with witnesses, for calls that raise and are caught, for super().__init__() called twice, and for lifted parameters seen from callers."
 },
 "C43": {
  "status": "proved",
  "note": "name_scope is the body run inside nested modules, with all names relative to what a plain module would get; proved for every scope in which modules can be constructed and no interceptor is active"
 },
 "C44": {
  "status": "partial",
  "note": "resumption, kept parameters and state, numbering and non-collision proved for every chain of entries; modules constructed inside hk.jit (and the other wrapped transforms) are not recorded and do collide: proved by jit_collides"
 },
 "C04": {
  "status": "partial",
  "note": "Proved (exact output and state) for programs with parameters, state, modules, name scopes, hooks, with_rng, jit, vmap, nested transforms, eval_shape of functions making nothing, cond/switch on branches that do not look at values (with loops inside), non-empty fori_loop and forward scan whose first step keeps structure and constructs no module directly. The conditions on loops and eval_shape are needed (witnesses proved). Not covered: control flow under vmap, and lift, with which the claim fails in general (lift_breaks)."
 },
 "C21": {
  "status": "proved",
  "note": "get_parameter/get_state leave the same data behind for all getters; two programs with the same calls and writes store the same if both return; init and apply corollaries"
 },
 "C46": {
  "status": "partial",
  "note": "proved: preserved dimensions, element count, Flatten rank; a fitting size for -1 is always found and is unique when the input has elements. For inputs without elements -1 is not unique (wildcard_zero)"
 },
 "C47": {
  "status": "partial",
  "note": "proved when all inputs share the merged dimensions; inputs with other leading dimensions of the same product come back reshaped (batch_apply_mixed)"
 },
 "C48": {
  "status": "proved",
  "note": "any number of dimensions, per-dimension mixtures, dilation and groups"
 },
 "C49": {
  "status": "partial",
  "note": "proved for non-empty inputs; an input of size 0 can give another output size (transposed_empty)"
 },
 "C50": {
  "status": "partial",
  "note": "proved for rank at least 1 and channel axis other than -ndim, which is rejected although valid (pool_first_axis); scalars get rank 1 (pool_scalar)"
 },
 "C51": {
  "status": "proved",
  "note": "every rank, over any field"
 },
 "C52": {
  "status": "partial",
  "note": "proved, except that dimensions below -rank wrap instead of being rejected (bias_wraps)"
 },
 "C62": {
  "status": "proved",
  "note": "every rank, over any linear order with a least element"
 },
 "C53": {
  "status": "partial",
  "note": "closed form, convexity, constants proved for every history; update_stats=False changes no existing entry and no later result, but creates missing entries"
 },
 "C54": {
  "status": "proved",
  "note": ""
 },
 "C55": {
  "status": "proved",
  "note": "the core keeps the shapes of its state, as RNNCore demands; outside that the two differ (growing_state, ragged_inputs, no_steps)"
 },
 "C58": {
  "status": "proved",
  "note": ""
 },
 "C60": {
  "status": "proved",
  "note": "exact arithmetic"
 },
 "C61": {
  "status": "proved",
  "note": "exact arithmetic; expectation over any finite distribution of keys"
 },
 "C63": {
  "status": "proved",
  "note": "exact arithmetic, ideal key splitting"
 },
 "C56": {
  "status": "partial",
  "note": "All cores acting on each batch element by itself, all inputs and reset signals. Missing (false of the code): unbatched states made of scalars only, see scalar_state_breaks."
 },
 "C57": {
  "status": "proved",
  "note": ""
 },
 "C38": {
  "status": "partial",
  "note": "any number of threads, any schedule of atomic steps; every other thread free of profiler_name_scopes, whose global setting leaks (named_call_leaks); the hook of optimize_rng_use is C39"
 },
 "C39": {
  "status": "partial",
  "note": "exclusive counting regions, any number of threads (exclusive_partial); one user of optimize_rng_use, any schedule: hook restored (single_user_partial); the full claim is false of the code (hook_left_behind, foreign_requests)"
 },
 "C40": {
  "status": "partial",
  "note": "all functions over the RNG interface; requests = count for repeatable functions under an RNG, one split, distinct keys, hook restored always; false for next_rng_keys/maybe_next_rng_key, without RNG and for some functions with parameters (witnesses)"
 },
 "C64": {
  "status": "proved",
  "note": ""
 },
 "C66": {
  "status": "proved",
  "note": ""
 },
 "C67": {
  "status": "proved",
  "note": ""
 },
 "C68": {
  "status": "proved",
  "note": ""
 },
 "C65": {
  "status": "partial",
  "note": "Statistics proved for both formats. With the channels on axis 1 the own scale and offset are not per channel (instance_norm_scale_wrong)."
 },
 "C69": {
  "status": "partial",
  "note": "Proved for axes that are not negative; false for negative axes (negative_axis_shape)."
 },
 "C70": {
  "status": "partial",
  "note": "Proved when only the first size changes between calls and axes are not negative; false otherwise (group_norm_shape_wrong)."
 },
 "C71": {
  "status": "partial",
  "note": "Proved for axes that are not negative; false for negative axes (group_norm_negative_axis)."
 },
 "C72": {
  "status": "proved",
  "note": ""
 },
 "C73": {
  "status": "proved",
  "note": ""
 },
 "C74": {
  "status": "partial",
  "note": "inputs without elements can be accepted and change shape, see vq_empty_shape"
 },
 "C75": {
  "status": "proved",
  "note": ""
 },
 "C76": {
  "status": "proved",
  "note": ""
 },
 "C77": {
  "status": "proved",
  "note": ""
 },
 "C78": {
  "status": "proved",
  "note": ""
 },
 "C79": {
  "status": "proved",
  "note": ""
 },
 "C80": {
  "status": "partial",
  "note": "scalars raise instead of being returned; without steps the call fails with a NameError"
 },
 "C81": {
  "status": "proved",
  "note": ""
 },
 "C82": {
  "status": "partial",
  "note": "if the order of the trees changes, only for parameters whose mangled names differ, are identifiers and do not end in a number; otherwise averages can be swapped or the call fails (ema_tree_order_swaps, ema_tree_rejects)"
 },
 "C83": {
  "status": "partial",
  "note": "fails on every tree with a scalar or vector that is not ignored (sn_tree_vector); for calls that succeed the claim is proved"
 },
 "C84": {
  "status": "proved",
  "note": ""
 },
 "C85": {
  "status": "proved",
  "note": ""
 },
 "C86": {
  "status": "proved",
  "note": ""
 },
 "C87": {
  "status": "partial",
  "note": "for GRU and VanillaRNN only if the state has the leading axes of the inputs; otherwise the state grows and dynamic_unroll raises (unbatched_state_grows)"
 },
 "C88": {
  "status": "proved",
  "note": ""
 },
 "C89": {
  "status": "proved",
  "note": ""
 },
 "C90": {
  "status": "partial",
  "note": "for queries that see some key and dot products that differ by less than about 1e10, and exponentials rounded to 0; a query that sees no key attends as if there were no mask (`all_hidden`)"
 },
 "C91": {
  "status": "partial",
  "note": "for equal batch sizes of queries, keys and values; a query of batch size 1 with more keys mixes queries (`batch_of_one_mixes`)"
 },
 "C92": {
  "status": "proved",
  "note": ""
 },
 "C93": {
  "status": "proved",
  "note": ""
 },
 "C94": {
  "status": "proved",
  "note": ""
 },
 "C95": {
  "status": "proved",
  "note": ""
 },
 "C96": {
  "status": "partial",
  "note": "when the QR decomposition of the sample has orthonormal columns and no zero on the diagonal of R; with a zero there the row or column is zero (`orthogonal_zero_diagonal`)"
 },
 "C97": {
  "status": "proved",
  "note": ""
 },
 "C98": {
  "status": "proved",
  "note": ""
 },
 "C99": {
  "status": "proved",
  "note": ""
 },
 "C100": {
  "status": "partial",
  "note": "for positive uniform numbers; the uniform number 0 draws the first category whatever its probability (`multinomial_zero`)"
 },
 "C101": {
  "status": "proved",
  "note": ""
 },
 "C102": {
  "status": "proved",
  "note": ""
 },
 "C103": {
  "status": "proved",
  "note": ""
 },
 "C104": {
  "status": "proved",
  "note": ""
 },
 "C105": {
  "status": "proved",
  "note": ""
 },
 "C106": {
  "status": "proved",
  "note": ""
 },
 "C107": {
  "status": "partial",
  "note": "for padding strings and stride 1 along the second axis; false for other strides (`separable_stride`) and for explicit paddings (`separable_padding`)"
 },
 "C108": {
  "status": "partial",
  "note": "`initial_state` fits when `input_shape` holds the spatial sizes only; with the documented `input_shape` a step on a batch raises (`initial_documented`)"
 },
 "C109": {
  "status": "proved",
  "note": ""
 },
 "C110": {
  "status": "proved",
  "note": ""
 },
 "C111": {
  "status": "proved",
  "note": ""
 },
 "C112": {
  "status": "partial",
  "note": "Proved when no method raises; a caught exception leaves None, and the call stack includes the call itself, against the documentation."
 },
 "C113": {
  "status": "partial",
  "note": "Fails when a calling module owns parameters: the summary itself registers callers as submodules. Proved when callers own none."
 },
 "C114": {
  "status": "partial",
  "note": "Rejection and rows proved; making the table fails for functions that catch an exception of a method."
 },
 "C115": {
  "status": "partial",
  "note": "Fails for parameter names with a slash."
 },
 "C116": {
  "status": "proved",
  "note": ""
 },
 "C117": {
  "status": "proved",
  "note": ""
 },
 "C118": {
  "status": "proved",
  "note": ""
 },
 "C119": {
  "status": "proved",
  "note": "The theorems say exactly when `ResNet.__init__` and a block without projection succeed; see the end of DESIGN.md for the cases where this is surprising."
 },
 "C120": {
  "status": "proved",
  "note": ""
 },
 "C121": {
  "status": "proved",
  "note": ""
 },
 "C122": {
  "status": "proved",
  "note": ""
 },
 "C123": {
  "status": "proved",
  "note": ""
 },
 "C124": {
  "status": "proved",
  "note": ""
 },
 "C125": {
  "status": "proved",
  "note": ""
 },
 "C126": {
  "status": "proved",
  "note": ""
 },
 "C127": {
  "status": "proved",
  "note": ""
 },
 "C128": {
  "status": "proved",
  "note": ""
 },
 "C129": {
  "status": "proved",
  "note": ""
 },
 "C130": {
  "status": "proved",
  "note": ""
 },
 "C131": {
  "status": "proved",
  "note": ""
 },
 "C132": {
  "status": "proved",
  "note": ""
 },
 "C133": {
  "status": "proved",
  "note": ""
 },
 "C134": {
  "status": "partial",
  "note": "false in the code for the second and later values that an operation returns (second_value); edges_join_partial states exactly which edges start at a declared node"
 },
 "C135": {
  "status": "partial",
  "note": "false in the code for captured values used more than once (captured_twice) and objects passed more than once (passed_twice)"
 },
 "C136": {
  "status": "partial",
  "note": "false in the code if addresses have different numbers of digits (names_collide); proved for addresses with equally many digits, and for clusters"
 },
 "C137": {
  "status": "partial",
  "note": "false in the code for keys of arguments after the first (key_lost), and for the reprs and elements that are not escaped; proved for all titles, and for operations, arguments and captured values if these parts have no special characters"
 },
 "C138": {
  "status": "partial",
  "note": "false in the code for values that are not the first an operation returns (output_unmarked), and arguments returned as they are; outputs_marked_partial states exactly which are marked and how"
 },
 "C139": {
  "status": "proved",
  "note": ""
 },
 "C140": {
  "status": "partial",
  "note": "Proved for positions with a real token at or before them, an exponential function that is 0 for very negative numbers, and attention weights for which scores stay below half of 1e10. False otherwise: `padding_first_sees_all`, `padding_first_leaks`."
 },
 "C141": {
  "status": "proved",
  "note": "Parameters are given with the shapes that the modules ask for; a width of 1 is broadcast by the first layer instead of rejected."
 },
 "C142": {
  "status": "proved",
  "note": "For an exponential function that is 0 for very negative numbers (independence of padding), and for one with the laws of the exponential function (cross-entropy). Without any real token the code divides by 0, which is an error in the model."
 },
 "C143": {
  "status": "proved",
  "note": "The size the module was made for has to be a tuple: a list is never taken (`list_size_rejected`)."
 },
 "C144": {
  "status": "proved",
  "note": "`argsort` and `shuffle` are assumed to return orders of the positions, `argsort` an ascending one; exact arithmetic."
 },
 "C145": {
  "status": "proved",
  "note": "Hypothesis: one mask for each predicate, as `update_mask` makes; with fewer masks parameters are dropped without an error (`missing_mask_drops`)."
 },
 "C146": {
  "status": "proved",
  "note": "The optimiser is any function that returns updates of the names and shapes of the parameters; predicates look at names and shapes only, as those of the example do."
 },
 "C147": {
  "status": "partial",
  "note": "The fraction reaches 1 at iteration 9000, not 8000 (`not_done_at_8000`: it is 511/512 there); the rest of the claim is proved."
 },
 "C148": {
  "status": "proved",
  "note": "Accesses to the queue and to the parameters are atomic; what is inside a trajectory is left out."
 },
 "C149": {
  "status": "proved",
  "note": "Accesses to queues, flags and parameters are atomic; what is inside a trajectory is left out."
 },
 "C150": {
  "status": "partial",
  "note": "The code falsifies the claim: after the last update the worker may block for ever in `put` on the second queue (`learner_can_hang`). Proved: exactly when this happens, and that it does not happen with fewer than two batches more than iterations."
 },
 "C151": {
  "status": "partial",
  "note": "The code falsifies the claim: an actor may block for ever in `put` on the first queue, which nobody reads any more (`main_can_hang`). Proved: exactly when this happens."
 },
 "C152": {
  "status": "proved",
  "note": "The environment gives a reward with every last step, as `dm_env` asks for; otherwise the actor stops (C153). The network acts on the elements of a batch one by one."
 },
 "C153": {
  "status": "proved",
  "note": "Rewards are elements of a field, without rounding."
 },
 "C154": {
  "status": "proved",
  "note": "Over a field of characteristic 0, without rounding; `rlax` functions other than V-trace are any functions, means over time are means."
 },
 "C155": {
  "status": "proved",
  "note": "V-trace as `rlax.vtrace_td_error_and_advantage` computes it, which is not part of the repository; without rounding."
 },
 "C156": {
  "status": "partial",
  "note": "True if the episode ends with discount 0 (`episodes_apart_partial`). The code falsifies the claim for episodes that end with another discount, as with `dm_env.truncation`: the step before the end is not masked, and its target uses the value of the first step of the next episode (`truncation_leaks`)."
 },
 "C157": {
  "status": "proved",
  "note": "exact arithmetic; log is the real logarithm"
 },
 "C158": {
  "status": "proved",
  "note": "exact arithmetic; exp and log are the real functions"
 },
 "C159": {
  "status": "proved",
  "note": "exact arithmetic; jax.random.normal is averaged over independent standard normal numbers"
 },
 "C160": {
  "status": "proved",
  "note": "exact arithmetic; exp and log are functions with the laws of exponential and logarithm"
 },
 "C161": {
  "status": "proved",
  "note": "exact arithmetic, exp and log are the real functions"
 },
 "C162": {
  "status": "proved",
  "note": "keys of different splits are different terms; for the law the noise of different keys is independent"
 },
 "C163": {
  "status": "proved",
  "note": "tf.data operations as lists; shuffle is any permutation per epoch"
 },
 "C164": {
  "status": "proved",
  "note": "np.array_split as documented"
 },
 "C165": {
  "status": "proved",
  "note": "exact real arithmetic"
 },
 "C166": {
  "status": "proved",
  "note": "exact arithmetic, exp and log are the real functions"
 },
 "C167": {
  "status": "proved",
  "note": "exact arithmetic: the mean of equal lists of gradients is the same on all devices"
 },
 "C168": {
  "status": "proved",
  "note": "the data set is a list of examples; counts are exact"
 },
 "C169": {
  "status": "proved",
  "note": "7/8 of the side is exact; shuffling is left out: the stream is any"
 },
 "C170": {
  "status": "proved",
  "note": "splitting of keys is ideal"
 },
 "C171": {
  "status": "proved",
  "note": "a write that was cut short leaves a file that cannot be loaded; the directory holds only the files of this program"
 },
 "C172": {
  "status": "partial",
  "note": "proved for sorted listings, fewer than ten million steps and a newest file that is complete; the code falsifies the rest: os.listdir is not sorted (any_checkpoint), a torn newest file makes every start fail (torn_stuck), and a resumed process first empties the file it loaded (resume_risks)"
 },
 "C173": {
  "status": "proved",
  "note": "shuffling is left out; tokens are positive and below the size of the vocabulary"
 },
 "C174": {
  "status": "partial",
  "note": "proved for constructions that give nothing to *args; otherwise the code falsifies it (varargs_never, no_self_never)"
 },
 "C175": {
  "status": "proved",
  "note": "keys of one linearly ordered type, so that sorting does not raise"
 },
 "C176": {
  "status": "proved",
  "note": "names of modules need not be unique (then the sort fails, which is proved); attributes that are not modules are left out of the model"
 },
 "C177": {
  "status": "proved",
  "note": "exact arithmetic; shuffling and reading are not modelled"
 },
 "C178": {
  "status": "proved",
  "note": "exact arithmetic; the optimiser keeps the shapes of the parameters"
 },
 "C179": {
  "status": "proved",
  "note": "hooks are state transformers that do not themselves call methods"
 },
 "C180": {
  "status": "proved",
  "note": "hooks are state transformers that do not themselves call methods"
 },
 "C181": {
  "status": "proved",
  "note": "layers, LSTM and head are any functions of one entry of the batch"
 },
 "C182": {
  "status": "proved",
  "note": "the second sentence is a disagreement with what `RNNCore.__call__` promises"
 },
 "C183": {
  "status": "proved",
  "note": "exact arithmetic; `rlax` as modelled for C154"
 },
 "C184": {
  "status": "proved",
  "note": "the environment is a function of its state and the action"
 },
 "C185": {
  "status": "proved",
  "note": "the derivative is any operator on the function of the argument; one argument"
 },
 "C186": {
  "status": "proved",
  "note": "pairs made by the user and functions copied by `functools.wraps` are not modelled"
 },
 "C187": {
  "status": "proved",
  "note": "exact arithmetic; dtypes and initializers not modelled"
 },
 "C188": {
  "status": "proved",
  "note": "modules_with_named_call and interceptors are excluded by hypothesis; docstrings not modelled"
 },
 "C189": {
  "status": "proved",
  "note": "the network, loss and sampler of the example are those of C160 and C162, here any functions"
 },
 "C190": {
  "status": "proved",
  "note": "the assignment of the pair `_params_for_actor` is one access, as it is in CPython"
 },
 "C191": {
  "status": "proved",
  "note": "names of layers are identifiers without a number at the end, as the names made from class names; initializers draw at most one key"
 },
 "C192": {
  "status": "proved",
  "note": "names are identifiers without a number at the end, as the names made from class names; initializers draw at most one key"
 },
 "C193": {
  "status": "proved",
  "note": ""
 },
 "C194": {
  "status": "proved",
  "note": ""
 },
 "C195": {
  "status": "proved",
  "note": ""
 },
 "C196": {
  "status": "proved",
  "note": ""
 },
 "C197": {
  "status": "proved",
  "note": ""
 },
 "C198": {
  "status": "proved",
  "note": ""
 },
 "C199": {
  "status": "proved",
  "note": ""
 },
 "C200": {
  "status": "proved",
  "note": ""
 },
 "C201": {
  "status": "proved",
  "note": ""
 },
 "C202": {
  "status": "proved",
  "note": ""
 },
 "C203": {
  "status": "proved",
  "note": ""
 }
}