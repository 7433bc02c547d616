{"id": "C01", "title": "init and apply leave the ambient context untouched", "statement": "Calling the init or apply function of any transformed function, whether it returns or raises, leaves every thread-level Haiku stack (active transforms, custom creators and getters, method interceptors) and the complete contents of any enclosing transform exactly as it was before the call.", "quantifier": "every user program (any nesting of modules, methods, name scopes, with_rng, creators, getters, interceptors, stateful control flow, nested transforms, caught or uncaught exceptions) and every ambient context", "why_tests_cant": "a test exercises finitely many programs; leaks appear only for particular nestings of context managers and exception points", "anchors": ["haiku/_src/transform.py: transform_with_state", "haiku/_src/base.py: HaikuContext, Frame.module, with_rng, custom_creator, custom_getter", "haiku/_src/data_structures.py: Stack.__call__", "haiku/_src/module.py: wrap_method, intercept_methods"]}
{"id": "C02", "title": "apply never creates or changes parameters", "statement": "While apply runs, every parameter read returns a value derived from the parameters that were passed in; no initializer runs for parameters, no parameter is added, removed or replaced, and asking for a parameter that was not passed in raises ValueError.", "quantifier": "every user program, every params/state/rng passed to apply", "why_tests_cant": "the claim is about every reachable call site of get_parameter in every program", "anchors": ["haiku/_src/base.py: get_parameter, new_context", "haiku/_src/stateful.py: update_internal_state"]}
{"id": "C03", "title": "get_parameter is create-once then reuse", "statement": "In init the first request for a name inside a module runs the initializer (through the custom creators) once and records the result; from then on every request for that name in that module during the same init yields the recorded value passed through the getters active at that moment, and the recorded value never changes.", "quantifier": "every program, every position of the two requests, everything that happens in between", "why_tests_cant": "the operations between the two requests are unbounded", "anchors": ["haiku/_src/base.py: get_parameter, run_creators, run_getters"]}
{"id": "C04", "title": "apply on the output of init retraces init", "statement": "For a function that does not look at the RNG outside initializers, does not ask whether init is running and does not catch exceptions: if init(rng, *args) succeeds giving (params, state) then apply(params, state, rng', *args) succeeds for every rng', computes the same output that the function computed during init and ends with the same current state.", "quantifier": "every such program, every rng and rng'", "why_tests_cant": "it quantifies over programs; tests check individual networks", "anchors": ["haiku/_src/transform.py: transform_with_state", "haiku/_src/base.py: get_parameter, get_state, set_state, extract_state"]}
{"id": "C05", "title": "initial state is returned by init, current state by apply", "statement": "The initial half of a state entry is fixed at the moment the entry is created (or injected) and no later operation changes it; init returns exactly these initial values and apply returns exactly the last values set.", "quantifier": "every program and every state passed in", "why_tests_cant": "the history of get_state/set_state calls is unbounded", "anchors": ["haiku/_src/base.py: get_state, set_state, extract_state, new_context"]}
{"id": "C06", "title": "state reads see the last write to the same module and name only", "statement": "get_state returns the value of the most recent set_state for the same module and name (else the injected value, else the freshly initialised one); writes to other modules or other names never affect it.", "quantifier": "every finite history of get_state/set_state calls over any modules and names", "why_tests_cant": "unbounded histories", "anchors": ["haiku/_src/base.py: get_state, set_state, current_bundle_name"]}
{"id": "C07", "title": "keys handed out by a PRNGSequence are never repeated", "statement": "Over any history of next, take, reserve and reserve_up_to_full on one sequence, all keys handed to the caller are pairwise distinct, none of them is ever split by Haiku, and no key is split twice with overlapping results.", "quantifier": "every starting key and every finite history of operations, with every argument including zero and negative counts", "why_tests_cant": "the histories are unbounded and a repeat would silently correlate random draws", "anchors": ["haiku/_src/base.py: PRNGSequence"]}
{"id": "C08", "title": "next_rng_key never repeats inside one init or apply", "statement": "Within one call of init or apply all keys returned by next_rng_key, next_rng_keys and maybe_next_rng_key and used by initializers are pairwise distinct, through any nesting of modules, methods, name scopes and stateful control flow.", "quantifier": "every program not using with_rng, eval_shape, vmap, while_loop conditions or exception handlers around stateful control flow (each excluded construct is covered by a separate witness or theorem)", "why_tests_cant": "quantifies over all programs and all interleavings of splitting and drawing", "anchors": ["haiku/_src/base.py: next_rng_key, next_rng_keys, maybe_next_rng_key, rng_seq_or_fail", "haiku/_src/stateful.py: temporary_internal_state, update_internal_state, cond, switch, scan, fori_loop"]}
{"id": "C09", "title": "reserved keys are delivered in order, and take equals repeated next on reserved keys", "statement": "reserve(n) never changes which keys were already reserved; the next keys handed out are exactly the reserved ones in the order they were split; take(n) returns exactly n keys, equals n calls of next whenever at least n keys are reserved, and take(n) for n <= 0 returns nothing and changes nothing.", "quantifier": "every sequence state and every n", "why_tests_cant": "all states and all counts", "anchors": ["haiku/_src/base.py: PRNGSequence.reserve, take, __next__"]}
{"id": "C10", "title": "a sequence rebuilt from its internal_state continues identically", "statement": "Constructing a PRNGSequence from another one's internal_state, or calling replace_internal_state with it, gives a sequence whose every future operation returns the same results.", "quantifier": "every sequence state and every future history of operations", "why_tests_cant": "unbounded future histories", "anchors": ["haiku/_src/base.py: PRNGSequence.internal_state, replace_internal_state, __init__"]}
{"id": "C11", "title": "reserve_up_to_full normalises the number of reserved keys", "statement": "After reserve_up_to_full the number of reserved keys is the default block size no matter how many keys were consumed or reserved before, so all branches and loop iterations of the stateful control flow functions agree on the shape of the RNG state; keys discarded this way are never handed out later.", "quantifier": "every sequence state and every history", "why_tests_cant": "every pair of branches with arbitrary RNG consumption", "anchors": ["haiku/_src/base.py: PRNGSequence.reserve_up_to_full", "haiku/_src/stateful.py: stateful_branch, scan, fori_loop"]}
{"id": "C12", "title": "without an RNG no key can be obtained", "statement": "If init or apply is called with rng=None then, outside with_rng, next_rng_key, next_rng_keys and reserve_rng_keys raise ValueError, maybe_next_rng_key returns None, and the result of apply for a program that succeeds does not depend on any key.", "quantifier": "every program without with_rng", "why_tests_cant": "quantifies over programs", "anchors": ["haiku/_src/base.py: rng_seq_or_fail, maybe_next_rng_key", "haiku/_src/transform.py: to_prng_sequence"]}
{"id": "C13", "title": "module names are unique within a scope", "statement": "All modules successfully constructed during one method call (or at the top level of one context, also across re-entries) get pairwise different full names.", "quantifier": "every sequence of requested names, numbered or not, including sequences in which some constructions fail", "why_tests_cant": "name requests interact through counters; collisions need specific sequences such as foo, foo_3, foo, foo_1", "anchors": ["haiku/_src/module.py: unique_and_canonical_name"]}
{"id": "C14", "title": "automatically numbered names never fail; explicitly numbered names fail exactly on reuse", "statement": "Constructing a module whose name does not end in _<digits> never raises a uniqueness error; one whose name ends in _<digits> raises exactly when the same base with the same number has already been used in the scope.", "quantifier": "every reachable scope history and every requested name", "why_tests_cant": "reachable histories are unbounded", "anchors": ["haiku/_src/module.py: unique_and_canonical_name"]}
{"id": "C15", "title": "the k-th unnumbered request gets the k-th name", "statement": "If a scope only ever requests names without numeric suffix, the first request for foo is named foo and the (k+1)-th is named foo_k, independently of requests for other names in between; the names obtained in a method call depend only on the sequence of names requested in that call.", "quantifier": "every sequence of unnumbered requests", "why_tests_cant": "unbounded sequences with arbitrary interleaving", "anchors": ["haiku/_src/module.py: unique_and_canonical_name, wrap_method", "haiku/_src/base.py: Frame.module"]}
{"id": "C16", "title": "full names determine parent and local name", "statement": "Two modules created under different parent names, or under different methods of the same parent, never receive the same full name, so parameters of different owners never collide.", "quantifier": "every pair of parents, methods and local names that pass validation", "why_tests_cant": "all strings", "anchors": ["haiku/_src/module.py: unique_and_canonical_name, valid_identifier"]}
{"id": "C17", "title": "module names must be Python identifiers", "statement": "A module name is accepted exactly when it is a non-empty string of ASCII letters, digits and underscores not starting with a digit.", "quantifier": "every string", "why_tests_cant": "the set of strings is infinite and the failing ones are unusual", "anchors": ["haiku/_src/module.py: valid_identifier"]}
{"id": "C18", "title": "exceptions restore the naming scope", "statement": "If a constructor, method, name scope or with_rng block raises and the exception is caught inside the transformed function, execution continues with the same current module, the same RNG sequence in force and the same active hooks as before the block.", "quantifier": "every program and every exception point", "why_tests_cant": "every possible crash point in every nesting", "anchors": ["haiku/_src/module.py: wrap_method, NameScope", "haiku/_src/base.py: Frame.module, with_rng", "haiku/_src/data_structures.py: Stack.__call__"]}
{"id": "C19", "title": "hooks run in registration order, each at most once per call", "statement": "For every stack of custom creators, getters or interceptors, one call invokes them in the order they were registered (outermost with block first), each at most once, ending in the initializer, the stored value or the original method; if every hook calls next exactly once the result is the composition in that order.", "quantifier": "every stack of hooks, each hook calling next any number of times with any arguments", "why_tests_cant": "the hooks are arbitrary user functions", "anchors": ["haiku/_src/base.py: run_creators, run_getters", "haiku/_src/module.py: run_interceptors"]}
{"id": "C20", "title": "calling next twice from a hook reruns the rest of the chain", "statement": "If a hook calls its next function twice with the same argument, both calls go through the remaining hooks and give the same result (for deterministic hooks).", "quantifier": "every chain of at least two hooks", "why_tests_cant": "depends on mutable sharing between the two calls", "anchors": ["haiku/_src/base.py: run_creators, run_getters", "haiku/_src/module.py: run_interceptors"]}
{"id": "C21", "title": "custom getters never change what is stored", "statement": "Parameters and state returned by init and apply are the same whether or not value-transforming getters are active, provided the program's control flow and writes do not depend on the values read; in particular a getter only affects the value returned to the caller of get_parameter or get_state.", "quantifier": "every getter, every get_parameter/get_state call", "why_tests_cant": "arbitrary getter functions", "anchors": ["haiku/_src/base.py: get_parameter, get_state, run_getters"]}
{"id": "C22", "title": "hk.jit, hk.remat, hk.named_call and hk.grad thread state transparently", "statement": "Running a function through hk.jit, hk.remat, named_call or the value part of hk.value_and_grad gives the same output, parameters, state and RNG position as calling it directly, assuming the underlying JAX transformation preserves values.", "quantifier": "every body that succeeds and creates no module directly in the calling scope; every surrounding context", "why_tests_cant": "quantifies over programs", "anchors": ["haiku/_src/stateful.py: thread_hk_state_in_kwargs, value_and_grad, named_call, difference, update_recursive, temporary_internal_state"]}
{"id": "C23", "title": "a stateful transform whose body raises changes nothing", "statement": "If the function passed to hk.jit, hk.cond, hk.switch, hk.vmap or the loop body of hk.fori_loop/hk.while_loop raises inside the transformed region, parameters, state and RNG of the enclosing function are as they were when the region was entered.", "quantifier": "every body and every exception point in it", "why_tests_cant": "every crash point", "anchors": ["haiku/_src/stateful.py: temporary_internal_state, update_internal_state"]}
{"id": "C24", "title": "hk.cond and hk.switch behave like the chosen branch", "statement": "hk.cond and hk.switch return the output of the selected branch and leave params, state as running that branch alone would; effects of the other branches are not visible.", "quantifier": "every tuple of branches, every selector, every surrounding context", "why_tests_cant": "quantifies over branch programs", "anchors": ["haiku/_src/stateful.py: cond, switch, stateful_branch"]}
{"id": "C25", "title": "hk.scan equals the Python loop", "statement": "hk.scan(f, init, xs, length, reverse) returns the same carry and the same stacked outputs, in the same positions, and leaves the same state, as running f over the elements in the scan order, both in init and in apply.", "quantifier": "every body, carry, list of inputs, length and direction", "why_tests_cant": "all lengths and all bodies; the init-time unrolling makes behaviour depend on them", "anchors": ["haiku/_src/stateful.py: scan"]}
{"id": "C26", "title": "hk.fori_loop equals the Python loop", "statement": "hk.fori_loop(lower, upper, body, init) returns body applied for i in range(lower, upper), with state threaded through, both in init and in apply.", "quantifier": "all bounds including empty ranges, all bodies", "why_tests_cant": "all bounds and bodies", "anchors": ["haiku/_src/stateful.py: fori_loop"]}
{"id": "C27", "title": "hk.while_loop equals the Python loop and protects the condition", "statement": "In apply hk.while_loop computes the same value and state as the Python while loop, and a condition that changes Haiku state or consumes RNG is rejected with ValueError.", "quantifier": "all conditions and bodies, all iteration counts", "why_tests_cant": "all iteration counts and all condition functions", "anchors": ["haiku/_src/stateful.py: while_loop", "haiku/_src/base.py: assert_state_unchanged"]}
{"id": "C28", "title": "eval_shape has no effect on state", "statement": "hk.eval_shape leaves params, state, RNG and naming of the current transform exactly as they were, whether it returns or raises.", "quantifier": "every function passed to eval_shape", "why_tests_cant": "quantifies over programs", "anchors": ["haiku/_src/stateful.py: eval_shape"]}
{"id": "C29", "title": "hk.vmap shares parameters and state across the batch", "statement": "hk.vmap(f) gives for every batch element the output f gives on it with the shared incoming state, and state is updated only with values that are the same for all elements.", "quantifier": "every body, every batch", "why_tests_cant": "quantifies over programs and batch sizes", "anchors": ["haiku/_src/stateful.py: vmap"]}
{"id": "C30", "title": "difference has no false negatives and update undoes it", "statement": "Applying the difference of before and after to a copy of before gives after: no changed, added or initialised entry is lost, whatever entries are reported as unchanged are equal.", "quantifier": "every pair of states where after extends before, every sound identity test", "why_tests_cant": "unbounded states", "anchors": ["haiku/_src/stateful.py: difference, box_and_fill_missing, update_recursive, update_internal_state"]}
{"id": "C31", "title": "assert_no_new_parameters raises exactly when a parameter was added", "statement": "The block raises AssertionError iff some (module, name) parameter present after the block was absent before.", "quantifier": "every pair of parameter collections", "why_tests_cant": "unbounded collections", "anchors": ["haiku/_src/base.py: assert_no_new_parameters, param_names"]}
{"id": "C32", "title": "assert_state_unchanged detects every change", "statement": "The block raises StateChangedError whenever params, state or the RNG sequence were changed inside it.", "quantifier": "every pair of before/after states", "why_tests_cant": "requires considering every kind of change including consuming reserved keys", "anchors": ["haiku/_src/base.py: assert_state_unchanged, _all_state, _get_ids"]}
{"id": "C33", "title": "partition, merge, filter and map are consistent", "statement": "Every entry of the input appears in exactly one half of partition according to the predicate, filter keeps exactly the entries satisfying it, merge of the two halves restores every entry, later arguments of merge win, and map changes values only.", "quantifier": "every predicate and every two-level structure", "why_tests_cant": "all predicates, all structures", "anchors": ["haiku/_src/filtering.py: partition, filter, map, merge"]}
{"id": "C34", "title": "to_immutable_dict and to_mutable_dict are inverse on nested dicts", "statement": "Converting a nested dict to the immutable form and back gives an equal nested dict; the immutable form contains no mutable dict at any depth reachable through dicts and is unaffected by later changes to the original.", "quantifier": "every nested dict of any depth", "why_tests_cant": "arbitrary depth", "anchors": ["haiku/_src/data_structures.py: to_immutable_dict, to_mutable_dict, FlatMapping"]}
{"id": "C35", "title": "FlatMapping flatten/unflatten round trip", "statement": "Flattening a FlatMapping and unflattening with the same leaves gives an equal mapping; mapping a function over the leaves commutes with lookups, also when the function returns containers.", "quantifier": "every nested structure, every leaf function", "why_tests_cant": "arbitrary structures", "anchors": ["haiku/_src/data_structures.py: FlatMapping"]}
{"id": "C36", "title": "equal FlatMappings have equal hashes", "statement": "If two FlatMappings compare equal then they hash equal, independent of insertion order.", "quantifier": "every pair of FlatMappings", "why_tests_cant": "all pairs", "anchors": ["haiku/_src/data_structures.py: FlatMapping.__eq__, __hash__"]}
{"id": "C37", "title": "lifted parameters are packed and unpacked without loss", "statement": "Parameters created by a lifted init function are stored in the outer parameters under the lifting module's name and unpacking them gives back exactly the inner parameters; other entries of the outer parameters are not touched.", "quantifier": "every inner parameter structure and every outer structure without entries below the lifting module's name", "why_tests_cant": "all name sets", "anchors": ["haiku/_src/lift.py: pack_into_dict, unpack_from_dict, LiftingModule"]}
{"id": "C38", "title": "threads do not interfere", "statement": "Any interleaving of Haiku operations on different threads gives each thread the results it would have got running alone.", "quantifier": "every number of threads, every schedule", "why_tests_cant": "every schedule", "anchors": ["haiku/_src/data_structures.py: ThreadLocalStack", "haiku/_src/base.py: frame_stack"]}
{"id": "C39", "title": "optimize_rng_use restores the global RNG hook under every schedule", "statement": "After any set of threads that use optimize_rng_use have finished, the function implementing next_rng_key is the original one and each thread counted exactly its own requests.", "quantifier": "every schedule of any number of threads", "why_tests_cant": "every schedule", "anchors": ["haiku/_src/random.py: count_hk_rngs_requested, optimize_rng_use"]}
{"id": "C40", "title": "optimize_rng_use only changes how keys are split", "statement": "optimize_rng_use(fun) requests exactly as many keys as counted up front when the function's key usage is repeatable, hands out pairwise distinct keys, and restores the hook also when fun raises.", "quantifier": "every function", "why_tests_cant": "quantifies over programs", "anchors": ["haiku/_src/random.py: count_hk_rngs_requested, optimize_rng_use"]}
{"id": "C41", "title": "without_state and without_apply_rng only change the signature", "statement": "without_state(f).apply(params, rng, *a) equals f.apply(params, {}, rng, *a) without the state, failing exactly when the function uses state; without_apply_rng(f).apply(params, ..., *a) equals passing rng=None, and the result is again a transformed pair of the same kind.", "quantifier": "every transformed function and every argument", "why_tests_cant": "all functions and arguments", "anchors": ["haiku/_src/transform.py: without_state, without_apply_rng, transform"]}
{"id": "C42", "title": "nested transforms are isolated from the enclosing one", "statement": "Inside a transformed function, calling init or apply of another transformed function gives the result it would give outside any transform, and does not consume the outer RNG or touch the outer parameters, state or names.", "quantifier": "every outer context, every inner program", "why_tests_cant": "quantifies over pairs of programs and contexts", "anchors": ["haiku/_src/transform.py: transform_with_state", "haiku/_src/base.py: HaikuContext, param_creator_stack, interceptor_stack"]}
{"id": "C43", "title": "name_scope behaves like a module method call", "statement": "Parameters and modules created under name_scope(a/b/c) get the (uniquified) prefix of nested modules a, b, c; different name_scope blocks in the same scope never share a prefix; names are validated.", "quantifier": "every scope name and every scope history", "why_tests_cant": "all names and histories", "anchors": ["haiku/_src/module.py: NameScope, name_scope, simulate_module_call"]}
{"id": "C44", "title": "re-entering a context continues it", "statement": "Entering the same context again continues name numbering and keeps parameters and state, so a module created in any entry never collides with one from an earlier entry and existing modules see the same parameters.", "quantifier": "every number of re-entries and every program in each", "why_tests_cant": "unbounded number of entries", "anchors": ["haiku/_src/base.py: HaikuContext, new_context"]}
{"id": "C45", "title": "params_dict and state_dict select exactly the module and its submodules", "statement": "module.params_dict() contains a parameter iff its bundle is the module itself, lies below its name, or belongs to a module that ran inside one of its methods; values are the stored ones.", "quantifier": "every parameter collection and submodule set", "why_tests_cant": "all name sets", "anchors": ["haiku/_src/module.py: params_or_state_dict, Module.params_dict, wrap_method"]}
{"id": "C46", "title": "Reshape keeps the number of elements", "statement": "hk.Reshape either raises or produces an output whose leading preserved dimensions equal the input's and whose total number of elements equals the input's; an output_shape containing one -1 is solved uniquely; hk.Flatten leaves inputs of rank <= preserve_dims unchanged and otherwise has rank preserve_dims + 1.", "quantifier": "every input shape, output shape and preserve_dims", "why_tests_cant": "all shapes, including zero-sized ones", "anchors": ["haiku/_src/reshape.py: Reshape, _infer_shape, Flatten"]}
{"id": "C47", "title": "BatchApply splits exactly what it merged", "statement": "BatchApply applied to the identity returns every mergeable input unchanged; element [i, j, ...] of the output is the function's output at the merged position of [i, j, ...].", "quantifier": "every shape, number of merged dimensions and element position", "why_tests_cant": "all shapes", "anchors": ["haiku/_src/basic.py: BatchApply, merge_leading_dims, split_leading_dim"]}
{"id": "C48", "title": "SAME, VALID, FULL and causal paddings give the documented output sizes", "statement": "With stride 1, hk.pad.same keeps the spatial size, valid gives n - k_eff + 1, full gives n + k_eff - 1, causal and reverse_causal keep the size and output position t depends only on inputs at positions <= t (respectively >= t), where k_eff = (k-1)*dilation + 1.", "quantifier": "every kernel size, dilation rate, input length and position", "why_tests_cant": "all sizes", "anchors": ["haiku/_src/pad.py: same, valid, full, causal, reverse_causal, create"]}
{"id": "C49", "title": "transposed convolution produces the requested output shape", "statement": "When output_shape is given, the padding computed for the transposed convolution makes the output have exactly that size.", "quantifier": "every input size, output size, kernel size, stride and padding mode for which construction succeeds", "why_tests_cant": "all sizes", "anchors": ["haiku/_src/conv.py: compute_adjusted_padding, ConvNDTranspose"]}
{"id": "C50", "title": "pooling windows never pool over batch or channel", "statement": "For integer window and stride the inferred shape has the rank of the input, is 1 on the batch axis and on the channel axis and the given size elsewhere; invalid channel axes are rejected and valid ones accepted; sequences are padded with leading ones.", "quantifier": "every rank, window size and channel axis", "why_tests_cant": "all ranks and axes", "anchors": ["haiku/_src/pool.py: _infer_shape, max_pool, avg_pool"]}
{"id": "C51", "title": "avg_pool averages only real elements", "statement": "avg_pool of a constant input is that constant everywhere for both paddings, and each output is the mean of the input elements inside its window, not counting padding.", "quantifier": "every input, window, stride and padding", "why_tests_cant": "all inputs and sizes", "anchors": ["haiku/_src/pool.py: avg_pool"]}
{"id": "C52", "title": "bias shapes broadcast against the input", "statement": "The shape computed for a Bias parameter broadcasts to the input shape, keeps exactly the selected dimensions, never includes the batch dimension, and out-of-range dimensions are rejected.", "quantifier": "every input shape and selection of dimensions", "why_tests_cant": "all shapes and selections", "anchors": ["haiku/_src/bias.py: calculate_bias_shape"]}
{"id": "C53", "title": "EMA is the exponentially weighted mean of its inputs", "statement": "After any sequence of inputs the hidden value of ExponentialMovingAverage is (1-decay) * sum decay^(n-1-i) x_i, the debiased average is the normalised weighted mean (a convex combination of the inputs), constant inputs are reproduced exactly, and calls with update_stats=False do not change the state.", "quantifier": "every sequence of inputs and every decay (exact arithmetic)", "why_tests_cant": "unbounded sequences; algebraic identity", "anchors": ["haiku/_src/moving_averages.py: ExponentialMovingAverage"]}
{"id": "C54", "title": "EMA warm-up", "statement": "With warmup_length = w > 0 the first w updating calls return their input unchanged, and from then on the value is the (undebiased) exponential moving average started from the w-th input; negative warm-up lengths and warm-up combined with debiasing are rejected.", "quantifier": "every warm-up length, every decay and every sequence of inputs (exact arithmetic)", "why_tests_cant": "unbounded sequences", "anchors": ["haiku/_src/moving_averages.py: ExponentialMovingAverage.__init__, __call__"]}
{"id": "C55", "title": "static_unroll and dynamic_unroll agree", "statement": "For every core (whose state keeps its shapes), initial state and non-empty input sequence hk.static_unroll and hk.dynamic_unroll give the same outputs and final state, batch- or time-major.", "quantifier": "every core and every sequence length", "why_tests_cant": "all lengths, all cores", "anchors": ["haiku/_src/recurrent.py: static_unroll, dynamic_unroll"]}
{"id": "C56", "title": "ResetCore restarts exactly where asked", "statement": "Unrolling a ResetCore over a sequence equals unrolling the inner core on the segments between resets, each started from the initial state.", "quantifier": "every core, every sequence of inputs and reset flags, per batch element", "why_tests_cant": "all reset patterns", "anchors": ["haiku/_src/recurrent.py: ResetCore"]}
{"id": "C57", "title": "DeepRNN threads every recurrent layer's own state", "statement": "DeepRNN applies its layers in order, each recurrent layer sees exactly its own previous state, plain functions carry none, and the returned state has one entry per recurrent layer in order.", "quantifier": "every list of layers and every state", "why_tests_cant": "all layer lists", "anchors": ["haiku/_src/recurrent.py: _DeepRNN"]}
{"id": "C58", "title": "embedding lookup styles agree", "statement": "For ids inside the vocabulary, Embed gives the same vectors with lookup style ARRAY_INDEX and ONE_HOT.", "quantifier": "every embedding matrix and every id array", "why_tests_cant": "all matrices and ids", "anchors": ["haiku/_src/embed.py: Embed"]}
{"id": "C59", "title": "replicate and channel index helpers", "statement": "utils.replicate returns exactly num_times values (rejecting other lengths), get_channel_index returns the channel axis for every supported data_format and rejects others, camel_to_snake of a class name that is an identifier is an identifier.", "quantifier": "every argument", "why_tests_cant": "all strings and sequences", "anchors": ["haiku/_src/utils.py: replicate, get_channel_index, camel_to_snake"]}
{"id": "C60", "title": "MLP sizes and reversal", "statement": "MLP applies linear layers of the given sizes in order with activations between (and after the last only if asked); MLP.reverse maps the output size back through the layer sizes in reverse order to the input size.", "quantifier": "every list of output sizes", "why_tests_cant": "all lists", "anchors": ["haiku/_src/nets/mlp.py: MLP, MLP.reverse"]}
{"id": "C61", "title": "dropout keeps the mean and rejects bad rates", "statement": "dropout raises unless 0 <= rate < 1, is the identity for rate 0, and otherwise each element is either 0 or x/(1-rate), so that averaging over keep with probability 1-rate gives x.", "quantifier": "every rate, input and mask (exact arithmetic)", "why_tests_cant": "all rates and masks", "anchors": ["haiku/_src/basic.py: dropout"]}
{"id": "C62", "title": "max_pool returns the largest real element of each window", "statement": "Each output of max_pool is one of the input elements inside its window and no element of the window is larger; padding never wins, for both paddings.", "quantifier": "every input, rank, window, stride and padding", "why_tests_cant": "all inputs and sizes", "anchors": ["haiku/_src/pool.py: max_pool"]}
{"id": "C63", "title": "MLP dropout uses a fresh key before each activation and nowhere else", "statement": "MLP.__call__ takes a dropout rate and an rng key together or not at all; with them, the output of each activated layer is dropped out with its own key, all keys are pairwise different, and a last layer without activation is not dropped out.", "quantifier": "every list of sizes, rate, key and input", "why_tests_cant": "all layer lists, all keys", "anchors": ["haiku/_src/nets/mlp.py: MLP.__call__", "haiku/_src/basic.py: dropout"]}
{"id": "C64", "title": "LayerNorm normalises each slice on its own", "statement": "LayerNorm rejects a scale/offset argument next to an own parameter; otherwise its output has the input's shape, every element is scale * (x - mean) * rsqrt(var + eps) + offset with mean and variance of its own slice along the normalised axes, so each slice has mean 0 and mean square var/(var+eps) before scaling, and other slices or a shift of the slice have no influence.", "quantifier": "every input of any rank, axis specification, parameters (exact arithmetic)", "why_tests_cant": "all ranks, shapes and axis choices", "anchors": ["haiku/_src/layer_norm.py: LayerNorm"]}
{"id": "C65", "title": "InstanceNorm normalises per example and channel and scales per channel", "statement": "InstanceNorm takes mean and variance over all positions with the same example and channel, and its own scale and offset have one value per channel, for both data formats.", "quantifier": "every input of rank at least 2, every data format", "why_tests_cant": "all ranks and shapes", "anchors": ["haiku/_src/layer_norm.py: InstanceNorm"]}
{"id": "C66", "title": "BatchNorm in training normalises with the statistics of the (cross-replica) batch", "statement": "In training or with test_local_stats, each output of BatchNorm is (x - mean) * scale * rsqrt(var + eps) + offset with mean and variance over the positions that differ only on the reduced axes, pooled over all devices of the group if cross-replica; by default these are the positions with the same channel.", "quantifier": "every input, group of devices, axes and data format", "why_tests_cant": "all shapes and device groups", "anchors": ["haiku/_src/batch_norm.py: BatchNorm.__call__"]}
{"id": "C67", "title": "BatchNorm outside training uses and keeps the moving averages", "statement": "With is_training and test_local_stats false, BatchNorm normalises with the stored averages, raises if there are none, and no call with is_training false changes the state.", "quantifier": "every state and input", "why_tests_cant": "all states", "anchors": ["haiku/_src/batch_norm.py: BatchNorm.__call__"]}
{"id": "C68", "title": "BatchNorm's moving averages are the debiased exponential averages of the training statistics", "statement": "After any history of calls on inputs of one shape the stored averages are, at each position, the debiased exponential averages of the means and variances of the training calls only.", "quantifier": "every history of calls", "why_tests_cant": "unbounded histories", "anchors": ["haiku/_src/batch_norm.py: BatchNorm.__call__", "haiku/_src/moving_averages.py: ExponentialMovingAverage"]}
{"id": "C69", "title": "BatchNorm's own parameters have size 1 on the reduced axes", "statement": "The own scale and offset of BatchNorm have size 1 on the axes that are reduced and the size of the input on all others.", "quantifier": "every input shape and axis specification", "why_tests_cant": "all axis specifications", "anchors": ["haiku/_src/batch_norm.py: BatchNorm.__call__"]}
{"id": "C70", "title": "GroupNorm returns an array of the input's shape", "statement": "After any earlier calls, a call of GroupNorm that succeeds returns an array of the shape of its input.", "quantifier": "every history of calls and input", "why_tests_cant": "unbounded histories of calls", "anchors": ["haiku/_src/group_norm.py: GroupNorm"]}
{"id": "C71", "title": "GroupNorm never mixes groups or examples", "statement": "Each output of GroupNorm is normalised with the mean and variance over the positions that differ only on the given axes and lie in the same group of channels, and scaled and shifted by one value per channel.", "quantifier": "every input of rank at least 2, axes, groups and data format", "why_tests_cant": "all shapes, axes and groupings", "anchors": ["haiku/_src/group_norm.py: GroupNorm"]}
{"id": "C72", "title": "A transposed convolution is the transpose of the convolution", "statement": "ConvNDTranspose with output_shape and padding SAME or VALID is the linear map transpose to the convolution with the same kernel size, stride and padding: that convolution maps images of shape output_shape to the shape of the input, and <x, ConvNDTranspose(y)> = <Conv(x), y> when the kernel of the convolution is the same array flipped along every spatial axis.", "quantifier": "every rank, kernel, stride and output shape, every weight array and pair of images, over any commutative semiring", "why_tests_cant": "all images and weights; tests compare a few arrays", "anchors": ["haiku/_src/conv.py: ConvNDTranspose.__call__", "haiku/_src/conv.py: compute_adjusted_padding"]}
{"id": "C73", "title": "VectorQuantizer returns the nearest embedding", "statement": "At every position of the leading axes, VectorQuantizer returns the index of the first of the embeddings nearest (in Euclidean distance) to the input vector, that embedding as quantized vector, and its one-hot encoding; the quantized array has the shape of the inputs and the loss is 1 + commitment_cost times the mean squared distance.", "quantifier": "every shape, number of embeddings, embedding matrix and input, over any ordered field", "why_tests_cant": "all inputs including ties; tests use a few sampled arrays", "anchors": ["haiku/_src/nets/vqvae.py: VectorQuantizer"]}
{"id": "C74", "title": "VectorQuantizer rejects inputs of the wrong last dimension", "statement": "An input whose last axis does not have size embedding_dim is rejected, also when its elements could be regrouped into vectors of that size; accepted inputs keep their shape.", "quantifier": "every shape and embedding_dim", "why_tests_cant": "all shapes, including those whose size is a multiple of embedding_dim and empty ones", "anchors": ["haiku/_src/nets/vqvae.py: VectorQuantizer.__call__"]}
{"id": "C75", "title": "Perplexity lies between 1 and the number of embeddings", "statement": "avg_probs are the fractions of vectors assigned to each embedding and add up to 1; the perplexity is at least 1/(1+1e-10), attained when one embedding is used, and at most num_embeddings.", "quantifier": "every non-empty real input and embedding matrix", "why_tests_cant": "an inequality about all distributions", "anchors": ["haiku/_src/nets/vqvae.py: VectorQuantizer.__call__"]}
{"id": "C76", "title": "VectorQuantizerEMA learns only in training and as documented", "statement": "A call outside training leaves the state as it was; every call quantises with the embeddings from before the call; after any history the embeddings are the debiased exponential averages of the sums of assigned vectors over the Laplace-smoothed averages of their numbers, over all replicas.", "quantifier": "every history of training and other calls on inputs of any shapes, any decay below 1, epsilon, initial embeddings and replicas", "why_tests_cant": "unbounded histories in which each update changes the later assignments", "anchors": ["haiku/_src/nets/vqvae.py: VectorQuantizerEMA"]}
{"id": "C77", "title": "Embeddings learnt by moving averages stay within the inputs", "statement": "Without smoothing every component of an embedding that was assigned a vector lies between the least and greatest value of that component in the training inputs; an embedding that was never assigned a vector becomes zero with the first training call.", "quantifier": "every history with decay strictly between 0 and 1", "why_tests_cant": "unbounded histories", "anchors": ["haiku/_src/nets/vqvae.py: VectorQuantizerEMA.__call__"]}
{"id": "C78", "title": "SpectralNorm never divides by more than the first singular value", "statement": "SpectralNorm keeps the shape and divides every entry by one number, which is at least zero and at most the first singular value of the array seen as a matrix; with update_stats that number is stored as sigma, without it an existing state stays as it was.", "quantifier": "every array of rank two or more, state, eps > 0 and number of steps, over any ordered field", "why_tests_cant": "an inequality about all matrices and start vectors", "anchors": ["haiku/_src/spectral_norm.py: SpectralNorm.__call__"]}
{"id": "C79", "title": "More power iteration never gives a smaller estimate", "statement": "With eps = 0 and a start vector that the matrix does not map to zero, the estimate of the first singular value is positive and does not become smaller with further updating calls on the same array, or with more steps in a call.", "quantifier": "every matrix, start vector, number of steps and history of calls", "why_tests_cant": "unbounded histories; an inequality about all matrices", "anchors": ["haiku/_src/spectral_norm.py: SpectralNorm.__call__"]}
{"id": "C80", "title": "SpectralNorm accepts the documented ranks", "statement": "By default scalars are returned unchanged and arrays of higher rank are flattened in their leading dimensions; with error_on_non_matrix these cases raise a ValueError.", "quantifier": "every shape, flag and number of steps", "why_tests_cant": "all ranks and step counts", "anchors": ["haiku/_src/spectral_norm.py: SpectralNorm.__call__"]}
{"id": "C81", "title": "Default module names separate the words of the class name", "statement": "The default name of a module consists of the words of its class name in lower case, joined by single underscores: a word starts at an upper case letter that follows a lower case letter or digit, or that is not first and precedes a lower case letter; neighbouring upper case letters form one abbreviation.", "quantifier": "every class name made of any number of abbreviations and words", "why_tests_cant": "all class names; tests list a few", "anchors": ["haiku/_src/utils.py: camel_to_snake"]}
{"id": "C82", "title": "EMAParamsTree averages every parameter on its own", "statement": "EMAParamsTree returns a tree with the same names in which ignored parameters are unchanged and every other parameter is replaced by the moving average of its own values over all calls, whatever the order of the trees.", "quantifier": "every history of calls, every tree of parameters, every set of ignored names", "why_tests_cant": "unbounded histories; clashing names of parameters are unusual", "anchors": ["haiku/_src/moving_averages.py: EMAParamsTree"]}
{"id": "C83", "title": "SNParamsTree normalises every parameter", "statement": "SNParamsTree returns a tree with the same names in which ignored parameters are unchanged and every other parameter is divided by its own estimate of its first singular value; the empty regex applies it to all parameters.", "quantifier": "every tree of arrays of any shapes, state and set of ignored names", "why_tests_cant": "all trees and shapes; an inequality about all matrices", "anchors": ["haiku/_src/spectral_norm.py: SNParamsTree"]}
{"id": "C84", "title": "Recurrent cores compute the documented equations", "statement": "VanillaRNN, LSTM and GRU compute for every batch element exactly the documented equations of gates, cell state and hidden state from their parameters, with 1 added to the forget gate's bias of the LSTM; inputs that are scalars or have more than two axes, and for the LSTM a hidden state with other leading axes, are rejected.", "quantifier": "all sizes, batch sizes, parameters, inputs and states over any field, any gate functions", "why_tests_cant": "all sizes and values; tests check shapes and a few numbers", "anchors": ["haiku/_src/recurrent.py: VanillaRNN.__call__", "haiku/_src/recurrent.py: LSTM.__call__", "haiku/_src/recurrent.py: GRU.__call__"]}
{"id": "C85", "title": "Batch elements go through a recurrent core as if alone", "statement": "If a VanillaRNN, LSTM or GRU accepts a batch, it accepts every element of it without the batch axis and gives the same result; so with ResetCore each element sees the documented recurrence on the segments between its own resets.", "quantifier": "all sizes, batches, parameters, sequences and reset signals", "why_tests_cant": "all batches, sequences and reset patterns", "anchors": ["haiku/_src/recurrent.py: LSTM.__call__", "haiku/_src/recurrent.py: GRU.__call__", "haiku/_src/recurrent.py: VanillaRNN.__call__", "haiku/_src/recurrent.py: ResetCore.__call__"]}
{"id": "C86", "title": "Recurrent states stay bounded over any unroll", "statement": "However long an LSTM is unrolled its outputs are at most 1 in absolute value and its cell state grows by at most 1 per step; the state and outputs of a GRU stay within every bound of at least 1 on the initial state; those of a VanillaRNN are not negative.", "quantifier": "all parameters, inputs, initial states and numbers of steps, in exact arithmetic", "why_tests_cant": "unbounded numbers of steps", "anchors": ["haiku/_src/recurrent.py: LSTM.__call__", "haiku/_src/recurrent.py: GRU.__call__", "haiku/_src/recurrent.py: static_unroll"]}
{"id": "C87", "title": "Recurrent cores keep the shape of their state, so both unrolls agree", "statement": "The next state of VanillaRNN, LSTM and GRU has the shapes of the previous state, as RNNCore demands, so that static_unroll and dynamic_unroll of these cores agree on sequences of at least one step.", "quantifier": "all sizes, states, inputs, parameters and numbers of steps", "why_tests_cant": "all shapes, including those that broadcasting accepts", "anchors": ["haiku/_src/recurrent.py: RNNCore.__call__", "haiku/_src/recurrent.py: GRU.__call__", "haiku/_src/recurrent.py: VanillaRNN.__call__"]}
{"id": "C88", "title": "Attention computes the documented weighted means", "statement": "MultiHeadAttention returns, for each batch element and query, the linear layer of the concatenated heads, each head being the sum of its value heads weighted with the softmax of the masked dot products of query and key heads divided by the square root of the key size; the output has the leading axes of the query and model_size features, sizes that are not given or 0 defaulting to the key size and key_size * num_heads.", "quantifier": "all sizes, parameters, inputs, masks that can be broadcast, and all exponential functions over any ordered field", "why_tests_cant": "all sizes and values; the repository's tests only check output shapes", "anchors": ["haiku/_src/attention.py: MultiHeadAttention.__init__", "haiku/_src/attention.py: MultiHeadAttention.__call__", "haiku/_src/attention.py: MultiHeadAttention._linear_projection"]}
{"id": "C89", "title": "Attention averages values", "statement": "What an attention head returns at a query is an average of its value heads: its weights are not negative and sum to 1, so each component lies within all bounds on the values, whatever queries, keys and mask are.", "quantifier": "all inputs, masks and parameters", "why_tests_cant": "all real inputs", "anchors": ["haiku/_src/attention.py: MultiHeadAttention.__call__"]}
{"id": "C90", "title": "Masked keys have no influence", "statement": "Keys and values whose mask entry is 0 do not influence the output of attention at the query; in particular under a causal mask outputs depend only on inputs up to their position.", "quantifier": "all inputs, masks of zeros and ones and parameters", "why_tests_cant": "independence from all possible values of hidden keys and for all masks", "anchors": ["haiku/_src/attention.py: MultiHeadAttention.__call__"]}
{"id": "C91", "title": "Attention treats batch elements and queries separately", "statement": "The output of attention at a query depends only on that query, the keys and values of its batch element and its row of the mask, not on other batch elements or queries.", "quantifier": "all batch sizes, inputs and masks", "why_tests_cant": "relates all pairs of calls with any batches", "anchors": ["haiku/_src/attention.py: MultiHeadAttention.__call__"]}
{"id": "C92", "title": "The order of keys does not matter", "statement": "Rearranging keys, values and the mask's last axis in the same way does not change the output of attention.", "quantifier": "all rearrangements, sizes, inputs, masks and parameters", "why_tests_cant": "all permutations and inputs", "anchors": ["haiku/_src/attention.py: MultiHeadAttention.__call__"]}
{"id": "C93", "title": "Attention rejects sizes that do not match", "statement": "MultiHeadAttention raises a ValueError if query and key heads differ in size or batch size, or values and keys in number or batch size, unless one of the two sizes is 1.", "quantifier": "all sizes, inputs and parameters", "why_tests_cant": "all combinations of sizes", "anchors": ["haiku/_src/attention.py: MultiHeadAttention.__init__", "haiku/_src/attention.py: MultiHeadAttention.__call__", "haiku/_src/attention.py: MultiHeadAttention._linear_projection"]}
{"id": "C94", "title": "Variance scaling divides by the documented number of units", "statement": "VarianceScaling scales its samples with scale / n, where n is the number of input units, output units or their average by mode (for kernels counted with the receptive field): normal samples by sqrt(scale/n), truncated ones by sqrt(scale/n)/0.8796, and uniform ones are spread over [-limit, limit] with limit = sqrt(3*scale/n); it is made exactly from non-negative scales, known modes and known distributions, whose case does not matter.", "quantifier": "all shapes with elements, scales, modes, distributions, keys and samples", "why_tests_cant": "all shapes and real scales; tests compare a few statistics of samples", "anchors": ["haiku/_src/initializers.py: _compute_fans", "haiku/_src/initializers.py: VarianceScaling.__init__", "haiku/_src/initializers.py: VarianceScaling.__call__"]}
{"id": "C95", "title": "Bounds of initial values", "statement": "RandomUniform stays within its limits, TruncatedNormal within two standard deviations of the mean, UniformScaling with a scale that is not negative within scale*sqrt(3/inputs), and the default weights of linear layers and convolutions within 2/sqrt(inputs).", "quantifier": "all shapes, arguments, keys and samples in range", "why_tests_cant": "all samples and real arguments", "anchors": ["haiku/_src/initializers.py: RandomUniform.__call__", "haiku/_src/initializers.py: TruncatedNormal.__call__", "haiku/_src/initializers.py: UniformScaling.__call__", "haiku/_src/basic.py: Linear.__call__", "haiku/_src/conv.py: ConvND.__call__"]}
{"id": "C96", "title": "Orthogonal initializers are orthogonal", "statement": "Seen as a matrix with one row for each index along the axis, the array of Orthogonal has orthogonal rows with squared length scale^2 if it has at most as many rows as columns, and such columns if it has at most as many columns as rows, for every sample; shapes with fewer than two axes and axes out of range are rejected.", "quantifier": "all shapes, axes, scales and samples", "why_tests_cant": "all shapes of any rank and real samples; tests check a few shapes up to rounding", "anchors": ["haiku/_src/initializers.py: Orthogonal.__call__"]}
{"id": "C97", "title": "Identity and constant initializers", "statement": "Identity puts the gain on the diagonal of the last two axes and zero elsewhere and rejects shapes with fewer than two axes; Constant fills the shape with the constant or rejects constants that cannot be broadcast.", "quantifier": "all shapes, gains and constants", "why_tests_cant": "all shapes of any rank and all gains that can be broadcast", "anchors": ["haiku/_src/initializers.py: Identity.__call__", "haiku/_src/initializers.py: Constant.__call__"]}
{"id": "C98", "title": "Initializers draw exactly one key", "statement": "Each random initializer draws exactly one key from the sequence of keys, and the array it makes depends on nothing but this key and the shape; Constant and Identity draw none.", "quantifier": "all initializers, arguments, shapes and sequences of keys", "why_tests_cant": "relates all pairs of states of the key sequence", "anchors": ["haiku/_src/initializers.py: RandomNormal.__call__", "haiku/_src/initializers.py: VarianceScaling.__call__", "haiku/_src/initializers.py: Orthogonal.__call__", "haiku/_src/base.py: next_rng_key"]}
{"id": "C99", "title": "multinomial draws each category with its probability", "statement": "hk.multinomial returns, for logits of shape [n] or [b, n], num_samples categories per distribution, each being the category whose interval of the cumulative softmax probabilities contains a uniform number of its own (so its chance is its probability); logits of other ranks or without categories are a ValueError.", "quantifier": "all logits, sizes, numbers of samples, keys and uniform numbers up to 1", "why_tests_cant": "all real logits and uniform numbers; tests compare sample frequencies", "anchors": ["haiku/_src/basic.py: multinomial"]}
{"id": "C100", "title": "multinomial never draws impossible categories", "statement": "A category whose probability is 0 (its exponential is rounded to 0, as with logits of -inf) is never drawn by hk.multinomial.", "quantifier": "all logits and uniform numbers", "why_tests_cant": "the failing uniform number has probability about 1e-7", "anchors": ["haiku/_src/basic.py: multinomial"]}
{"id": "C101", "title": "Sequential composes its layers", "statement": "Sequential calls its layers in order with the value of the one before, only the first with the extra arguments of the call; splitting or nesting (non-empty) Sequentials makes no difference, for layers with any effects.", "quantifier": "all lists of layers, inputs, arguments and effects (any monad)", "why_tests_cant": "all layers with any effects on state, names or random numbers", "anchors": ["haiku/_src/basic.py: Sequential.__call__"]}
{"id": "C102", "title": "expand_apply adds and removes one axis", "statement": "expand_apply calls the function with every array given an axis of size 1 in front or at the end, and returns exactly the arrays that, given this axis, are its results; it is the identity on the identity; other axes and results without an axis of size 1 there are a ValueError.", "quantifier": "all functions, arrays, ranks and axes", "why_tests_cant": "all functions and arrays", "anchors": ["haiku/_src/basic.py: expand_apply"]}
{"id": "C103", "title": "one_hot selects exactly the class", "statement": "one_hot gives one more axis for the classes; an index in range selects exactly its class, and an index out of range selects none.", "quantifier": "all arrays of indices and numbers of classes", "why_tests_cant": "all shapes and indices", "anchors": ["haiku/_src/basic.py: one_hot"]}
{"id": "C104", "title": "A convolution treats the examples of a batch one by one, in either data format", "statement": "Whenever a ConvND is called on a batch of inputs and succeeds, the result holds for each example what the call on that example alone returns, computed with the weights, mask and biases of the module; the data format only moves the channel axis; inputs of any other rank and channels that the groups do not divide are rejected before a parameter is made.", "quantifier": "for all numbers of spatial axes, kernels, strides, dilations, paddings, groups, biases, masks, data formats, parameters and inputs", "why_tests_cant": "Tests try a few shapes; dimension numbers and the shape of the bias differ by data format and number of axes, and every batch size must be handled.", "anchors": ["haiku/_src/conv.py: ConvND.__call__", "haiku/_src/conv.py: ConvND.__init__", "haiku/_src/conv.py: to_dimension_numbers"]}
{"id": "C105", "title": "Weights under a zero of the mask of a convolution do not matter", "statement": "With a mask, two sets of weights that agree wherever the mask is not zero give the same result on every input; a mask whose shape is not that of the weights is rejected with a ValueError.", "quantifier": "for all convolutions with a mask, all pairs of weights and all batches", "why_tests_cant": "Tests compare a few masks and weights; the claim is about all weights under the mask.", "anchors": ["haiku/_src/conv.py: ConvND.__call__"]}
{"id": "C106", "title": "A depthwise convolution filters every channel on its own", "statement": "DepthwiseConv2D returns channel_multiplier times as many channels as its input; output channel c is the convolution of input channel c // channel_multiplier alone with slice c of the weights plus bias c, so other channels have no influence; with a padding string it equals the 2-D ConvND with one group for each input channel.", "quantifier": "for all kernel shapes, strides, paddings, multipliers, data formats, parameters and inputs", "why_tests_cant": "Tests compute a few outputs with constant weights, which cannot tell channels apart.", "anchors": ["haiku/_src/depthwise_conv.py: DepthwiseConv2D.__init__", "haiku/_src/depthwise_conv.py: DepthwiseConv2D.__call__"]}
{"id": "C107", "title": "A separable depthwise convolution is the depthwise convolution with the product of its kernels", "statement": "SeparableDepthwiseConv2D returns what DepthwiseConv2D with the same arguments returns when its weights are the products w2[0, j, 0, c] * w1[i, 0, 0, c] of the two kernels and its bias is that of the second convolution.", "quantifier": "for all kernel shapes, strides, paddings, multipliers, data formats, parameters and inputs", "why_tests_cant": "Tests use constant weights, few sizes and stride 1; the claim depends on how strides and paddings of two convolutions combine.", "anchors": ["haiku/_src/depthwise_conv.py: SeparableDepthwiseConv2D.__init__", "haiku/_src/depthwise_conv.py: SeparableDepthwiseConv2D.__call__"]}
{"id": "C108", "title": "A convolutional LSTM computes its documented equations and can start from its initial state", "statement": "ConvNDLSTM on inputs and a state of the same spatial sizes computes the documented gates, cell and hidden state at every position, keeps the shapes, keeps the hidden state within [-1, 1], and a step from initial_state succeeds when input_shape is the shape of the inputs without the batch size.", "quantifier": "for all numbers of spatial axes, sizes, kernels, parameters, inputs, states and batch sizes", "why_tests_cant": "Tests check shapes for a few sizes; the order of the gates and the alignment of the two convolutions cannot be seen from shapes.", "anchors": ["haiku/_src/recurrent.py: ConvNDLSTM.__call__", "haiku/_src/recurrent.py: ConvNDLSTM.initial_state"]}
{"id": "C109", "title": "A convolution without padding commutes with taking parts of its input", "statement": "With VALID padding, convolving the part of an image that starts at o times the strides gives the part of the convolved image that starts at o.", "quantifier": "for all numbers of dimensions, kernel sizes of at least 1, strides, dilations, groups, weights, images and parts", "why_tests_cant": "Tests convolve fixed images; the claim relates two calls for every offset and size.", "anchors": ["haiku/_src/conv.py: ConvND.__call__"]}
{"id": "C110", "title": "A convolution with groups is a convolution for each group", "statement": "With feature_group_count g, group i of the output channels is the convolution without groups of group i of the input channels with the weights and biases of these output channels.", "quantifier": "for all arguments for which the call succeeds, all groups, weights, biases and images", "why_tests_cant": "Tests check the shapes of grouped convolutions or equal weights, which cannot tell groups apart.", "anchors": ["haiku/_src/conv.py: ConvND.__call__"]}
{"id": "C111", "title": "A convolution without bias is linear", "statement": "Without bias, the convolution of a linear combination of images is the linear combination of the convolutions, and likewise for the weights.", "quantifier": "for all arguments for which the calls succeed, all scalars, weights and images", "why_tests_cant": "Tests use one image and one kernel at a time.", "anchors": ["haiku/_src/conv.py: ConvND.__call__"]}
{"id": "C112", "title": "A summary has one record per call of a method", "statement": "eval_summary(f) returns, for every call of a module method made by f other than constructors, params_dict and state_dict, a record with the module, the method, the arguments, the output and the active calls, in the order in which the calls began.", "quantifier": "for all functions, as forests of method calls of any depth, including calls that raise and are caught, and all modules", "why_tests_cant": "Tests summarise a few fixed networks none of whose methods raises.", "anchors": ["haiku/_src/summarise.py: eval_summary", "haiku/_src/summarise.py: log_used_modules", "haiku/_src/summarise.py: get_call_stack"]}
{"id": "C113", "title": "The parameters in a summary are those of the module", "statement": "The parameters in the record of a call are those that params_dict() of the module returns at that point without a summary: those of the module, of modules below its name and of modules it used.", "quantifier": "for all functions, as forests of method calls, all module names and parameters", "why_tests_cant": "Tests use modules whose callers own no parameters themselves, for which the defect does not show.", "anchors": ["haiku/_src/summarise.py: ModuleDetails.of", "haiku/_src/summarise.py: get_call_stack", "haiku/_src/module.py: wrap_method", "haiku/_src/module.py: params_or_state_dict"]}
{"id": "C114", "title": "A table has the columns asked for and a row per matching call", "statement": "tabulate rejects unknown column and filter names at once; otherwise the table has the requested columns in order, with their headers, alignments and texts, and one row, in order, for every call that passes all filters, and it says so when there is none.", "quantifier": "for all lists of column and filter names, all functions, modules and parameters", "why_tests_cant": "Tests compare a few printed tables.", "anchors": ["haiku/_src/summarise.py: tabulate", "haiku/_src/summarise.py: all_columns", "haiku/_src/summarise.py: all_filters"]}
{"id": "C115", "title": "The owned parameters of a row are those of the module itself", "statement": "The column of owned parameters lists each parameter of the module itself, and no parameter of another module, once, larger arrays first and those of equal size by name.", "quantifier": "for all functions, module names, parameter names and shapes", "why_tests_cant": "Tests use parameters w and b only.", "anchors": ["haiku/_src/summarise.py: owned_params", "haiku/_src/summarise.py: format_owned_params"]}
{"id": "C116", "title": "Numbers of bytes are shown to the nearest hundredth of the right unit", "statement": "format_bytes shows a number with two decimals and the largest unit up to TB that does not exceed the number of bytes; the number shown is the nearest multiple of a hundredth of the unit, ties to even.", "quantifier": "for all numbers of bytes", "why_tests_cant": "There are infinitely many numbers; the interesting ones lie at rounding and unit boundaries.", "anchors": ["haiku/_src/utils.py: format_bytes"]}
{"id": "C117", "title": "The texts of arrays and counts can be read back", "statement": "The text of an array with a JAX dtype is the short name of the dtype and, in brackets, its sizes; two arrays with the same text have the same shape and dtype; a count shown with commas has groups of three digits and reads as the number.", "quantifier": "for all shapes, dtypes and numbers", "why_tests_cant": "Tests check the text of a few arrays.", "anchors": ["haiku/_src/utils.py: format_array", "haiku/_src/utils.py: simple_dtype", "haiku/_src/utils.py: tree_size", "haiku/_src/summarise.py: all_columns"]}
{"id": "C118", "title": "A residual network runs on every batch of pictures", "statement": "A ResNet whose blocks change sizes only where they have a projection, in particular ResNet18 to ResNet200 in both versions, runs on batches of any number of pictures of any size, in training from new states and afterwards in evaluation, gives one number per class and picture, and asks for no other parameters than the listed ones with the listed shapes.", "quantifier": "for all numbers of blocks, channels, classes, projections and batch normalisation settings, all batch and picture sizes, all parameter values and ready states", "why_tests_cant": "Tests run a few networks on one picture size.", "anchors": ["haiku/_src/nets/resnet.py: ResNet.__call__", "haiku/_src/nets/resnet.py: ResNet.CONFIGS", "haiku/_src/nets/resnet.py: BlockGroup.__call__"]}
{"id": "C119", "title": "When a residual network can be made, and blocks without projection", "statement": "ResNet.__init__ succeeds exactly when the arguments have the required lengths and the batch normalisation settings fit the blocks, and what it makes is determined. A block without projection runs exactly where the sizes before and after its layers can be broadcast.", "quantifier": "for all arguments; for all strides, channels and picture sizes", "why_tests_cant": "Tests check one wrong length each.", "anchors": ["haiku/_src/nets/resnet.py: ResNet.__init__", "haiku/_src/nets/resnet.py: BlockV1.__init__", "haiku/_src/nets/resnet.py: BlockV2.__init__", "haiku/_src/nets/resnet.py: check_length"]}
{"id": "C120", "title": "A residual network at the start of training", "statement": "With the initial scale 0 (and offset 0) in its last batch normalisation a block of version 1 computes only its shortcut, i.e. the input where it is positive; with initial weights and bias 0 in the last layer every output of the network is 0.", "quantifier": "for all networks, inputs, states and values of the other parameters, in training and evaluation", "why_tests_cant": "Tests do not look at the values.", "anchors": ["haiku/_src/nets/resnet.py: BlockV1.__call__", "haiku/_src/nets/resnet.py: BlockV1.__init__", "haiku/_src/nets/resnet.py: ResNet.__init__"]}
{"id": "C121", "title": "A residual network treats the pictures of a batch alike", "statement": "In evaluation with averages the outputs for a picture do not depend on the other pictures of the batch, and no state changes; in training another order of the pictures gives that order of the outputs and the same states; training changes exactly the states of the network's batch normalisations.", "quantifier": "for all networks, batches, choices and orders of examples, parameter values and states", "why_tests_cant": "Tests run a network on one batch.", "anchors": ["haiku/_src/nets/resnet.py: ResNet.__call__", "haiku/_src/nets/resnet.py: BlockV1.__call__", "haiku/_src/nets/resnet.py: BlockV2.__call__"]}
{"id": "C122", "title": "The layers of a residual network have distinct names", "statement": "No two batch normalisations of a ResNet have the same name, and no two parameters the same module and name, so none are shared.", "quantifier": "for all networks, whatever the number of blocks, and names of the last layer other than those of other layers", "why_tests_cant": "Tests see only networks with few blocks.", "anchors": ["haiku/_src/nets/resnet.py: BlockGroup.__init__", "haiku/_src/nets/resnet.py: ResNet.__init__", "haiku/_src/nets/resnet.py: BlockV1.__init__"]}
{"id": "C123", "title": "When a MobileNet can be made and runs", "statement": "MobileNetV1 can be made exactly if there are as many strides as numbers of channels. With its parameters it then runs on batches of any number of pictures of any size exactly if all strides are positive and no block but the last has 0 output channels, gives one number per class and picture, and asks for no other parameters than the listed ones with the listed shapes.", "quantifier": "for all strides, channels, numbers of classes, with and without batch normalisation, all batch and picture sizes, all parameter values and ready states", "why_tests_cant": "Tests run two configurations on one picture size.", "anchors": ["haiku/_src/nets/mobilenetv1.py: MobileNetV1.__init__", "haiku/_src/nets/mobilenetv1.py: MobileNetV1.__call__", "haiku/_src/nets/mobilenetv1.py: MobileNetV1Block.__call__"]}
{"id": "C124", "title": "A MobileNet computes the equations of separable convolutions", "statement": "A block convolves each channel by itself with a 3 by 3 kernel and one row of zeros on each side, then mixes the channels at each position, each followed by batch normalisation or else a bias, and relu. The network is a 3 by 3 convolution with stride 2, the blocks in order, the averages of the channels, and a linear layer; in training the batch normalisations use the averages of the batch, in evaluation the stored ones.", "quantifier": "for all strides, channels, classes, parameters, states, batches and every element of the output, in training and evaluation", "why_tests_cant": "Tests check only the shape of the output.", "anchors": ["haiku/_src/nets/mobilenetv1.py: MobileNetV1Block.__call__", "haiku/_src/nets/mobilenetv1.py: MobileNetV1.__call__"]}
{"id": "C125", "title": "A MobileNet treats examples alike and learns averages", "statement": "In evaluation every choice of examples gives the same choice of outputs and no state changes. In training another order of the examples gives that order of outputs and the same states; the averages of what each batch normalisation gets are added to its stored ones with decay 0.999, no other state changes, and after the first batch the stored averages are those of this batch.", "quantifier": "for all networks that can run, all batches, orders and choices of examples, parameters and states", "why_tests_cant": "Tests do not compare runs on different batches or look at the states.", "anchors": ["haiku/_src/nets/mobilenetv1.py: MobileNetV1.__call__", "haiku/_src/nets/mobilenetv1.py: MobileNetV1Block.__call__", "haiku/_src/batch_norm.py: BatchNorm.__call__"]}
{"id": "C126", "title": "The modules of a MobileNet have different names", "statement": "The batch normalisations of a MobileNetV1 all have different names, and no two of its parameters have the same module and name, although the blocks and the batch normalisations in a block are made with one name each and told apart by numbers only.", "quantifier": "for all names of the network, numbers of blocks, channels and classes, with and without batch normalisation", "why_tests_cant": "Tests do not list the names of a network with more than a few blocks.", "anchors": ["haiku/_src/nets/mobilenetv1.py: MobileNetV1.__call__", "haiku/_src/module.py: unique_and_canonical_name"]}
{"id": "C127", "title": "The sizes inside a MobileNet", "statement": "Before the average is taken, a picture of H by W has (H - 1) / 2 by (W - 1) / 2 positions divided by the product of all strides, rounded up once at the end; for the standard network these are 7 by 7 for 224 by 224 and 1 by 1 for 32 by 32, and the average has two axes.", "quantifier": "for all picture sizes, strides and channels", "why_tests_cant": "Tests look at one picture size and only at the final output.", "anchors": ["haiku/_src/nets/mobilenetv1.py: MobileNetV1.__call__", "haiku/_src/nets/mobilenetv1.py: MobileNetV1Block.__call__"]}
{"id": "C128", "title": "A residual network computes its equations", "statement": "A block of version 1 is relu of its input, or of the batch-normalised 1 by 1 projection of it, plus two or three convolutions, each batch-normalised, with relu between them; a block of version 2 has batch normalisation and relu before each convolution, adds its input or the projection of the input after the first relu, and has no relu at the end. The network is a 7 by 7 convolution with stride 2, in version 1 with batch normalisation and relu, the greatest elements of 3 by 3 windows with stride 2, the groups of blocks, in version 2 batch normalisation and relu, the averages of the channels and a linear layer. Zeros are added around pictures so that sizes are divided by the strides, rounded up.", "quantifier": "for all networks that can be made and fit together, both versions, with and without bottleneck, all parameters, states and batches and every element of the output, in training, with local statistics and in evaluation", "why_tests_cant": "Tests check the shape of the output of a few standard networks.", "anchors": ["haiku/_src/nets/resnet.py: BlockV1.__call__", "haiku/_src/nets/resnet.py: BlockV2.__call__", "haiku/_src/nets/resnet.py: BlockGroup.__call__", "haiku/_src/nets/resnet.py: ResNet.__call__", "haiku/_src/pool.py: max_pool"]}
{"id": "C129", "title": "A residual network learns the averages of its activations", "statement": "In training, the averages and variances of exactly what each batch normalisation of a block or network gets are added to its stored ones, with the decay of the settings or 0.9; no other state changes. After the first batch, if the decay is not 1, the stored averages are those of this batch.", "quantifier": "for all networks that can be made and fit together, parameters, states and batches", "why_tests_cant": "Tests do not look at the states of a network.", "anchors": ["haiku/_src/nets/resnet.py: BlockV1.__call__", "haiku/_src/nets/resnet.py: BlockV2.__call__", "haiku/_src/nets/resnet.py: ResNet.__call__", "haiku/_src/batch_norm.py: BatchNorm.__call__"]}
{"id": "C130", "title": "Recording gives the graph of what a function did", "statement": "`to_graph` returns a graph with a node for each operation of the function, in the cluster of the innermost call of a method or compiled function in which it happened, with the values it returned and an edge from each operand; a cluster for each call of a method that returned and each call of a compiled function, in order. If nothing raises, every operation is in the graph exactly once. If the function raises, so does recording. Graphs made before are not changed.", "quantifier": "for all functions, given by the trees of operations, calls of methods, compiled functions, functions with custom derivatives, caught exceptions and settings of named calls, and all graphs made before", "why_tests_cant": "Tests check that some operations and modules of three small functions are in the text.", "anchors": ["haiku/_src/dot.py: to_graph", "haiku/_src/dot.py: DotTrace.process_primitive", "haiku/_src/dot.py: DotTrace.process_call", "haiku/_src/dot.py: to_graph.method_hook"]}
{"id": "C131", "title": "Recording and drawing leave no traces", "statement": "The stack of graphs is after recording what it was before, and `to_dot` also leaves the setting of named calls as it was, whether the function returns or raises and whatever it sets. The clusters drawn are those of the calls of methods and compiled functions, never those that named calls would add at the start.", "quantifier": "for all functions and all settings before", "why_tests_cant": "Tests do not draw functions that raise or set named calls.", "anchors": ["haiku/_src/dot.py: to_dot", "haiku/_src/dot.py: to_graph"]}
{"id": "C132", "title": "The drawing has the clusters of the graph", "statement": "Read from the top, the lines of a drawing open and close clusters properly nested, and give exactly the nodes and clusters of the graph with their titles; arguments and captured values are outside. The title of a cluster has a smaller font than that of the cluster around it, and none is smaller than 19.", "quantifier": "for all graphs, arguments and outputs", "why_tests_cant": "Tests do not read the text back.", "anchors": ["haiku/_src/dot.py: _graph_to_dot", "haiku/_src/dot.py: _max_depth", "haiku/_src/dot.py: _scaled_font_size"]}
{"id": "C133", "title": "The drawing has an edge for each operand", "statement": "The edges drawn are exactly the edges of the graph: each operand of an operation of the function is joined to it, as often as it is an operand. Edges from an argument start at copies of it, numbered 0, 1, 2, \u2026, one for each edge.", "quantifier": "for all functions, arguments and outputs", "why_tests_cant": "Tests do not read the text back.", "anchors": ["haiku/_src/dot.py: _graph_to_dot", "haiku/_src/dot.py: DotTrace.process_primitive"]}
{"id": "C134", "title": "Edges join declared nodes", "statement": "Every edge of the drawing joins two nodes that are declared: operations, copies of arguments and captured values.", "quantifier": "for all functions that do not use a value before it is made, all arguments and outputs", "why_tests_cant": "A program graphviz gets an edge from an unknown node for draws a node without a label; tests do not draw functions with operations that return more than one value.", "anchors": ["haiku/_src/dot.py: _graph_to_dot"]}
{"id": "C135", "title": "Nothing is declared twice", "statement": "Each operation, copy of an argument and captured value is declared once in a drawing.", "quantifier": "for all functions that do not use a value before it is made, all arguments and outputs", "why_tests_cant": "Tests do not use a captured value twice or pass one object as two arguments.", "anchors": ["haiku/_src/dot.py: _graph_to_dot"]}
{"id": "C136", "title": "Different nodes have different names", "statement": "In the text, edges are written between the names under which their ends are declared, and different operations, copies of arguments and captured values have different names, as have different clusters.", "quantifier": "for all recorded functions, arguments and outputs", "why_tests_cant": "Names are made of addresses, which differ from run to run.", "anchors": ["haiku/_src/dot.py: _graph_to_dot"]}
{"id": "C137", "title": "Labels show the texts they are made of", "statement": "A label reads as the title of the graph, cluster or operation, the path of the argument or output, and the types of values, whatever characters these have.", "quantifier": "for all titles, paths and values", "why_tests_cant": "Tests have no titles or keys with the characters `<`, `>` and `&`.", "anchors": ["haiku/_src/dot.py: escape", "haiku/_src/dot.py: _format_val", "haiku/_src/dot.py: _graph_to_dot"]}
{"id": "C138", "title": "Outputs are marked", "statement": "Each value that the function returns is marked as an output in the drawing, with its path, and nothing else is.", "quantifier": "for all graphs, arguments and outputs", "why_tests_cant": "Tests do not look at marks.", "anchors": ["haiku/_src/dot.py: _graph_to_dot", "haiku/_src/dot.py: _graph_to_dot.format_path"]}
{"id": "C139", "title": "Drawing does not fail", "statement": "Drawing a graph gives a text: the head, the lines in order, and the closing brace.", "quantifier": "for all graphs, and all arguments and outputs whose leaves have paths as `tree.flatten_with_path` gives them for tuples", "why_tests_cant": "Tests draw three functions.", "anchors": ["haiku/_src/dot.py: _graph_to_dot"]}
{"id": "C140", "title": "The language model looks at nothing after a token and at no padding", "statement": "The logits of the transformer example at a position depend only on the token at that position and on the real tokens (above 0) before it in the same sequence. They do not depend on later tokens, on which padding tokens are used, or on other sequences of the batch; also in training, with the same keys.", "quantifier": "for all parameters with moderate attention weights, numbers of heads, layers and tokens, sequences, and positions", "why_tests_cant": "There are no tests of the example; causality over all positions and layers needs all tokens.", "anchors": ["examples/transformer/model.py: CausalSelfAttention.__call__", "examples/transformer/model.py: Transformer.__call__", "examples/transformer/train.py: build_forward_fn.forward_fn"]}
{"id": "C141", "title": "The transformer is a stack of pre-normalised residual layers", "statement": "For a width of 64 for each head and at least one layer, the forward pass gives logits of shape [batch, time, vocabulary], equal to the equations of a pre-norm transformer: attention and two linear layers of the normalised rows are added in turn, and the result is normalised and multiplied by the output matrix. Other widths than 1 raise, and so does a transformer without layers. Outside of training the output does not depend on any random number.", "quantifier": "for all parameters, elementary functions, sizes, tokens and keys", "why_tests_cant": "There are no tests of the example.", "anchors": ["examples/transformer/model.py: Transformer.__call__", "examples/transformer/model.py: DenseBlock.__call__", "examples/transformer/model.py: CausalSelfAttention.__call__", "examples/transformer/model.py: layer_norm", "examples/transformer/train.py: build_forward_fn.forward_fn"]}
{"id": "C142", "title": "The loss is the mean cross-entropy over real tokens", "statement": "The loss is the mean over the positions with a real token of the negative logarithm of the probability that the softmax of the logits gives the target. Neither padding tokens, wherever they are, nor targets at padding have any influence on it.", "quantifier": "for all parameters with moderate attention weights, tokens and targets with at least one real token", "why_tests_cant": "There are no tests of the example.", "anchors": ["examples/transformer/train.py: lm_loss_fn", "examples/transformer/train.py: build_forward_fn.forward_fn"]}
{"id": "C143", "title": "A bias is added where it belongs, and can be taken off again", "statement": "`Bias` keeps the shape of its input and adds to each element the element of the bias at the coordinates in the selected dimensions, times the multiplier; elements that agree in these coordinates get the same, in particular all examples of a batch. Adding with a multiplier and then with its negative gives the input back. Exactly the inputs of rank 2 or more are taken whose dimensions have a bias shape and whose size is the one the module was made for, if any.", "quantifier": "for all inputs, biases, selections of dimensions and multipliers that broadcast to the input", "why_tests_cant": "Tests check a few shapes with one bias.", "anchors": ["haiku/_src/bias.py: Bias.__call__", "haiku/_src/bias.py: Bias.__init__", "haiku/_src/bias.py: calculate_bias_shape"]}
{"id": "C144", "title": "Top-k masks of the pruning example keep the largest elements, and as many as asked for", "statement": "`topk_mask` returns an array of zeros and ones of the shape of its argument. The number of ones is the integer nearest to the fraction of the size (the even one of two), cut to the range from 0 to the size. No element that is kept is smaller than one that is dropped. A larger fraction keeps everything that a smaller one keeps, 1 keeps all and 0 none. Among equal elements no position is preferred: the shuffle alone decides.", "quantifier": "for all arrays of every shape, fractions, sorting orders that `argsort` may return and shuffles", "why_tests_cant": "Tests see one shuffle, one sort and a few arrays.", "anchors": ["examples/mnist_pruning.py: topk_mask"]}
{"id": "C145", "title": "Masks of the pruning example prune the chosen parameters and leave the others as they are", "statement": "Every parameter belongs to the first predicate that accepts it, or to none. `apply_mask` with masks made by `update_mask` keeps all names and shapes, leaves parameters without a predicate unchanged, and multiplies each other one by its mask: the elements of largest absolute value survive unchanged, as many as the integer nearest to `(1 - sparsity * fraction) * size`, and the others become zero. Applying masks twice is the same as once. `get_sparsity` counts all elements and the non-zero ones. `module_matching` accepts weights, but no biases, vectors or batch norms, of modules whose names end in the given string.", "quantifier": "for all parameters, lists of predicates and sparsities, fractions, sorts and shuffles", "why_tests_cant": "Tests see one network and one list of predicates.", "anchors": ["examples/mnist_pruning.py: apply_mask", "examples/mnist_pruning.py: update_mask", "examples/mnist_pruning.py: _create_partitions", "examples/mnist_pruning.py: get_sparsity"]}
{"id": "C146", "title": "Training with pruning: masked weights stay fixed between updates of the masks", "statement": "The loop of the pruning example does not fail for any number of rounds. In each round the updates are computed at the masked parameters, and each parameter moves by its update times its mask. So between two updates of the masks the elements that are masked out keep their values, for every optimiser. The masks in use are those of the last round whose number is a multiple of 200.", "quantifier": "for all networks, optimisers that return updates of the shapes of the parameters, and numbers of rounds", "why_tests_cant": "The example has no test; a test would see one optimiser and a few rounds.", "anchors": ["examples/mnist_pruning.py: main"]}
{"id": "C147", "title": "The pruning schedule rises from iteration 1000 to iteration 8000", "statement": "The fraction of the sparsity that is in force is 0 up to iteration 1000, never falls, is 1 from iteration 8000 on, and after the whole loop every chosen parameter has the sparsity asked for.", "quantifier": "for all steps, networks, optimisers and sparsities", "why_tests_cant": "Tests see single steps.", "anchors": ["examples/mnist_pruning.py: zhugupta_func", "examples/mnist_pruning.py: main"]}
{"id": "C148", "title": "`impala_lite` runs to its end and uses every trajectory at most once, under every interleaving", "statement": "The actors and the learner of `impala_lite`, which share a queue of the size of a batch, never deadlock and never run for ever: every interleaving can be continued until all actors have put all their trajectories and the learner has made `num_actors * trajectories_per_actor // batch_size` updates, and its length is bounded. Every update has a full batch; no trajectory is used twice; those of one actor are used in their order; at the end exactly the remainder of the division is left in the queue.", "quantifier": "for all interleavings, numbers of actors and trajectories, and batch sizes above zero", "why_tests_cant": "The test runs one interleaving with 2 actors and 2 trajectories each; there are exponentially many.", "anchors": ["examples/impala_lite.py: run", "examples/impala_lite.py: run_actor"]}
{"id": "C149", "title": "The pipeline of the IMPALA learner neither loses, repeats nor reorders trajectories", "statement": "In every state that actors, worker thread and learner can reach together, the trajectories that an actor has put are, in their order and each once, in the batches that were used, the batch in use, the second queue, the batch that the worker builds and the first queue, also if the worker ran into timeouts. All batches are full, the queues keep their bounds, the frame count is the number of updates times `frames_per_iter`, and no trajectory is used for an update that comes before its parameters.", "quantifier": "for all interleavings, numbers of actors, batch sizes and iterations", "why_tests_cant": "Tests run one interleaving with one actor and one trajectory.", "anchors": ["examples/impala/learner.py: Learner.host_to_device_worker", "examples/impala/learner.py: Learner.run", "examples/impala/learner.py: Learner.enqueue_traj"]}
{"id": "C150", "title": "`Learner.run` returns after its last update", "statement": "After `max_iterations` updates `Learner.run` stops its worker thread and returns, whatever the actors do.", "quantifier": "for all interleavings, numbers of actors, batch sizes and iterations", "why_tests_cant": "The test feeds one trajectory, with which the worker cannot block; the hang needs two batches more than iterations and an unlucky interleaving.", "anchors": ["examples/impala/learner.py: Learner.run", "examples/impala/learner.py: Learner.host_to_device_worker"]}
{"id": "C151", "title": "The IMPALA example ends after the learner has returned", "statement": "After `Learner.run` has returned and `stop_signal` is set, all actor threads end and `main` returns.", "quantifier": "for all interleavings, numbers of actors, batch sizes and iterations", "why_tests_cant": "No test runs `main`; the hang depends on the interleaving.", "anchors": ["examples/impala/run_catch.py: main", "examples/impala/run_catch.py: run_actor"]}
{"id": "C152", "title": "The trajectories of an IMPALA actor are overlapping windows of one interaction", "statement": "However many unrolls an actor makes, with whatever parameters, its trajectories are windows of one uninterrupted interaction of agent and environment: each has `unroll_length + 1` transitions, each starts with the transition that the one before ends with, and without their last transitions they give the interaction, each transition once. No key is used twice. If the learner unrolls the network over the time steps of a trajectory with the actor's parameters, from the recorded agent state, it gets the outputs that the actor recorded.", "quantifier": "for all agents, environments, unroll lengths, numbers of unrolls and parameters", "why_tests_cant": "The test makes two unrolls of one fake environment and looks at the length of the trajectories.", "anchors": ["examples/impala/actor.py: Actor.unroll", "examples/impala/actor.py: Actor.unroll_and_push", "examples/impala/util.py: preprocess_step", "examples/impala/agent.py: Agent.step"]}
{"id": "C153", "title": "The episode returns that an actor logs are the sums of the rewards of the episodes", "statement": "The logger gets for each finished episode, in order, the sum of its rewards, also if an episode is spread over several trajectories, and the actor keeps the sum of the rewards of the unfinished one. An actor stops with an error exactly at a last step without reward.", "quantifier": "for all agents, environments and numbers of unrolls", "why_tests_cant": "No test reads the returns that are logged.", "anchors": ["examples/impala/actor.py: Actor.unroll"]}
{"id": "C154", "title": "The IMPALA loss is a sum over the steps within episodes", "statement": "The loss of a batch is the sum, not the mean, over all trajectories and times of the policy gradient, baseline and entropy terms with the weights 1, 1/4 and -1/100, where a time whose next step begins an episode counts nothing. A time takes the value and logits of the learner and the action and logits of the actor at this time, and value, reward, discount and step type of the next. What the actor put out at the last time and the agent states but the first are not read.", "quantifier": "for all networks, parameters, batches and settings", "why_tests_cant": "The test looks at the shapes of one update with a fake trajectory.", "anchors": ["examples/impala/learner.py: Learner._loss", "examples/impala/learner.py: policy_gradient_loss", "examples/impala/learner.py: entropy_loss"]}
{"id": "C155", "title": "On policy, the V-trace targets of the IMPALA learner are discounted returns", "statement": "If the learner has the parameters with which the actor made a trajectory, all importance ratios are those of a policy with itself, the targets are the discounted sums of the rewards that follow with the value of the last step for what comes after, and the advantages are targets minus values.", "quantifier": "for all networks, trajectories and settings", "why_tests_cant": "Tests have fake rewards and look at no targets.", "anchors": ["examples/impala/learner.py: Learner._loss"]}
{"id": "C156", "title": "The IMPALA loss keeps episodes apart", "statement": "If a trajectory goes over the end of an episode, its loss is that of the part up to the end plus that of the part from the first step of the next episode.", "quantifier": "for all networks that reset their state at first steps, trajectories and settings", "why_tests_cant": "No test has a trajectory over the end of an episode and looks at its loss.", "anchors": ["examples/impala/learner.py: Learner._loss"]}
{"id": "C157", "title": "The divergence of the VAE example is the Kullback-Leibler divergence", "statement": "For every batch of means and nonzero standard deviations, kl_gaussian(mean, stddev**2) returns for each example the Kullback-Leibler divergence, as defined by measure theory, of the normal distribution with independent entries of these means and deviations from the standard normal distribution; it is never negative and zero exactly if all means are 0 and all variances 1.", "quantifier": "all batch sizes, all numbers of latent variables, all means and nonzero deviations", "why_tests_cant": "Tests compare the formula with itself or with estimates at sample points; that the closed form is the integral of the log density ratio for all parameters is a statement about integrals.", "anchors": ["examples/vae.py: kl_gaussian"]}
{"id": "C158", "title": "The binary cross entropy of the VAE example is the negative log-likelihood", "statement": "binary_cross_entropy raises ValueError exactly if the shapes differ, IndexError for scalars, and otherwise returns for each example of 0/1 pixels the negative logarithm of the probability that independent Bernoulli variables with the given log-odds produce exactly these pixels; it is positive as soon as there is a pixel.", "quantifier": "all shapes, all binary images, all logits", "why_tests_cant": "Image shapes and logits are unbounded; the product over pixels has exponentially many outcomes.", "anchors": ["examples/vae.py: binary_cross_entropy"]}
{"id": "C159", "title": "The loss of the VAE example bounds the evidence", "statement": "For all parameters of encoder and decoder and every batch of binary images of the shape the network makes, the loss is defined, is the average over the images of the negative log-probability of the image given its code plus the divergence of the distribution of the code from the standard normal, and is not negative; averaged over standard normal noise it is at least the average negative log-probability of the images under the generative model (decoder of a standard normal code). For other shapes it raises. The pixels of the returned image are white with the probability that the decoder gives.", "quantifier": "all parameters, network sizes, batches of binary images, noise", "why_tests_cant": "The bound is about an integral over all codes for all parameters; a test only sees Monte Carlo estimates at some parameters.", "anchors": ["examples/vae.py: Encoder.__call__", "examples/vae.py: Decoder.__call__", "examples/vae.py: VariationalAutoEncoder.__call__", "examples/vae.py: main (loss_fn)"]}
{"id": "C160", "title": "The loss of the character model is the mean surprise of the targets, and causal", "statement": "For all parameters and every batch of texts of shape [T, B] with targets of the same shape, sequence_loss is the mean over all T*B positions of minus the logarithm of the probability that the network (one-hot, LSTM, ReLU, LSTM, MLP, softmax), run over the text up to and including this position, gives to the target; targets that are no characters (128 or more) count as 0; the terms of a position do not depend on later inputs or on other texts of the batch. Inputs that are not of rank 2 raise ValueError.", "quantifier": "all parameters, hidden sizes, batch sizes, lengths, inputs and targets", "why_tests_cant": "Texts of all lengths and all parameters; tests compare single batches.", "anchors": ["examples/rnn/train.py: make_network", "examples/rnn/train.py: sequence_loss"]}
{"id": "C161", "title": "The loss and the sampling of the character model belong to one distribution of texts", "statement": "The probabilities that the network gives to the continuations of a text, of each length, are positive, multiply along the text, and sum to 1. If targets are the inputs one step later, exp(-loss*T*B) is the product over the texts of the batch of the probability that sample, given the first character, returns the others; for batches of chunks made by the data set it is the product of the probabilities that the chunks' first characters are continued as in the text.", "quantifier": "all parameters, all texts, all batches", "why_tests_cant": "The sum runs over 128^n continuations; probabilities of samples can only be estimated by running.", "anchors": ["examples/rnn/train.py: sequence_loss", "examples/rnn/train.py: sample", "examples/rnn/dataset.py: load"]}
{"id": "C162", "title": "The sampling of the character model is ancestral", "statement": "For every context of at least one character, sample returns sample_length tokens, each drawn from the logits of the network after the context and all tokens before it, each with a key of its own; it returns a list exactly if each token is what is drawn so. So if different keys give independent noise and drawing is exact, the probability of each list of characters is that of the model. A shorter sample is a prefix of a longer one with the same key; if categorical returns classes, all tokens are characters and decode does not raise; contexts that are not of rank 1 raise AssertionError.", "quantifier": "all parameters, keys, contexts, lengths, ways of drawing", "why_tests_cant": "Randomness and unbounded lengths: the out of bounds write of the last step, the order of splits and the carried state matter for all lengths.", "anchors": ["examples/rnn/train.py: sample", "examples/rnn/dataset.py: decode"]}
{"id": "C163", "title": "The batches of the character data set tile the text and the epochs", "statement": "A text of n one-byte characters gives (n-1)/L chunks (rounded down) of L inputs and targets; chunk c starts at character c*L, and each target is the character after its input. Batches are the epochs one after the other, also where an epoch ends inside a batch, so batches that make up whole epochs contain each chunk once per epoch if each epoch is a permutation. The arrays are time major. Texts with a character of several bytes raise.", "quantifier": "all texts, sequence lengths, batch sizes, numbers of epochs, orders", "why_tests_cant": "Off-by-one errors at the ends of chunks, epochs and texts depend on all combinations of lengths.", "anchors": ["examples/rnn/dataset.py: load"]}
{"id": "C164", "title": "The shards of a split of ImageNet tile it", "statement": "For every split and every number of shards from 1 to the number of examples, _shard gives consecutive, non-empty intervals, whose lengths differ by at most one, from the first to the last position of the split, so each example is in exactly one shard. With more shards than examples exactly the shards from the number of examples on raise IndexError; an index of at least the number of shards raises AssertionError, a negative index counts from the end. TRAIN and VALID have no example in common and together are TRAIN_AND_VALID; TEST is from another split of tfds.", "quantifier": "all splits, numbers of hosts, host indices", "why_tests_cant": "All numbers of hosts and remainders; tests run on one host.", "anchors": ["examples/imagenet/dataset.py: _shard", "examples/imagenet/dataset.py: _to_tfds_split", "examples/imagenet/dataset.py: Split"]}
{"id": "C165", "title": "The learning rate of the ImageNet example rises linearly and falls as a cosine", "statement": "With more epochs than warm-up epochs the rate is peak*step/warmup in the warm up and peak*(1+cos(pi*(step-warmup)/(last-warmup)))/2 after it, with peak = lr_init*total_batch_size/256; it is between 0 and the peak, strictly increasing in the warm up, strictly decreasing until the last step, where it is 0. All steps of the training loop are before that, so each has a positive rate, except that the first one has rate 0 if there is a warm up.", "quantifier": "all flags, device counts, steps", "why_tests_cant": "Real valued steps and all settings of the flags; rounding down of the number of steps and the fraction of steps per epoch only matter for some.", "anchors": ["examples/imagenet/train.py: lr_schedule", "examples/imagenet/train.py: main"]}
{"id": "C166", "title": "The loss of the ImageNet example is a smoothed cross entropy whose least value is known", "statement": "For every batch the loss is the mean over the examples of (1-s)*(-log p(label)) + s*mean over classes of -log p, plus weight decay times half the sum of squares of the parameters of all modules without 'batchnorm' in their name. The smoothed labels are distributions. With smoothing s > 0 the loss is at least the entropy of a smoothed label plus the decay, with equality exactly if the predicted probabilities are the smoothed labels, which is possible.", "quantifier": "all logits, labels, parameters, smoothings in [0,1], weight decays", "why_tests_cant": "A bound over all logits, with its case of equality.", "anchors": ["examples/imagenet/train.py: loss_fn", "examples/imagenet/train.py: smooth_labels", "examples/imagenet/train.py: softmax_cross_entropy", "examples/imagenet/train.py: l2_loss"]}
{"id": "C167", "title": "The devices of the ImageNet example keep the same parameters", "statement": "If all devices start with the same parameters and state of the optimiser they have the same after any number of steps, whatever batches they get; each step applies the optimiser to the mean of the gradients of the devices. If the gradient of a batch is the mean over its examples, this is the mean over all examples of all devices, however they are spread. The network states are not kept equal.", "quantifier": "all networks, losses, optimisers, data, numbers of devices and steps", "why_tests_cant": "All numbers of devices and steps; an error shows only as slow drift.", "anchors": ["examples/imagenet/train.py: train_step", "examples/imagenet/train.py: main"]}
{"id": "C168", "title": "The evaluation of the ImageNet example counts each example once", "statement": "If the batch size divides the number of examples of the split, evaluate returns the number of examples whose label is the first class of largest logit over the number of examples of the split, whatever the batch size; otherwise it raises ValueError, and AssertionError if the data set has another number of examples.", "quantifier": "all networks that treat the examples of a batch on their own, all data sets and batch sizes", "why_tests_cant": "All divisors and all data sets of full length.", "anchors": ["examples/imagenet/train.py: evaluate", "examples/imagenet/train.py: eval_batch", "examples/imagenet/dataset.py: load"]}
{"id": "C169", "title": "Crops, transposes and batches of the ImageNet data set", "statement": "The centre crop of an image of any size is a square inside the image with side 7/8 of the shorter side, rounded down, whose margins on opposite sides differ by at most one. The transpose of the network undoes the transpose of the data set. Step k of training gives device d as its example j the example number (k*devices+d)*size+j, so each example goes to one place.", "quantifier": "all image sizes, arrays, numbers of devices and batch sizes, steps", "why_tests_cant": "All sizes and parities; all streams.", "anchors": ["examples/imagenet/dataset.py: _decode_and_center_crop", "examples/imagenet/dataset.py: load", "examples/imagenet/train.py: _forward"]}
{"id": "C170", "title": "The updater of the transformer example runs the optimiser, counts its steps and uses no key twice", "statement": "After any number of updates the state counts them, and its parameters and optimiser state are those of the optimiser run on the gradients of the losses one after the other from the initial ones; the metrics report the steps 0, 1, 2, ... in turn, each with the loss of the parameters before the update on the data of the update. The keys given to the initialisation and to the losses of any number of updates are all different, differ from the master key, do not depend on the data, and none was split off from another.", "quantifier": "all networks, losses, optimisers, keys, data, numbers of updates", "why_tests_cant": "Freshness of keys over runs of any length; a reused key only shows in statistics.", "anchors": ["examples/transformer/train.py: Updater.init", "examples/transformer/train.py: Updater.update"]}
{"id": "C171", "title": "Checkpoints of the transformer example hold states of training, whatever crashes happen", "statement": "In every execution, with crashes at any point (also while a file is written), starts with listings in any order and any data, every state in memory and in a complete file is one of training without interruption on some data; files of different steps have different names, a file holds the state of the step in its name, which is a multiple of the interval, and files never vanish. If the data is determined by the step, each state is that of uninterrupted training at its step, so crashes cannot be seen. (The data of the code is not: after a resumption it is read from the beginning, which is shown by a witness.)", "quantifier": "all executions with any crashes, listings, data; all networks and optimisers", "why_tests_cant": "All interleavings of writes and crashes over unbounded runs.", "anchors": ["examples/transformer/train.py: CheckpointingUpdater.init", "examples/transformer/train.py: CheckpointingUpdater.update", "examples/transformer/train.py: CheckpointingUpdater._checkpoint_paths", "examples/transformer/train.py: main"]}
{"id": "C172", "title": "After a crash the transformer example resumes from the newest checkpoint", "statement": "After any crash, a start resumes from the newest complete checkpoint, at most as many steps behind as there are between two checkpoints.", "quantifier": "all executions, crashes, listings", "why_tests_cant": "All crashes at all points; the order of os.listdir depends on the file system.", "anchors": ["examples/transformer/train.py: CheckpointingUpdater.init", "examples/transformer/train.py: CheckpointingUpdater.update", "examples/transformer/train.py: CheckpointingUpdater._checkpoint_paths"]}
{"id": "C173", "title": "The records of the transformer example predict each token of a text from those before it", "statement": "For every text and sequence length, observations and targets have that length; observations are the text cropped or continued with 0, the target at a position is the next token. Of a text of positive tokens the positions that count in the loss are exactly those of its tokens as far as they fit, so the loss of a batch is the mean over these of the negative logarithm of the probability of the next token, where the end of a text that fits counts as one more token 0.", "quantifier": "all texts, sequence lengths, batch sizes, logits", "why_tests_cant": "All lengths around the crop; sums over all batches.", "anchors": ["examples/transformer/dataset.py: load", "examples/transformer/dataset.py: _crop_or_pad", "examples/transformer/train.py: lm_loss_fn"]}
{"id": "C174", "title": "The text of a module shows a call equivalent to its construction", "statement": "The text of a module shows a call of its class that binds every parameter of the constructor as the construction did, except that an argument for which == holds with its default may be left out. Indenting puts the same number of spaces before each line and changes nothing else.", "quantifier": "all signatures (positional, keyword only, *args, **kwargs, defaults), all arguments, all comparisons (which may raise), all texts", "why_tests_cant": "All signatures and ways to call them; a wrong offset of the defaults only shows for some.", "anchors": ["haiku/_src/utils.py: auto_repr", "haiku/_src/utils.py: compare_or_false", "haiku/_src/utils.py: fancy_repr", "haiku/_src/utils.py: indent", "haiku/_src/module.py: ModuleMetaclass.__call__"]}
{"id": "C175", "title": "The deprecated frozendict is a mapping with lawful equality, hash, pickling and tree structure", "statement": "Every item is the last value given for its key; iteration is over exactly the keys, each once, in increasing order; two are equal exactly if they have the same items, whatever the order in which these were given, and equal ones have equal hashes, iterations and texts; pickling gives an equal one; a tree map gives each key the result for its leaf.", "quantifier": "all lists of pairs with linearly ordered keys, all values, all hashes of tuples", "why_tests_cant": "All orders of insertion, with repeated keys.", "anchors": ["haiku/_src/data_structures.py: frozendict"]}
{"id": "C176", "title": "The test utilities find every module and class and every combination of parameters", "statement": "The search for modules ends on every graph of modules, also with cycles and shared attributes, and returns exactly those that can be reached from the root through attributes that are modules named haiku..., each once and sorted by name (two of the same name make the sort fail). The search for classes yields the subclasses among the values of these modules, each once. Combined parameters are all choices of one from each sequence, with joined names and concatenated values, the last sequence changing fastest; names of different choices may agree (shown by a witness).", "quantifier": "all finite graphs of modules, all classes, all sequences of named parameters", "why_tests_cant": "The tests themselves depend on it: what the search misses is not tested.", "anchors": ["haiku/_src/test_utils.py: find_internal_python_modules", "haiku/_src/test_utils.py: find_subclasses", "haiku/_src/test_utils.py: combined_named_parameters", "haiku/_src/test_utils.py: named_bools", "haiku/_src/test_utils.py: named_range"]}
{"id": "C177", "title": "The MNIST example evaluates on whole sections of its data and trains on the cross entropy", "statement": "A batch for evaluation is the next section of the data, which starts again after the last; if the data is one batch, each batch is the data, and as many batches in a row as the data has sections are the data. The loss is the mean over the batch of the negative logarithm of the probability of the label plus 1/20000 of the sum of squares of all parameters; it is never negative. The accuracy is the fraction of the examples whose label is the first of the most probable classes.", "quantifier": "all data, batch sizes that divide the data, logits, labels, parameters", "why_tests_cant": "All data sets and batches; wrong divisors only scale the loss.", "anchors": ["examples/mnist.py: load_dataset", "examples/mnist.py: main"]}
{"id": "C178", "title": "The MNIST example evaluates an exponential moving average that does not influence training", "statement": "After any number of steps, whatever is evaluated, the parameters are those of training alone, in which each update takes the next batch; the parameters that are evaluated are a weighted sum of those of all steps, with weights that sum to 1, fall by the factor 1 - epsilon with each later step, and keep every element between bounds it had in all steps. The example prints eleven times, at steps 0, 1000, ..., 10000, the accuracy of the average of this step on the whole test set and on one sixth of the training set in turn.", "quantifier": "all networks, optimisers that keep shapes, data, numbers of steps, rates", "why_tests_cant": "Runs of any length; an average of a wrong step hardly changes the accuracy.", "anchors": ["examples/mnist.py: main"]}
{"id": "C179", "title": "Method hooks that are entered are left once, whatever raises", "statement": "In every program that calls methods, registers hooks (any context managers, which may raise when entered or left, and suppress) and catches exceptions: each hook that was entered for a call is left exactly once, in the opposite order, while the same methods run, and hooks that failed to enter are not left; afterwards the stack of methods is as before. A method returns a value only if its body returned that value; in particular a hook that suppresses the exception of a method does not make it return.", "quantifier": "all programs, hooks, nestings, exceptions", "why_tests_cant": "All places at which methods and hooks can raise, in any nesting.", "anchors": ["haiku/_src/module.py: hook_methods", "haiku/_src/module.py: _module_method_call", "haiku/_src/module.py: wrap_method", "haiku/_src/data_structures.py: Stack"]}
{"id": "C180", "title": "Method hooks that only watch are invisible", "statement": "Under hooks that neither raise nor suppress, a method enters all of them, the last registered first, runs its body, and leaves them, the first registered first, each seeing the exception of the body if there is one; it returns or raises what the body does. If hooks change nothing that the program sees, every result and state of every program is that without hooks.", "quantifier": "all programs, hooks, nestings", "why_tests_cant": "It quantifies over programs and hooks.", "anchors": ["haiku/_src/module.py: hook_methods", "haiku/_src/module.py: _module_method_call", "haiku/_src/module.py: wrap_method"]}
{"id": "C181", "title": "Unrolling a batch of trajectories is stepping each of them alone", "statement": "CatchNet.unroll and AtariNet.unroll, with either torso and with or without the LSTM, do to each trajectory of a batch what the network does step by step on it alone, outputs and states. Agent.step applies the network once and never fails when it takes off the dimensions it added. So the learner, which unrolls the agent over stacked trajectories, gets with equal parameters for each trajectory the outputs that the actor got.", "quantifier": "all layers and cores, parameters, batch sizes, lengths, step types, states", "why_tests_cant": "All batch sizes, lengths and placements of episode boundaries in the batch.", "anchors": ["examples/impala/haiku_nets.py: CatchNet.unroll", "examples/impala/haiku_nets.py: AtariNet.unroll", "examples/impala/agent.py: Agent.step", "examples/impala/agent.py: Agent.unroll"]}
{"id": "C182", "title": "No network of the IMPALA example carries anything from one episode into the outputs of the next", "statement": "From the first step of an episode on, the outputs for a trajectory do not depend on the state, on the steps before, nor on the other trajectories of the batch. Calls of AtariNet one after another give the outputs of its unroll, each with one more dimension, of size 1.", "quantifier": "all networks, batches, states, cuts", "why_tests_cant": "All pasts and all other trajectories of the batch.", "anchors": ["examples/impala/haiku_nets.py: AtariNet.unroll", "examples/impala/haiku_nets.py: AtariNet.__call__", "haiku/_src/recurrent.py: ResetCore.__call__"]}
{"id": "C183", "title": "The loss of impala_lite is the mean of what the full example sums", "statement": "For trajectories of equal length, the loss of impala_lite times the number of rows and trajectories is the loss of examples/impala with the discount 0.99, no clipping of rewards and the network without a state. Both prepare time steps alike, and a step of the agent applies the network to its one time step.", "quantifier": "all networks, batches, functions of rlax", "why_tests_cant": "All batches, networks and masks.", "anchors": ["examples/impala_lite.py: Agent.loss", "examples/impala_lite.py: Agent.step", "examples/impala_lite.py: preprocess_step", "examples/impala/learner.py: Learner._loss"]}
{"id": "C184", "title": "The trajectories of an impala_lite actor are windows of one interaction", "statement": "Each trajectory has unroll_len + 1 transitions; the trajectory number k starts with the transition number k * unroll_len of one uninterrupted interaction of agent and environment, in which the first parameters make unroll_len + 1 transitions and all others unroll_len. No two steps of any actors use the same key, and none uses the key of the initial parameters.", "quantifier": "all agents, environments, parameters, lengths", "why_tests_cant": "All numbers of rollouts and all interactions.", "anchors": ["examples/impala_lite.py: run_actor", "examples/impala_lite.py: run"]}
{"id": "C185", "title": "hk.grad gives the derivative of the function without gradients and keeps its effects", "statement": "hk.value_and_grad and hk.grad of a function that returns give its value, and the derivative of the function as it is when called directly from the same parameters, state and rng; these are left as the function leaves them. With has_aux the first output is differentiated and the other is returned as it is. If the function raises, or with has_aux returns no pair, so do both, and parameters, state and rng are unchanged. Outside of a transform both raise.", "quantifier": "all functions, derivative operators, arguments and worlds", "why_tests_cant": "All functions, all derivatives, all states.", "anchors": ["haiku/_src/stateful.py: grad", "haiku/_src/stateful.py: value_and_grad"]}
{"id": "C186", "title": "get_original_fn gives the user's function after any wrapping", "statement": "After any calls of transform, transform_with_state, without_state and without_apply_rng, on functions of the user, on earlier results or on their init and apply, get_original_fn of a result, of its init and of its apply is the function that the calls leading to it started from. Later calls change it for no earlier result, although without_apply_rng sets the attribute of an existing function. Functions of the user never get the attribute. No call fails for want of it.", "quantifier": "all programs of calls with shared results", "why_tests_cant": "The tests have four fixed chains; all programs of calls with sharing are covered.", "anchors": ["haiku/_src/transform.py: tie_in_original_fn", "haiku/_src/transform.py: get_original_fn", "haiku/_src/transform.py: without_apply_rng"]}
{"id": "C187", "title": "The Atari torsos give each picture its own vector, for all sizes", "statement": "AtariShallowTorso and AtariDeepTorso run on every batch of pictures when their parameters have the expected sizes, and give 512 resp. 256 numbers for each picture: those of the layers applied to that picture alone. Equal pictures get equal outputs in all batches. The deep torso rounds an eighth of rows and columns up. The shallow torso has nothing left of fewer than 36 rows or columns: its output is then the positive part of a bias, whatever is in the picture.", "quantifier": "all batch sizes, picture sizes, channels, parameters, pictures", "why_tests_cant": "All sizes of pictures and batches.", "anchors": ["examples/impala/haiku_nets.py: AtariShallowTorso.__call__", "examples/impala/haiku_nets.py: ResidualBlock.__call__", "examples/impala/haiku_nets.py: AtariDeepTorso.__call__"]}
{"id": "C188", "title": "hk.to_module makes calls of a function run as in a name scope", "statement": "Without interceptors and named calls, to_module(f)(name)(x) does what `with name_scope(name): f(x)` does: same result or exception, parameters, state, keys, names and recorded submodules. The module gets the name that any module with the given name, or f.__name__, would get; a name that is no string, a function without __name__ and a name such as <lambda> raise and change nothing. What a call has created, later calls of the module find.", "quantifier": "all functions as programs that catch no exceptions, all names, arguments and worlds in which modules can be constructed", "why_tests_cant": "tests use one small function; the equivalence with name scopes is for all functions and places", "anchors": ["/repo/haiku/_src/basic.py:318-367", "/repo/haiku/_src/module.py:298-334"]}
{"id": "C189", "title": "Training of the character model is independent of what it logs", "statement": "examples/rnn/train.py makes training_steps + 1 updates, one for each batch after the first, from the parameters made with the first; intervals, sample length and evaluation data make no difference. Every sampling_interval-th step, from step 0, logs what the parameters after the step make of the first sequence of its batch, with key number t/interval + 1 of the sequence; every evaluation_interval-th step logs the losses after the step on the next batch of both splits. Keys of parameters and samples never repeat. An interval of 0 raises ZeroDivisionError.", "quantifier": "all networks, losses, optimisers, samplers, data sets, seeds and flags", "why_tests_cant": "the script has no test; interleavings of the intervals are unbounded", "anchors": ["/repo/examples/rnn/train.py:87-95", "/repo/examples/rnn/train.py:127-187", "/repo/haiku/_src/base.py:559-562"]}
{"id": "C190", "title": "Every interleaving of the IMPALA threads computes what a sequential program computes", "statement": "In every state that actors, worker thread and learner of examples/impala can reach together, the parameters, the state of the optimiser and the log are those of the sequential program that takes the same batches one after the other, makes the trajectories of the batch with the parameters of their versions and then makes one update. The frame count and the parameters that actors pull always belong to the same number of updates.", "quantifier": "all interleavings, numbers of actors, batch sizes, environments, networks, losses and optimisers", "why_tests_cant": "tests run one interleaving with one actor and one update; a stale or torn read of the parameters shows only in some interleavings", "anchors": ["/repo/examples/impala/learner.py:145-166", "/repo/examples/impala/learner.py:189-212", "/repo/examples/impala/actor.py:94-106", "/repo/examples/impala/run_catch.py:39-44"]}
{"id": "C191", "title": "A stack of layers through hk.transform: which parameters init makes and what apply computes", "statement": "Let f make modules one after the other at the top level of the transformed function, call each on the output of the one before, and let each module get its parameters in its __call__. init returns the parameters of the modules that have some, each module under its own name (the k-th further module of a name gets the suffix _k), in the order of construction and nothing else; the parameters that need randomness get distinct keys in order; a parameterless module takes no key and leaves no entry. apply with arrays of the right shape under these names is the composition of the layers each with its own arrays, whatever else is among the parameters and with any rng or none; on what init returned it is the composition with the initial values.", "quantifier": "all lists of layers, numbers and shapes of parameters, initializers (constant or drawing one key), forward functions, inputs, keys and parameters", "why_tests_cant": "tests build particular networks; that names, keys and arrays are never exchanged between layers, for any number of layers and any repetition of names, needs induction over the list", "anchors": ["/repo/haiku/_src/transform.py:273-298", "/repo/haiku/_src/module.py:124-147", "/repo/haiku/_src/module.py:396-437", "/repo/haiku/_src/base.py:239-302"]}
{"id": "C192", "title": "A tree of modules through hk.transform_with_state: one entry per module, in order of construction, and apply is the composition", "statement": "Let the __init__ of a module make any modules, and let its __call__ get its parameters and its state, call those, then make and call any further modules one after the other, and then set its state; all these modules do the same, to any depth, and a module may be called any number of times by the one that made it. init returns one entry for each module that has parameters and one for each that has state, under the path of the modules that made it, with ~ for those made in __init__ (the k-th further module of a name in the same method gets _k), no two under the same name, a module before those it makes; what needs randomness gets the keys in this order, parameters before state; calling a module again neither adds an entry nor takes a key, and setting state does not change the initial state that init returns. apply with arrays of the right shape under these names and with a value for each state is the composition of the modules, each with its own arrays and the state it left in the previous call; the state returned is the given one with the new values. What init returned always fits.", "quantifier": "all trees of modules of any depth and width, parameters, state, initializers (constant or drawing one key), functions of the modules, numbers of calls, inputs, keys, parameters and states", "why_tests_cant": "tests build particular nets; that names of nested modules never collide, that a second call finds the parameters and the new state of everything below, and that keys follow the order of construction needs induction over trees", "anchors": ["/repo/haiku/_src/module.py:396-437", "/repo/haiku/_src/module.py:556-606", "/repo/haiku/_src/transform.py:273-298", "/repo/haiku/_src/base.py:239-302", "/repo/haiku/_src/base.py:650-757"]}
{"id": "C193", "title": "The threads of impala_lite compute what a sequential program computes", "statement": "Whatever the interleaving of the actors and the learner of impala_lite, the parameters and the state of the optimiser are those of the sequential program that, batch after batch, makes the trajectories of the batch one after the other, each with the parameters after as many updates as there were when its actor read them, and then makes one update. So two runs with the same batches end with the same parameters. The trajectories that an actor put are those of run_actor alone, with its own key and environment, for the parameters that get_params returned; other actors have no part in them.", "quantifier": "all numbers of actors, trajectories and batch sizes above 0, interleavings of any length, agents, environments, losses, optimisers and initial parameters", "why_tests_cant": "the interleaving is up to the scheduler; a test sees one of them per run", "anchors": ["/repo/examples/impala_lite.py:156-187", "/repo/examples/impala_lite.py:190-206", "/repo/examples/impala_lite.py:209-253"]}
{"id": "C194", "title": "Layers that are made first and called later, shared or not, have one entry each, where they were made", "statement": "Let a function make modules (each a tree of modules with parameters and state), put some of them, any number of times and in any order, with plain functions in between, into an hk.Sequential, and call it. init returns one entry for each module below one that is called and has parameters, under the name it got where it was made, not under the name of the Sequential; entries come in the order of the first calls, and keys are given out in this order; a module that is called again adds nothing and takes no key, one that is never called has no entry. apply is the composition of the layers in their order, each module with its own arrays in all of its places, and with the state that the layers before left; on what init returned it never fails. The network of examples/mnist.py has the parameters linear, linear_1 and linear_2 of shapes [784, 300], [300, 100] and [100, 10], with the first three keys, and computes three layers with relu between them.", "quantifier": "all lists of module trees with proper names and parameters, all lists of layers, names of the Sequential, keys, inputs, parameters and states of the right shapes", "why_tests_cant": "tests call a few modules in a few orders; which entry a module gets depends on where it was made, and which keys on the order of first calls", "anchors": ["/repo/haiku/_src/basic.py:111-127", "/repo/examples/mnist.py:31-40", "/repo/haiku/_src/module.py:474-500", "/repo/haiku/_src/module.py:383-445", "/repo/haiku/_src/module.py:556-600", "/repo/haiku/_src/base.py:239-338"]}
{"id": "C195", "title": "Straight-line programs of get_parameter, next_rng_key, and modules made and called anywhere: what init builds and what apply computes", "statement": "Let a function, in any order and any number of times, compute, ask for parameters and keys, make modules, and call modules; and let the __call__ of each module do the same, where it may also call the modules and use the values that were in scope where it was made. Then init returns exactly the parameters that are asked for: a parameter asked for the first time gets its initial value, drawn if it needs a key with the key after those taken so far (one for each next_rng_key and one for each earlier new parameter that needs one); a parameter asked for again is left alone and takes no key. Parameters are under the name the module got where it was made, or under ~ outside of modules. apply computes the function of the arrays and keys that the program denotes, takes keys for next_rng_key only, needs no key if there is none of these, and never fails on what init returned. The network of examples/impala_lite.py has four layers of parameters, simple_net/linear to simple_net/linear_3, with the first four keys, and computes the policy and the baseline of the same hidden values.", "quantifier": "all straight-line programs with consistent shapes whose module names can be asked for where they are (plain names any number of times; names that end in a number if neither they nor the part before the number were used), all keys, inputs and parameters of the right shapes", "why_tests_cant": "tests fix a few programs; which name and which key a parameter gets depends on everything that was made and asked for before it, on all levels", "anchors": ["/repo/haiku/_src/base.py:239-338", "/repo/haiku/_src/base.py:602-619", "/repo/haiku/_src/module.py:383-445", "/repo/haiku/_src/module.py:474-500", "/repo/examples/impala_lite.py:51-67", "/repo/examples/impala_lite.py:215-216"]}
{"id": "C196", "title": "The language model of examples/transformer, for any number of layers: the parameters and keys of init, and what apply computes", "statement": "For any number of layers and any sizes, init of forward_fn returns exactly 8 entries for each layer and 4 more, no two under one name: embed (drawn with key 0), pos_embs under ~ (key 1), for layer i the modules transformer/h{i}_ln_1, h{i}_attn/query, key, value and linear (keys 2+8i to 5+8i), h{i}_ln_2, h{i}_mlp/linear and linear_1 (keys 7+8i and 8+8i; keys 6+8i and 9+8i go to dropout), then transformer/ln_f and linear (key 2+8L). apply with arrays of these shapes computes the residual stack: h + dropout(attention(ln_1 h)), then h + dropout(dense(ln_2 h)), layer by layer, where layer i drops with keys 2i and 2i+1; then the last normalisation and the output layer. apply on what init returned never fails, for all keys and tokens.", "quantifier": "all numbers of layers, sizes, initializers, array operations, keys, tokens, and parameters of the right shapes", "why_tests_cant": "tests run a fixed small number of layers; that explicitly numbered names such as h1_ln_1 and h10_ln_1 never clash, and that keys are taken in the stated order, is a statement about every number of layers", "anchors": ["/repo/examples/transformer/model.py:25-122", "/repo/examples/transformer/train.py:63-90", "/repo/haiku/_src/attention.py:61-94", "/repo/haiku/_src/module.py:383-445", "/repo/haiku/_src/module.py:474-500", "/repo/haiku/_src/base.py:239-338"]}
{"id": "C197", "title": "Programs with parameters, state, keys, modules, errors and any control flow compute what they say on a plain memory of parameters, state and keys", "statement": "Take any program that asks for parameters, gets and sets state, takes one or several keys, reserves keys, asks whether init is running, makes modules (which make modules in their __init__, which make modules in theirs, and so on), calls them, raises errors, and decides what to do next by all values so far. init and apply of it return exactly what an interpreter returns that knows no frames, module objects or name counters: it has one dictionary of parameters, one of state with initial and current values, and one sequence of keys, and the name of each module follows from the text of the program around the place where it is made. So: a call asks in the scope of its module wherever it is called from; errors end the program with that same error; init returns first values and apply last values of state. Consequences: if apply succeeds, it returns the same when there are more parameters; every state entry given to apply is in the state that apply returns. If init or apply succeeds without rng, and the program never calls maybe_next_rng_key, it returns the same with any rng.", "quantifier": "all programs (with control flow as any function of the values so far) whose module names can be asked for where they are and whose modules are called where they are in scope; all rng arguments, parameters and states", "why_tests_cant": "tests run single programs; that frames, stacks and counters never leak into results is a statement about every program, every branch taken, and every error", "anchors": ["/repo/haiku/_src/base.py:239-338", "/repo/haiku/_src/base.py:579-757", "/repo/haiku/_src/transform.py:334-361", "/repo/haiku/_src/transform.py:232-303", "/repo/haiku/_src/module.py:383-445", "/repo/haiku/_src/module.py:474-500"]}
{"id": "C198", "title": "Batch normalisation through hk.transform_with_state: which parameters and state it has, and what training does to them", "statement": "For hk.BatchNorm(create_scale=True, create_offset=True): init in training returns scale 1 and offset 0 under batch_norm, and under batch_norm/~/mean_ema and batch_norm/~/var_ema exactly counter 0, hidden 0 and average, in this order; only average is that of the batch given to init, which does not count otherwise. init outside training fails, for there are no averages. apply in training normalises with the statistics of its batch and moves both averages by one step; outside training it normalises with the averages and leaves the state as it is; with test_local_stats it normalises with those of the batch and needs no state. After training on any number of batches, each with any scale and offset, the hidden averages are the fold of the steps over the statistics of all batches in order, the counters have counted the batches, and average is the debiased hidden average.", "quantifier": "all operations on arrays (statistics, steps, debiasing, normalisation), batches, scales and offsets of the right shape, states, rng arguments and numbers of batches", "why_tests_cant": "tests fix a few batches; that nothing else gets into state, under these names, for every history of training is a statement about every number of batches", "anchors": ["/repo/haiku/_src/batch_norm.py:61-203", "/repo/haiku/_src/moving_averages.py:46-138", "/repo/haiku/_src/base.py:239-338", "/repo/haiku/_src/base.py:657-757", "/repo/haiku/_src/module.py:383-445"]}
{"id": "C199", "title": "The variational auto-encoder of examples/vae.py: its parameters, what it computes, and that training draws with no key twice", "statement": "init of the network returns exactly five layers of parameters: linear, linear_1 and linear_2 under variational_auto_encoder/encoder with the first three keys, and linear and linear_1 under variational_auto_encoder/decoder with the fifth and sixth key; the fourth key is taken by hk.next_rng_key between the two. apply with a key and parameters of these shapes computes mean and deviation from the same hidden values, draws the sample with the first key and the image with the second, and decodes the sample. In main, for any seed, number of steps and frequency of validation, no key is drawn with twice: seven draws in init, two in each step and two in each validation, all with different keys.", "quantifier": "all operations on arrays, sizes of images, hidden and latent values, parameters of the right shapes, keys, seeds, numbers of training steps and frequencies of validation", "why_tests_cant": "the example has no test; that keys never repeat is a statement about training of any length", "anchors": ["/repo/examples/vae.py:54-126", "/repo/examples/vae.py:165-205", "/repo/haiku/_src/basic.py:159-181", "/repo/haiku/_src/base.py:497-570", "/repo/haiku/_src/module.py:383-445"]}
{"id": "C200", "title": "apply after init computes what init computed, whatever the control flow, and hk.testing.transform_and_run returns it", "statement": "For every program in the sense of C197 (parameters, state, modules anywhere, errors, control flow that looks at values) that asks for no keys itself: if it returns v in init, then apply on the parameters and state that init returned gives v again, with any rng or none, from any thread state without hooks, and leaves the state that the program left in init. hk.testing.transform_and_run(f, seed, run_apply) of such a program returns v (None without run_apply), and raises what the program raises in init. For programs that ask for keys it returns what the program returns on the parameters and initial state of init with the same rng from the start; their value in init may be another one. For any function it leaves everything but the store of modules as it was.", "quantifier": "all programs, initializers (which may draw keys), seeds, rng arguments and thread states without hooks; for the last claim all functions and thread states", "why_tests_cant": "transform_and_run is what the tests are run with; that it hides no difference between init and apply is about every program", "anchors": ["/repo/haiku/_src/test_utils.py:30-83", "/repo/haiku/_src/transform.py:232-303", "/repo/haiku/_src/base.py:239-338", "/repo/haiku/_src/base.py:657-757"]}
{"id": "C201", "title": "hk.nets.MLP with any number of layers, with and without dropout, through hk.transform", "statement": "For every list of output sizes: init of hk.nets.MLP(sizes)(x) returns exactly the parameters mlp/~/linear_0, mlp/~/linear_1 and so on, in order, each with w of shape [size of the output before, output size], drawn with key number i, and b zero; with dropout, where hk.next_rng_key() is asked for first, layer i is drawn with key number i + 1. apply with parameters of these shapes calls the layers in turn, with the activation between them and after the last one only if activate_final, whatever the rng and the other parameters. With dropout each activated output is dropped out with key number i of the key that next_rng_key gave, which are all different; nothing is dropped after a last layer that is not activated. Without an rng this fails.", "quantifier": "all lists of output sizes (also the empty one), input sizes, array functions, keys, parameters, states and thread states without hooks", "why_tests_cant": "tests run with two or three layers, and cannot show which key goes where for any number of them", "anchors": ["/repo/haiku/_src/nets/mlp.py:38-118", "/repo/haiku/_src/basic.py:130-181", "/repo/haiku/_src/module.py:383-500", "/repo/haiku/_src/base.py:239-338"]}
{"id": "C202", "title": "The deep torso of the IMPALA example, with any sections, through hk.transform", "statement": "For every list of sections (channels, blocks), in place of the three of the example: init of AtariDeepTorso()(x) returns exactly the parameters atari_deep_torso/conv2_d, atari_deep_torso/conv2_d_1 and so on for the convolutions of the sections, each followed by those of its blocks atari_deep_torso/residual_i_j/conv2_d and .../conv2_d_1, and atari_deep_torso/linear at the end; the Sequential in a block shows in no name, no name occurs twice, layer number t is drawn with key number t and biases are zero. apply with parameters of these shapes computes for each section the convolution, the pooling and the residual blocks, then flattening and the linear layer, whatever the rng and the other parameters, and leaves the state as it is.", "quantifier": "all lists of sections (also the empty one), channel numbers, sizes, array functions, keys, parameters, states and thread states without hooks", "why_tests_cant": "names of modules made in nested loops depend on all modules made before; tests run one configuration", "anchors": ["/repo/examples/impala/haiku_nets.py:79-130", "/repo/haiku/_src/conv.py:151-215", "/repo/haiku/_src/module.py:383-500", "/repo/haiku/_src/base.py:239-338"]}
{"id": "C203", "title": "Recurrent cores unrolled over any number of steps share one set of parameters, through hk.transform", "statement": "For every sequence of at least one input: init of hk.static_unroll(hk.LSTM(h), xs, s) returns exactly the parameters lstm/linear (w of shape [n + h, 4h] drawn with the first key, b zero), of hk.VanillaRNN(h) exactly vanilla_rnn/linear (w of shape [n, h], first key) and vanilla_rnn/linear_1 (w of shape [h, h], second key, without b if double_bias=False), of hk.GRU(h) exactly w_i ([n, 3h], first key), w_h ([h, 3h], second key) and b of gru, however many steps there are: the layers an LSTM or a VanillaRNN makes anew in every step find the parameters of the first. apply with parameters of these shapes takes the state through all steps with the same weights and returns the outputs in order with the last state, whatever the rng and the other parameters, and leaves the state of modules as it is.", "quantifier": "all non-empty input sequences, sizes, array functions, starting states, keys, parameters, states and thread states without hooks", "why_tests_cant": "tests unroll a few steps; that no step makes new parameters or takes a key holds for all numbers of steps by induction", "anchors": ["/repo/haiku/_src/recurrent.py:83-135", "/repo/haiku/_src/recurrent.py:195-238", "/repo/haiku/_src/recurrent.py:252-314", "/repo/haiku/_src/recurrent.py:490-561", "/repo/haiku/_src/module.py:383-500", "/repo/haiku/_src/base.py:239-338"]}
