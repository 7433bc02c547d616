[
 {
  "ids": [
   "C01",
   "C18"
  ],
  "model": "`Prog` interpreter with explicit stacks, transforms",
  "proof": "induction over programs: every run restores all stacks and all frames below the top"
 },
 {
  "ids": [
   "C02"
  ],
  "model": "`Prog` interpreter, transforms",
  "proof": "induction over programs: a frozen frame keeps `params`"
 },
 {
  "ids": [
   "C03",
   "C05",
   "C06"
  ],
  "model": "`Prog` interpreter, frame operations",
  "proof": "induction over programs: recorded entries are stable; histories of state operations refine a map"
 },
 {
  "ids": [
   "C04"
  ],
  "model": "`Prog` interpreter, transforms",
  "proof": "simulation between the run of init and the run of apply; for untaken branches a second relation between runs on data of the same structure"
 },
 {
  "ids": [
   "C07",
   "C09",
   "C10",
   "C11"
  ],
  "model": "`PRNGSequence` as a machine over symbolic keys (a key is its path of splits)",
  "proof": "invariant by induction over operations"
 },
 {
  "ids": [
   "C08",
   "C12"
  ],
  "model": "`Prog` interpreter with a log of the keys handed out",
  "proof": "invariant by induction over programs"
 },
 {
  "ids": [
   "C13",
   "C14",
   "C15",
   "C16",
   "C17"
  ],
  "model": "names as lists of characters, counters, used names",
  "proof": "invariant over histories of requests; parsing lemmas"
 },
 {
  "ids": [
   "C19",
   "C20"
  ],
  "model": "the chain runner with its shared mutable queue",
  "proof": "induction over the chain"
 },
 {
  "ids": [
   "C21"
  ],
  "model": "`Prog` interpreter with getters",
  "proof": "induction over programs"
 },
 {
  "ids": [
   "C22",
   "C23",
   "C24",
   "C25",
   "C26",
   "C27",
   "C28",
   "C29"
  ],
  "model": "stateful control flow in the interpreter; JAX primitives are their value semantics",
  "proof": "simulation between the temporary and the direct frame; induction over iterations"
 },
 {
  "ids": [
   "C30",
   "C31"
  ],
  "model": "`difference` and `update_internal_state` on two-level dicts",
  "proof": "extensionality of dicts"
 },
 {
  "ids": [
   "C32"
  ],
  "model": "object identities",
  "proof": "case analysis; counterexamples"
 },
 {
  "ids": [
   "C33"
  ],
  "model": "the loops of `filtering.py`",
  "proof": "induction over entries"
 },
 {
  "ids": [
   "C34",
   "C35",
   "C36"
  ],
  "model": "pytrees with a heap for containers",
  "proof": "structural induction"
 },
 {
  "ids": [
   "C37"
  ],
  "model": "`LiftingModule` as a program",
  "proof": "lemmas on prefixes of names"
 },
 {
  "ids": [
   "C38"
  ],
  "model": "stores indexed by thread, small steps",
  "proof": "projection of schedules to threads"
 },
 {
  "ids": [
   "C39"
  ],
  "model": "the global hook shared by threads, small steps",
  "proof": "induction over schedules of disjoint regions; race as witness"
 },
 {
  "ids": [
   "C40"
  ],
  "model": "`optimize_rng_use` for one thread",
  "proof": "induction over programs that draw keys"
 },
 {
  "ids": [
   "C41"
  ],
  "model": "wrappers of positional arguments",
  "proof": "case analysis of the wrappers, for every function"
 },
 {
  "ids": [
   "C42"
  ],
  "model": "nested transforms in the interpreter",
  "proof": "induction over programs"
 },
 {
  "ids": [
   "C43",
   "C44"
  ],
  "model": "name scopes and contexts in the interpreter",
  "proof": "simulation; induction over entries"
 },
 {
  "ids": [
   "C46",
   "C47"
  ],
  "model": "shapes and row-major elements",
  "proof": "arithmetic on products of sizes"
 },
 {
  "ids": [
   "C48",
   "C49"
  ],
  "model": "padding and window positions",
  "proof": "arithmetic"
 },
 {
  "ids": [
   "C50",
   "C51",
   "C62"
  ],
  "model": "window reduction on arrays as functions of positions",
  "proof": "sums and maxima over windows"
 },
 {
  "ids": [
   "C52"
  ],
  "model": "`calculate_bias_shape`",
  "proof": "induction over dimensions"
 },
 {
  "ids": [
   "C53",
   "C54"
  ],
  "model": "the moving average over a field",
  "proof": "induction over the history of calls"
 },
 {
  "ids": [
   "C55"
  ],
  "model": "unrolls of an arbitrary core",
  "proof": "induction over the sequence"
 },
 {
  "ids": [
   "C56"
  ],
  "model": "`ResetCore` on nested states",
  "proof": "induction over the nesting; positions of arrays"
 },
 {
  "ids": [
   "C57"
  ],
  "model": "`_DeepRNN` over arbitrary layers",
  "proof": "induction over the layers"
 },
 {
  "ids": [
   "C58"
  ],
  "model": "the two lookup styles over a semiring",
  "proof": "sum over the one-hot vector"
 },
 {
  "ids": [
   "C59"
  ],
  "model": "`replicate`, `get_channel_index` on characters",
  "proof": "parsing lemmas"
 },
 {
  "ids": [
   "C60",
   "C61",
   "C63"
  ],
  "model": "`Linear`, `MLP`, `dropout` over a field",
  "proof": "induction over the layers"
 },
 {
  "ids": [
   "C64",
   "C65"
  ],
  "model": "layer and instance normalisation on arrays of any rank over a field",
  "proof": "broadcasting lemmas; sums over slices"
 },
 {
  "ids": [
   "C66",
   "C67",
   "C69"
  ],
  "model": "batch normalisation on arrays of any rank over a field",
  "proof": "broadcasting lemmas; sums over slices and devices"
 },
 {
  "ids": [
   "C68"
  ],
  "model": "batch normalisation with its two moving averages",
  "proof": "elementwise refinement to the scalar average, induction over the history of calls"
 },
 {
  "ids": [
   "C70",
   "C71"
  ],
  "model": "group normalisation with row-major reshapes",
  "proof": "bijection between slices of the reshaped array and groups of channels; induction over earlier calls"
 },
 {
  "ids": [
   "C72"
  ],
  "model": "values of both convolutions as sums over kernel positions and channels",
  "proof": "both inner products rewritten as one sum over pairs of positions; the paddings match position by position"
 },
 {
  "ids": [
   "C73",
   "C74"
  ],
  "model": "flattening, distances, argmax and lookup on arrays of any shape",
  "proof": "row-major positions of the flat array; argmax by induction"
 },
 {
  "ids": [
   "C75"
  ],
  "model": "the same over the real numbers with exp and log",
  "proof": "log x <= x - 1 summed over the embeddings"
 },
 {
  "ids": [
   "C76",
   "C77"
  ],
  "model": "state of the module with both moving averages; calls as transitions",
  "proof": "invariant over histories relating the state to all batches so far"
 },
 {
  "ids": [
   "C78",
   "C79",
   "C80"
  ],
  "model": "flattening, power iteration with an abstract reciprocal square root, and the state u0 and sigma",
  "proof": "Cauchy-Schwarz for W and its transpose; an invariant on the stored vector over histories"
 },
 {
  "ids": [
   "C81"
  ],
  "model": "the scan of the regular expression over characters",
  "proof": "induction over the parts of the name, one lemma for each kind of neighbouring characters"
 },
 {
  "ids": [
   "C82",
   "C83"
  ],
  "model": "the traversal of the tree with the naming scope of the call and the states by module name; the module for one parameter is a function of its state",
  "proof": "names given in one call are distinct; invariant over histories relating every state to the history of one parameter; decoding of the mangled names"
 },
 {
  "ids": [
   "C84",
   "C85"
  ],
  "model": "the calls of VanillaRNN, LSTM and GRU in exact arithmetic; logistic function and tanh are any functions",
  "proof": "values of concatenation, columns, broadcasting and products at every position; inversion of successful calls; the general theorem on ResetCore instantiated"
 },
 {
  "ids": [
   "C86"
  ],
  "model": "as C84, unrolled by static_unroll",
  "proof": "invariant over the steps; convex combinations; bounds on the gates, shown to hold for the real functions"
 },
 {
  "ids": [
   "C87"
  ],
  "model": "as C84, with static_unroll and dynamic_unroll",
  "proof": "inversion of successful calls, then C55"
 },
 {
  "ids": [
   "C88",
   "C89",
   "C90",
   "C91",
   "C92",
   "C93"
  ],
  "model": "Model/Attention: `MultiHeadAttention` with its projections, reshapes, both `einsum`s with the sizes of 1 they accept, the mask, the softmax as JAX computes it (with the maximum subtracted) and the `or` defaults, in exact arithmetic over any field with any exponential function and square root.",
  "proof": "Every step of the call is evaluated; C88 removes the maximum by the laws of the exponential function, C89 takes that it is 1 at 0 and nowhere negative, C90 that it is rounded to 0 for very negative numbers (and bounds the weight without this), C91 and C92 follow from one theorem about rearranged keys for any function."
 },
 {
  "ids": [
   "C94",
   "C95",
   "C96",
   "C97",
   "C98"
  ],
  "model": "Model/Initializers: `_compute_fans`, all initializers of initializers.py and the default weights of `Linear` and the convolutions, in exact arithmetic over any ordered field; the samplers of `jax.random` are any functions of key, shape and position, the square root and the QR decomposition any functions.",
  "proof": "The number of units is specified by an inductive relation on shapes; C94 and C95 take that the square root squares to its argument and that samples are in range; C96 takes orthonormal columns of Q and proves orthogonality through transposition, reshape and `moveaxis` (the square case by the two-sided inverse of matrices); C98 relates any two key sequences with the same next key."
 },
 {
  "ids": [
   "C99",
   "C100"
  ],
  "model": "Model/Basic: `multinomial` with the softmax of Model/Attention, cumulative sums, the comparison with broadcasting, `argmin` of booleans and both branches on the number of samples, in exact arithmetic over any ordered field; `jax.random.uniform` is any function.",
  "proof": "The first position where the uniform number does not exceed the cumulative sum is characterised; the last cumulative sum is 1.  C100 takes an exponential function that is 1 at 0 and nowhere negative."
 },
 {
  "ids": [
   "C101"
  ],
  "model": "Model/Basic: the loop of `Sequential.__call__` with its counter, for layers in any monad.",
  "proof": "By induction on the layers, against an inductive specification of a chain of calls and, for lawful monads, the splitting law."
 },
 {
  "ids": [
   "C102",
   "C103"
  ],
  "model": "Model/Basic: `expand_apply` with `expand_dims` and `squeeze`, and `one_hot`.",
  "proof": "`squeeze` is shown to invert the relation of expanded arrays; sums over classes have one non-zero term."
 },
 {
  "ids": [
   "C104",
   "C105"
  ],
  "model": "Model/ConvArr: `ConvND.__init__` and `__call__` on arrays with batch and channel axes, dimension numbers, mask, bias and the extra axis of an unbatched input; `lax.conv_general_dilated` reads its operands through the dimension numbers, example by example, with the sums of Model/Conv.",
  "proof": "Reading and writing through dimension numbers is shown to be reading and writing along the layout of the data format; each example of a result is then the image-level convolution of Model/Conv."
 },
 {
  "ids": [
   "C106",
   "C107"
  ],
  "model": "Model/ConvArr: `DepthwiseConv2D` and `SeparableDepthwiseConv2D` on arrays, over any semiring; the strings of dimension numbers are parsed as `lax` does.",
  "proof": "With as many groups as channels each sum has one input channel; for C107 the sums over the two kernel axes are exchanged, and positions outside the intermediate picture are positions outside the input."
 },
 {
  "ids": [
   "C108"
  ],
  "model": "Model/ConvArr: `ConvNDLSTM.__call__` with its two convolutions (`ConvND` on arrays), the split in four parts and the gates, over any field with any two functions as sigmoid and tanh; `initial_state` with `add_batch`.",
  "proof": "The convolutions with `SAME` padding and stride 1 are brought to a centred kernel that reads 0 outside; the gates then follow element by element."
 },
 {
  "ids": [
   "C109",
   "C110",
   "C111"
  ],
  "model": "Model/Conv: `ConvND.__init__` and `__call__` on one example; C104 carries this over to batches.",
  "proof": "C109: without padding all positions read lie inside the input, and the corners of the kernel bound the output.  C110 and C111: the sums are compared term by term."
 },
 {
  "ids": [
   "C112",
   "C113"
  ],
  "model": "Model/Summarise: `log_used_modules` as interceptor of `wrap_method` on forests of calls, with the `_submodules` of all modules; `params_dict` called by the summary notifies the modules on the stack, as the code does.",
  "proof": "Simulation with a run without summary, by induction over the forest: the records are those expected, and the recorded submodules differ only by modules that are active.  The failures are shown by cases."
 },
 {
  "ids": [
   "C114",
   "C115",
   "C116",
   "C117"
  ],
  "model": "Model/Summarise: `tabulate`, its columns and filters, `owned_params`, `format_bytes`, `format_array`, `tree_size` and `tree_bytes`; the drawing of the table, `repr` and `pformat` are not modelled.",
  "proof": "Induction over records and names; the sorting is shown to permute and to order; arithmetic for the rounding."
 },
 {
  "ids": [
   "C118",
   "C121"
  ],
  "model": "`Model/ResNet.lean`: both kinds of blocks, groups, the network and its configurations, on the models of convolutions, batch normalisation, pooling and linear layers, in exact arithmetic; parameters are what `hk.get_parameter` gives",
  "proof": "`Lemmas/Stage.lean`: a predicate on layers (success and sizes, states changed, choices of examples carried through) is shown for each kind of layer and preserved by composition and by sums with a shortcut; `Props/ResNet.lean` applies it along blocks, groups and the network by induction"
 },
 {
  "ids": [
   "C119"
  ],
  "model": "`Net.make`, `Block.make` and `BnConfig.batchNorm`",
  "proof": "inversion of the constructors; for blocks without projection the layers are run with the lemmas above and the sum is decided by the sizes"
 },
 {
  "ids": [
   "C120"
  ],
  "model": "as for C118",
  "proof": "induction over the layers of a block; the last batch normalisation gives 0"
 },
 {
  "ids": [
   "C122"
  ],
  "model": "names as strings, as in the code",
  "proof": "induction over blocks and groups; the number in a name can be read off up to the next slash"
 },
 {
  "ids": [
   "C123",
   "C124",
   "C125",
   "C126",
   "C127"
  ],
  "model": "`Model/MobileNet.lean`: the block and the network, on the models of convolutions, batch normalisation and linear layers, in exact arithmetic; parameters are what `hk.get_parameter` gives",
  "proof": "`Lemmas/Picture.lean` gives formulas for the elements of each kind of layer; `Props/MobileNet.lean` composes them with the predicate of `Lemmas/Stage.lean` along the blocks by induction, together with what each batch normalisation sees and learns"
 },
 {
  "ids": [
   "C128",
   "C129"
  ],
  "model": "`Model/ResNet.lean`, as for C118 to C122",
  "proof": "`Lemmas/Flow.lean` composes the formulas of `Lemmas/Picture.lean`, also for sums and the greatest elements of windows; `Props/ResNetValues.lean` follows the layers, blocks and groups by induction, with formulas that record what each batch normalisation gets"
 },
 {
  "ids": [
   "C130",
   "C131"
  ],
  "model": "`Model/Dot.lean`: objects by address, graphs as records in a memory of cells, the stack of graphs, and `exec` over the tree of what a function does; the text `_graph_to_dot` writes, line by line",
  "proof": "`Props/Dot.lean`: a separate definition `seen` says what a part of a function adds to the current graph, without memory or stack; execution is shown to store exactly this, by induction over the tree, with the frame that cells before are kept"
 },
 {
  "ids": [
   "C132"
  ],
  "model": "as for C130",
  "proof": "`Props/DotDraw.lean`: drawing is shown to write `sketch`, a list of lines defined by recursion over the graph without the sets and counters of the code; reading it back with a stack gives the clusters"
 },
 {
  "ids": [
   "C133",
   "C134",
   "C135"
  ],
  "model": "as for C130",
  "proof": "`Props/DotEdges.lean`: the edges and declarations of a sketch by recursion; that a value is made before it is used is carried over from the function to its graph; witnesses for the cases in which C134 and C135 fail"
 },
 {
  "ids": [
   "C136",
   "C137",
   "C138",
   "C139"
  ],
  "model": "as for C130",
  "proof": "`Props/DotText.lean`: a reader of labels undoes `html.escape`, one character after the other; decimal numbers of equal length are told apart; the names of outputs are those of the last path of each address"
 },
 {
  "ids": [
   "C140"
  ],
  "model": "`Model/Transformer.lean`: the modules of the example, its forward pass and its loss, on the models of attention, layer normalisation, linear layers, dropout and embeddings, in exact arithmetic; keys are any sequence",
  "proof": "`Props/Transformer.lean`: the call is shown to be a function on rows; rows after normalisation are bounded (no entry is beyond the square root of the width times the scale, plus the offset), so a condition on the parameters bounds all attention scores; positions that see only each other keep agreeing layer by layer, by induction"
 },
 {
  "ids": [
   "C141"
  ],
  "model": "`Model/Transformer.lean`: the modules of the example, its forward pass and its loss, on the models of attention, layer normalisation, linear layers, dropout and embeddings, in exact arithmetic; keys are any sequence",
  "proof": "`Props/Transformer.lean`: the equations of each layer compose by induction over the layers; dropout at rate 0 is the identity"
 },
 {
  "ids": [
   "C142"
  ],
  "model": "`Model/Transformer.lean`: the modules of the example, its forward pass and its loss, on the models of attention, layer normalisation, linear layers, dropout and embeddings, in exact arithmetic; keys are any sequence",
  "proof": "`Props/Transformer.lean`: sums with the mask are sums over the real positions; these see themselves, so that the agreement of C140 applies without further condition"
 },
 {
  "ids": [
   "C143"
  ],
  "model": "`Model/BiasCall.lean`: the module and its call, on `calculate_bias_shape` of `Model/Bias.lean`, in exact arithmetic",
  "proof": "the shape of the bias, padded with ones, is that of the selected dimensions (C52), so that reading it by broadcasting is reading it at the selected coordinates"
 },
 {
  "ids": [
   "C144"
  ],
  "model": "`Model/Pruning.lean`: `topk_mask` with `argsort` and `shuffle` as any functions that return an order of the positions",
  "proof": "writing along an order of the positions permutes the written list; so each position has a rank that does not depend on the fraction, and is kept if its rank is among the last `k`"
 },
 {
  "ids": [
   "C145"
  ],
  "model": "`Model/Pruning.lean`: partitions, masks, `update_mask`, `get_sparsity`, `module_matching`",
  "proof": "induction over the list of predicates gives the part of each entry; mapping over two dictionaries is characterised entry by entry; counts by C144"
 },
 {
  "ids": [
   "C146"
  ],
  "model": "`Model/Pruning.lean`: one round and the loop, for any function that computes updates",
  "proof": "an invariant: parameters, averages and masks have the same names and shapes; induction over the rounds"
 },
 {
  "ids": [
   "C147"
  ],
  "model": "`Model/Pruning.lean`: `progress`, `zhugupta_func`, the loop",
  "proof": "`schedule_partial`: monotone, 0 up to 1000, 1 exactly from 9000 on; `not_done_at_8000`; `final_masks` after all 10001 rounds"
 },
 {
  "ids": [
   "C148"
  ],
  "model": "`Model/ImpalaLite.lean`: a transition system with one step for each access to something shared",
  "proof": "an invariant on the line of all trajectories, preserved by each step; progress by cases on who can go on; each step adds one to a bounded count"
 },
 {
  "ids": [
   "C149"
  ],
  "model": "`Model/ImpalaLearner.lean`: actors, two queues, worker, learner and main thread as a transition system",
  "proof": "two invariants, one for the flow of trajectories and one for the phases of the threads, preserved by each of 13 kinds of steps"
 },
 {
  "ids": [
   "C150"
  ],
  "model": "`Model/ImpalaLearner.lean`",
  "proof": "`hangs_iff`: exactly when `run` cannot return any more; `learner_can_hang`: for all sizes an interleaving that gets there; `always_returns` and `few_trajectories_return_partial`: conditions under which it returns"
 },
 {
  "ids": [
   "C151"
  ],
  "model": "`Model/ImpalaLearner.lean`",
  "proof": "after `run` has returned, queued and coming trajectories are as many at each time; `main_hangs_iff`: `main` ends iff they fit into the queue; `main_can_hang`: for all sizes an interleaving in which they do not"
 },
 {
  "ids": [
   "C152"
  ],
  "model": "`Model/ImpalaActor.lean`: actor, agent and environment as functions of their states; keys as in `Model/PRNG.lean`",
  "proof": "induction on the unrolls against an interaction without cuts (`play`); the key tree for the keys"
 },
 {
  "ids": [
   "C153"
  ],
  "model": "`Model/ImpalaActor.lean`",
  "proof": "an invariant that cuts the steps so far into episodes, carried through all unrolls; such a cut is unique"
 },
 {
  "ids": [
   "C154",
   "C155",
   "C156"
  ],
  "model": "`Model/ImpalaLoss.lean`: the arrays of `_loss` as lists over time; V-trace as `rlax` computes it; probabilities, entropies and ratios are any functions",
  "proof": "rows as pairs of neighbouring transitions; induction on them; discount 0 cuts the recursion of V-trace; a concrete trajectory for ends with discount 1"
 },
 {
  "ids": [
   "C157"
  ],
  "model": "`Model/Vae.lean`: `klGaussian` on arrays with broadcasting.",
  "proof": "`Props/Gaussian.lean` computes the divergence of normal distributions from Mathlib's definition (log-likelihood ratio of densities, second moments, product measures, invariance under measurable equivalences); `Props/Vae.lean: kl_gaussian` reads off the rows and uses log v ≤ v − 1 with its case of equality."
 },
 {
  "ids": [
   "C158"
  ],
  "model": "`binaryCrossEntropy` with its check of shapes, the reshape to rows, and `logaddexp(0, l)` as log(exp 0 + exp l).",
  "proof": "`binary_cross_entropy`: each summand is the logarithm of the probability of its pixel; sums of logarithms are logarithms of products."
 },
 {
  "ids": [
   "C159"
  ],
  "model": "`encoder`, `decoder`, `Net.call`, `lossFn` on the models of Linear, Flatten and reshape; the numbers from jax.random are any functions of key, shape and index.",
  "proof": "`loss_value` composes the layers; `loss_shape` reads the shape from a loss that succeeds; `evidence_lower_bound` uses the variational inequality `Gaussian.evidence_bound`, the affine image of standard normals (`normals_map`) and integrability by linear growth of the log-likelihood in the code; `image_drawn` measures the uniform numbers that make a pixel white."
 },
 {
  "ids": [
   "C160"
  ],
  "model": "`Model/CharRnn.lean`: `makeNetwork`, `unroll`, `sequenceLoss` on the models of `DeepRNN`, `LSTM`, `MLP`, `dynamic_unroll` and `log_softmax`.",
  "proof": "`Props/CharRnn.lean`: `network_step` composes the layers, `unroll_run` is the induction over time; `Props/CharRnnText.lean: loss_value` splits the sum and cancels the maximum that log_softmax subtracts."
 },
 {
  "ids": [
   "C161"
  ],
  "model": "The same, and `sample`, `examples`, `timeMajor`.",
  "proof": "`chain_sum` by induction over the length; `loss_likelihood`, `loss_is_sampling` and `data_likelihood` join the loss, the sampling and the data."
 },
 {
  "ids": [
   "C162"
  ],
  "model": "`sample`, `body`, `foriLoop`: keys are terms of splits, categorical is any function of key and logits.",
  "proof": "`sample_ancestral` carries an invariant of tokens, key and state through the loop; `sample_iff` adds uniqueness; `subkeys_distinct` counts splits; `sample_law` uses independence of the noise of different keys; `inverse_exact` and `sample_law_inverse` show that such noise and drawing exist."
 },
 {
  "ids": [
   "C163"
  ],
  "model": "`preprocess`, `chunks`, `examples`, `batch`, `timeMajor`; the shuffle is any order per epoch.",
  "proof": "`chunks_tile` by induction over the chunks; `batches_stream` by quotient and remainder; `batches_epochs` by permutations."
 },
 {
  "ids": [
   "C164"
  ],
  "model": "`Model/ImageNet.lean`: `Split`, `section_` (np.array_split of np.arange), `shard`.",
  "proof": "`Props/ImageNet.lean`: `shard_eq` gives the ends in closed form; `shards_tile`, `shards_partition` by induction over the boundaries; `shards_too_many`, `shard_index`, `splits_apart`."
 },
 {
  "ids": [
   "C165"
  ],
  "model": "`Flags`, `lrSchedule`, `Flags.numTrainSteps`.",
  "proof": "`lr_warmup`, `lr_cosine`, then `lr_shape` from the monotonicity of the cosine on [0, pi] and `lr_training` from the rounding of the number of steps."
 },
 {
  "ids": [
   "C166"
  ],
  "model": "`lossOf` from the logits on, with `oneHot`, `smoothLabels`, `softmaxCrossEntropy`, `l2Loss`, `isIn`.",
  "proof": "`loss_eq`, `loss_smoothing` cancel the maximum that log_softmax subtracts; `gibbs` is Gibbs' inequality with equality; `loss_least`, `loss_reached`."
 },
 {
  "ids": [
   "C167"
  ],
  "model": "`Replica`, `Learner` (any loss and optimiser), `pmean`, `trainStep`, `trainLoop`.",
  "proof": "`step_eq`; `loop_agree` by induction over the steps; `step_mean` by induction over the devices; `states_differ` is a witness."
 },
 {
  "ids": [
   "C168"
  ],
  "model": "`batchList`, `argmax`, `evalBatch`, `evaluate`.",
  "proof": "`argmax_spec` and `batches_spec` by induction; `evaluate_eq`, `evaluate_error`."
 },
 {
  "ids": [
   "C169"
  ],
  "model": "`centerCrop`, `transposeFn`, `transposeBack`, `batchStream`, `trainBatches`.",
  "proof": "`centerCrop_spec` by integer arithmetic; `transpose_inverse`; `trainBatches_get`, `trainBatches_once`."
 },
 {
  "ids": [
   "C45"
  ],
  "model": "`Frame.lean`: `belongs`, `paramsOrStateDict`, `modDict`, `notify`; `Machine.lean`: `wrapMethod`, `construct`, `nameScopeM` and all stateful control flow.",
  "proof": "`Props/Submodules.lean`: the content of the dictionary (`selects_partial`, `selects_names`) and what one call records (`method_recorded`). `Props/SubmodulesRun.lean`: over whole runs of programs that catch nothing (`Orderly`) every access is shown by the module and by all modules with running methods (`method_accesses_shown`, `constructor_accesses_shown`, `accesses_covered`, `shown_kept`, `accessed_in_dict_partial`), by induction over programs with an invariant on module objects and accesses; witnesses for what is excluded (`caught_not_shown`, `twice_not_shown`, `lifted_not_shown`)."
 },
 {
  "ids": [
   "C170"
  ],
  "model": "`Model/LmTrain.lean`: `TrainState`, `Updater` (any network, loss and optimiser), `init`, `update`; keys are ideal.",
  "proof": "`Props/LmTrain.lean`: `train_step`, `reports_steps`, `reports_loss` by induction over the updates; `keys_fresh` by the depth of the keys; `train_descends` gives the run of the optimiser and keys none of which is split off from another."
 },
 {
  "ids": [
   "C171"
  ],
  "model": "`fileName`, `checkpointPaths`, `ckptInit`, and `step`, a transition system of the process and the directory: starting, opening a file (which empties it), writing it, updating, crashing.",
  "proof": "`Inv` is an invariant of all steps (`inv_step`), for any predicate kept by init and update; `states_trained`, `files_named`, `file_step`, `files_stay`, `names_distinct`, `crashes_unseen`; `data_repeats` is a witness."
 },
 {
  "ids": [
   "C172"
  ],
  "model": "As C171; the listing of the directory is an input, any permutation of the names.",
  "proof": "`names_ordered` by the digits; `resume_newest_partial`, `loses_at_most_partial` for sorted listings, steps below ten million and a newest file that is complete; `restart_succeeds_partial` without crashes while a file is written; `any_checkpoint`, `torn_stuck`, `resume_risks`, `names_unordered` show that these are needed."
 },
 {
  "ids": [
   "C173"
  ],
  "model": "`cropOrPad`, `record`, `stack`.",
  "proof": "`record_length`, `record_obs`, `record_target`, `record_next`, `record_counts`; `batch_loss` from the loss of C142."
 },
 {
  "ids": [
   "C174"
  ],
  "model": "`Model/AutoRepr.lean`: `ArgSpec` and `bind` (what `getfullargspec` and `getcallargs` of Python do), `namesAndValues` (the arguments shown), `splitLines`, `join`, `indent`. The text of values (`repr`, `pprint`) and the choice between one line and several are not modelled.",
  "proof": "`Props/AutoRepr.lean`: `repr_equivalent_partial` reads the shown arguments as a call and binds it; `varargs_never` and `no_self_never` are the negation for arguments of `*args`; `split_join`, `indent_lines`, `indent_indent` by induction over lines."
 },
 {
  "ids": [
   "C175"
  ],
  "model": "`Model/FrozenDict.lean`: storage, sorted keys, items, attributes, equality, pickling, flattening.",
  "proof": "`Props/FrozenDict.lean`: `getitem_new`, `iter_increasing`, `eq_iff`, `eq_hash`, `perm_eq`, `reduced_eq`, `map_leaves`, `flatten_unflatten`."
 },
 {
  "ids": [
   "C176"
  ],
  "model": "`Model/TestUtils.lean`: the search as a loop over its three variables with bounded iterations; classes; products of parameters.",
  "proof": "`Props/TestUtils.lean`: `find_spec` from an invariant (each visited module on the stack has its children visited or above it) and a measure (stack and attributes of modules not visited); `subclasses_spec`, `combined_spec`, `product_order`, `bools_spec`, `range_spec`, `names_collide`."
 },
 {
  "ids": [
   "C177"
  ],
  "model": "`Model/Mnist.lean`: `repeated`, `evalBatch`, `loss`, `argmax`, `accuracy`, in exact arithmetic; the network is any function of one image.",
  "proof": "`Props/Mnist.lean`: `batch_section`, `batch_whole`, `batches_cover`, `loss_eq`, `loss_nonneg`, `accuracy_eq`."
 },
 {
  "ids": [
   "C178"
  ],
  "model": "`Model/Mnist.lean`: `emaUpdate`, the loop with its variables, the positions of the generators and what is printed; the network, the optimiser and the training batches are any.",
  "proof": "`Props/Mnist.lean`: `run_state`, `run_printed` by induction over steps, `main_printed`; `averaged_eq`, `weights_sum`, `averaged_between`."
 },
 {
  "ids": [
   "C179",
   "C180"
  ],
  "model": "`Model/MethodHooks.lean`: hooks as any context managers; `exitAll` and `enterAll` (`contextlib.ExitStack`), `withHooks` (`_module_method_call` and the use of `out` in `wrap_method`), `callMethod`, programs with calls, hooks and exceptions. Names and interceptors are in `Model/Machine.lean`, which leaves method hooks out.",
  "proof": "`Props/MethodHooks.lean`: `hooks_balanced` by induction over programs, `call_returns`, `suppressed_unbound`; `call_calm`, `watch_invisible`."
 },
 {
  "ids": [
   "C181",
   "C182"
  ],
  "model": "`Model/ImpalaNets.lean`: `batchApply` on rows, `Catch.call`/`unroll`, `Atari.core` (ResetCore of the LSTM on a row), `dynamicUnroll`, `unroll`, `call`, `Agent.step` with its squeezes, `Agent.unroll`, stacking. Layers, LSTM and head are any functions of one entry.",
  "proof": "`Props/ImpalaNets.lean`: `catch_unroll`, `atari_unroll` over a row-wise unroll by induction over time, `step_cell`, `batch_repeats`; `nets_forget`, `episodes_alone`, `calls_keep_time`."
 },
 {
  "ids": [
   "C183",
   "C184"
  ],
  "model": "`Model/ImpalaLiteAgent.lean`: `preprocess`, `step`, `rows` and `loss` on stacked trajectories, `rollout`, `runActor`. V-trace and the functions of `rlax` are those of `Model/ImpalaLoss.lean`.",
  "proof": "`Props/ImpalaLiteAgent.lean`: `loss_mean` via `loss_sums` of the full example, `preprocess_same`, `step_ok`; `windows` by induction over rollouts, `whole_length`, `keys_distinct`."
 },
 {
  "ids": [
   "C185"
  ],
  "model": "`Model/Grad.lean`: `statefulFun`, `jaxValueAndGrad` for any operator `D` on partial functions of the argument, `valueAndGrad`, `grad`, on the machine of `Model/Machine.lean`.",
  "proof": "`Props/Grad.lean`: `grad_of_plain`, `grad_of_aux`, `grad_raises`, `grad_outside`, by refinement to the local machine and the lemmas on `temporary_internal_state`."
 },
 {
  "ids": [
   "C186"
  ],
  "model": "`Model/OriginalFn.lean`: function objects with the attribute `_original_fn` as a store, `tieIn`, `getOriginal`, the four functions as far as they create functions and tie, programs of calls.",
  "proof": "`Props/OriginalFn.lean`: `original_of_result`, `original_stays`, `original_of_user`, `calls_succeed`, by an invariant over the calls."
 },
 {
  "ids": [
   "C187"
  ],
  "model": "`Model/AtariTorso.lean`: both torsos on arrays, on the models of convolutions, pooling, flattening and linear layers.",
  "proof": "`Props/AtariTorso.lean`: `shallow_is`, `deep_is` against sums over one picture, `torso_alone`, `torso_rows`, `shallow_blind`."
 },
 {
  "ids": [
   "C188"
  ],
  "model": "`Model/ToModule.lean`: the class made by `to_module`, its constructor and call, as programs of the machine.",
  "proof": "`Props/ToModule.lean`: `as_scope` compares both runs on the local machine; the second notification of the running modules adds what they know (`notifyLoop_known`). `new_named`, `new_raises`, `lambda_raises`, `calls_share`."
 },
 {
  "ids": [
   "C189"
  ],
  "model": "`Model/RnnTrain.lean`: `update` and `main` of `examples/rnn/train.py` over any task (initialiser, gradient, optimiser, loss, sampler) and streams of batches; `rng` is the model of `PRNGSequence`. A negative number of steps is not modelled.",
  "proof": "`Props/RnnTrain.lean`: the variables before step n are given in closed form (`varsAt`), kept by each step (`body_at`); `main_log`, `main_trains`, `main_evals`, `keys_differ`, `keys_handed`, `main_zero`."
 },
 {
  "ids": [
   "C190"
  ],
  "model": "`Model/ImpalaSystem.lean`: the threads of `Model/ImpalaLearner.lean` with contents: `Learner.update` over any gradient, optimiser and norms, `Actor.unroll_and_push` over any unrolling, `_params_for_actor` and what the logger is given. A batch is stacked when it is used; objects in the queues are not changed in between by anyone.",
  "proof": "`Props/ImpalaSystem.lean`: the sequential program is `replay`; the invariant `Inv` says that what waits in the queues is what `replay` would make next and that a trajectory that is being put is made from where the actor then stands; with `Flow` of C149 it is kept by every access (`inv_step`); `sequential`, `served_together`, `batch_next`, `data_follows`."
 },
 {
  "ids": [
   "C191"
  ],
  "model": "`Model/Machine.lean` and `Model/Frame.lean` (the machine of `hk.transform`, modules and `get_parameter`); the program is `stack` in `Props/Stack.lean`. The thread has no creators, getters or interceptors and `profiler_name_scopes` is off (`Bare`).",
  "proof": "`Props/Stack.lean`: specification `named`, `initial`, `compose`; on the local machine one layer is `new_layer` (with `kth_name` of C15), `call_layer`, `getAll_new`/`getAll_old`; induction over the layers (`init_run`, `apply_run`) with the invariant that every parameter stored so far is under a name given before; `init_stack`, `apply_stack`, `apply_init`, `keys_distinct`."
 },
 {
  "ids": [
   "C192"
  ],
  "model": "`Model/Machine.lean`, `Model/Frame.lean`, `Model/Names.lean`; the program is `progs` in `Props/ModuleTree.lean`. The thread has no creators, getters or interceptors and `profiler_name_scopes` is off (`Bare`). Attributes of module objects are not modelled; a module finds those made in its `__init__` by their numbers, which follow its own.",
  "proof": "`Props/ModuleTree.lean`: specification `flatL` (names, parameters and state in order), `startP`, `startS`, `composeL` (threads the state); names are distinct by the first component of a path (`Under.unique`, `flatL_nodup`); on the local machine `construct_body`, `new_tree` (making), `call_node`, `getStates_new`, `getStates_read`, `setStates_run`, then mutual induction over trees and lists of trees: `read_call`/`read_calls`/`read_list` for entries that are there (frozen or not, so also for the second call within `init`), `init_call`/`init_calls`/`init_list` for new ones; `init_trees`, `apply_trees`, `apply_init`, `names_distinct`."
 },
 {
  "ids": [
   "C193"
  ],
  "model": "`Model/ImpalaLiteSystem.lean`: `Work` (what the threads call, any functions), `update`, `Data`, `effect`, `step`, `run` on top of the accesses of `Model/ImpalaLite.lean`; `actorRound` is one round of `run_actor` made of `rollout` in `Model/ImpalaLiteAgent.lean`. Reading the parameters, `put`, `get` and storing new parameters are atomic; an agent that raises is not covered.",
  "proof": "`Props/ImpalaLiteSystem.lean`: specification `replay` (sequential), `alone` (one actor); invariant `Inv` (all trajectories put so far are those that `makeAll` makes with the parameters of their versions, actors that hold a trajectory are one round ahead) kept by each access (`inv_step`), with the order of C148; `sequential`, `only_batches_matter`, `actor_alone`; `alone_runFrom` relates rounds to the loop of `run_actor`, giving `actor_runs`."
 },
 {
  "ids": [
   "C194"
  ],
  "model": "`Props/SharedLayers.lean`: `loop` (the loop of `Sequential.__call__`), `shell`, `sequential` are programs on the model of `Model/Frame` and `Model/Machine`, with the trees of C192; `Mnist.net` is `net_fn`. What the layers compute is any function; extra arguments of the first layer are not covered.",
  "proof": "`Props/SharedLayers.lean`: specification `items`, `firsts`, `compose`; induction over the layers (`loop_init`, with the modules seen so far; `loop_read`) from `init_call` and `read_call` of C192; entries of different modules are apart (`items_apart`, from `flatL_nodup`); `init_sequential`, `apply_sequential`, `apply_init`, `init_first_calls`, `entries`, `mnist_init`, `mnist_apply`."
 },
 {
  "ids": [
   "C195"
  ],
  "model": "`Props/StraightLine.lean`: `Body` is the syntax of the programs, `exec` their meaning on the model of `Model/Frame` and `Model/Machine`; `SimpleNet.net` is the function of examples/impala_lite.py. What is computed in between is any function. State, control flow and modules made in `__init__` are not in these programs (see C04 and C192).",
  "proof": "`Props/StraightLine.lean`: specification `events` (what is asked for, in order), `built` (a fold over it) and `value` (no frame, no heap); induction over the program with an invariant that says what calling each module in scope does (`ScopeI`, `ScopeA`, in any later heap); `run_init`, `run_apply`; `init_program`, `apply_program`, `apply_init`, `first_value`, `only_asked`, `simple_net_init`, `simple_net_apply`."
 },
 {
  "ids": [
   "C196"
  ],
  "model": "`Props/TransformerProgram.lean`: `Net` (programs in which modules are called where they are made), `Net.body` (as programs of C195), `linear`, `layerNorm`, `attention`, `dense`, `layers`, `transformer`, `forward`. Initializers and array operations are any functions (`Ops`).",
  "proof": "`Props/TransformerProgram.lean`: specification `newParams` (the dictionary, with keys) and `logits` (the fold over layers `step`); `hname_inj` (names of different layers differ), `layers_ok`, `layers_events`, `layers_value` by induction on the number of layers, `fold_items` (init fills module by module); `init_transformer`, `apply_transformer`, `apply_new`, `count_params`."
 },
 {
  "ids": [
   "C197"
  ],
  "model": "`Props/AnyProgram.lean`: `Ask` and `Code` are the programs, `exec` their meaning on the model of `Model/Frame` and `Model/Machine`. A continuation is any function of the value before it. `Obj` is a module with the modules made in its `__init__`. Not in `Code`: `__init__` that does anything else than making modules, further methods, `try`.",
  "proof": "`Props/AnyProgram.lean`: specification `Mem`, `answer`, `flat`; `op_answer` (each operation), `run_flat` by induction on the program, with an invariant on the stack, the name counters and the modules in scope; `new_obj` and `good_obj` by induction on modules made in `__init__`; `init_code`, `apply_code`. `flat_more` and `flat_keeps` by induction on the program give `apply_more` and `apply_keeps`; `flat_keyless`, likewise, gives `apply_keyless` and `init_keyless`. Beside them a counter (`counts`, for every count) and a program with branches and an error."
 },
 {
  "ids": [
   "C198"
  ],
  "model": "`Props/BatchNormProgram.lean`: `ema`, `call`, `bn` are programs in the sense of C197, so they run on the model of frames; the averages are modules made in `__init__`. The property `average` is entered like `__call__` (the difference only matters for modules made there). Operations on arrays are any functions (`Ops`; what they are in exact arithmetic is in C66-C68). No replica axis; scale and offset are own parameters.",
  "proof": "`Props/BatchNormProgram.lean`: `init_code` and `apply_code` of C197 reduce to the memory, where `bn_flat`, `finish_flat` and evaluation give the results; `trained` by induction on the batches."
 },
 {
  "ids": [
   "C199"
  ],
  "model": "`Props/VaeProgram.lean`: `encoder`, `decoder`, `call`, `vae` are straight-line programs in the sense of C195, so they run on the model of frames; `loop` and `mainDraws` take the keys of `main` with `PRNGSeq.next`. Operations on arrays are any functions (`Ops`). Keys are symbolic: different paths of splits are different keys. Not modelled: data, gradients, the optimiser, `jax.jit` (the key is an argument of the compiled functions).",
  "proof": "`Props/VaeProgram.lean`: `init_program` and `apply_program` of C195 with `vae_asks` and `vae_computes`; `init_takes` counts the keys of `init`; `draws_distinct` by induction on the steps (`loop_keys`) and on paths of splits (`left_keyNo`)."
 },
 {
  "ids": [
   "C200"
  ],
  "model": "`Model/TransformAndRun.lean`: the wrapper as a program; programs are those of C197. `Still` excludes `next_rng_key` and its like and `running_init`.",
  "proof": "`Props/TransformAndRun.lean`: `flat_retraces` by induction on programs and on modules made in `__init__`, with the relation `Rel` between the memories of `init` at a point, at its end, and of `apply` at that point; `init_code` and `apply_code` of C197 carry it to the machine. `keyed_differs` shows that keys must be excluded. State is compared as dictionaries, without their order."
 },
 {
  "ids": [
   "C201"
  ],
  "model": "`Props/MlpProgram.lean`: the module as a program of C197, with one body for all layers, found by their number, and the loop of `__call__` by recursion. Array functions are any functions; sizes are given rather than read off the arrays; layers have a bias. The two errors for a rate without a key and the other way round are in C63.",
  "proof": "`layers_ok` and `layers_den` by induction over the layers (names `linear_i` are asked for once each); `loop_flat` by induction over the layers that are left, for any memories `M i` before layer `i`; `init_loop` and `apply_loop` give them; `init_code` and `apply_code` of C197 carry it to the machine."
 },
 {
  "ids": [
   "C202"
  ],
  "model": "`Props/DeepTorsoProgram.lean`: `block`, `blocks`, `sections`, `tail`, `torso` as programs of C197, with the loops by recursion and modules made where they are made in the code. Array functions are any functions; shapes of parameters are given rather than read off the arrays. In the example the torso is called in a `BatchApply` in another module; here it is called on its own.",
  "proof": "`Used` says what names were asked for before block `j` of section `i`; `blocks_flat` and `sections_flat` by induction over the loops, for any memories `M t` before layer `t`; `reqs_nodup` shows that names do not clash, so `layer_init` applies to each layer; `init_code` and `apply_code` of C197 carry it to the machine."
 },
 {
  "ids": [
   "C203"
  ],
  "model": "`Props/UnrollProgram.lean`: `lstm`, `vanilla`, `gru` and the loop of `static_unroll` as programs of C197, with layers made in each call where the code makes them there. Array functions are any functions; sizes are given rather than read off the arrays; the checks of the rank of the inputs, `time_major=False` and `dynamic_unroll` are not in it (see C55 and C87 for the last).",
  "proof": "`unroll_flat`: if the first step takes memory `m` to `m'` and every step keeps `m'`, so does the unrolled core, with the outputs of the fold; `loop_flat` by induction over the steps. The steps come from `layer_init` and `layer_apply` of C202; `init_code` and `apply_code` of C197 carry it to the machine."
 }
]
