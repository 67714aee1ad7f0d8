# Design of the formal model

The subject is the C library in `/repo/src`. It is read as text; nothing is
built or run. The model is written in Lean 4 under `lean/Verif/`.

## Layout

Each area has up to three files.

* `Model.lean` : Lean definitions transcribing C functions. Each definition
  cites the file and lines it models and says what was simplified.
* `Spec.lean` (or a `Spec` section) : the small vocabulary in which the
  property is stated. It does not mention the model's loops.
* `Props.lean` : the property theorems named `Cxx_...`, each with a concrete
  non-trivial `example` meeting its hypotheses.

Helper lemmas are in `Lemmas.lean` or next to the model.

## Trusted base

* Lean's kernel and the three standard axioms `propext`, `Classical.choice`,
  `Quot.sound`. No other axiom, no `sorry`, no native evaluation.
* The transcription from C to Lean, which is by hand. Each definition cites
  its source lines so that it can be compared.
* Numbers. C `int`/`uint64_t` values used as sizes and indices are `Nat` or
  `Int`; overflow is ignored unless the comment on the definition says
  otherwise. C `float`/`double` values are idealised: as elements of a linear
  order when the code only compares, of a commutative monoid or ordered field
  when it adds and multiplies, and as real numbers when it calls `exp`, `log`,
  `sqrt` or `pow`. Rounding, NaN and infinities are outside the model unless
  stated.
* Memory. An array is a `List`. Where a property includes memory safety the
  model reads and writes through bounds-checked operations in `Option`; `none`
  is undefined behaviour. Allocation never fails. Distinct parameters do not
  alias.
* `rand()`, clocks and file contents are explicit inputs.

## Plan for each property

| id | what is modelled | how it is proved |
|----|------------------|------------------|
| C01 | `quick_sort`, `quick_sort_int` with bounds-checked index array | loop invariants of the Hoare partition, then induction on slice length |
| C02 | `merge_sort`, `merge` | permutation by induction; sortedness refuted by a concrete array |
| C03 | all shuffle variants as one loop over parallel arrays with the random stream as input | induction on the loop; refutation for the variants with integer vectors |
| C04 | the same loop | construction of the stream by induction |
| C05 | `itoa_n` | induction on the digits |
| C06 | `argmax` | loop invariant |
| C07 | `confusion_matrix`, metrics | induction over the call history |
| C08 | `check_int_array` as a first-child/next-sibling trie | invariant over histories |
| C09 | list file as lines with a claim mark | invariant over histories |
| C10 | `add_experience` ring buffer | induction over the history, refinement to "last n" |
| C11 | heap functions and the two index maps, bounds-checked | invariant over histories |
| C12 | `update_recursive_cumulative_heap_up` | invariant over histories |
| C13 | `weighted_random_sample*` | descent invariant; refutation for the reward variant |
| C14 | `update_exploration_probability` | induction on steps |
| C15 | `update_lr` and the decays | case analysis; refutations by witness |
| C16 | the projection loop | sums over atoms, floor arithmetic |
| C17 | `compute_probability_distribution` | algebra and C18 |
| C18 | `softmax` | sums of exponentials |
| C19 | `derivative_softmax` | `HasDerivAt` of softmax |
| C20 | activations | `HasDerivAt` |
| C21 | losses | `HasDerivAt`; huber refuted |
| C22 | clip functions | list induction |
| C23, C24 | fully connected forward and backward | loop/sum lemmas, `HasDerivAt` in each parameter |
| C25 | edge-popup forward, zeroing of unused weights | sums over index lists; ceil/floor identity for fractional counts |
| C26, C27, C28 | convolution loops | nested loop/sum lemmas, adjoint identities |
| C29, C30 | pooling | loop invariant; refutation for overlap and for very negative inputs |
| C31, C32 | attention | softmax lemmas, index arithmetic; refutation when k differs from v |
| C33, C34 | batch normalisation | algebra over finite sums; backward refuted by witness |
| C35 | scaled L2 norm | `HasDerivAt` |
| C36 | `lstm_ff` | induction on time |
| C37, C38 | clipping | algebra of squared norms; refutations |
| C39 | recursive reduction, thread steps interleaved arbitrarily | induction on size and on schedules |
| C40 | batch loops | list of visited indices is `range n`; refutation for remainders |
| C41 | optimiser update rules | induction on histories |
| C42 | layer update functions | loop lemmas; refutation for group normalisation |
| C43 | slow paste | induction on k |
| C44 | parameter packing | list append lemmas |
| C45 | byte files as token lists with append mode | round trip by induction; refutations |
| C46 | `network` position checks | pigeonhole |
| C47, C48 | NEAT registry, genomes, mutations, crossover | invariant over histories |
| C49 | speciation | induction over genomes |
| C50 | `compute_species_distance` | refutation and partial |
| C51 | depth-first check | refutations in both directions and partial soundness |
| C52 | order of effects in `ddpg_train` | refutation: the output layer is reset before it is read |
| C53 | Ornstein-Uhlenbeck noise | clamp lemma over histories |
| C54 | genome byte array | token list round trip |
| C55 | byte reversal | involution; refutation for the array routine |
| C56 | score comparison | case analysis; refutation for the vector variant |
| C57 | visit counts and root selection | sums; refutation by witness |
| C58 | priority write-back loop over heap positions | partial for one position; refutation for two |
| C59 | both weighted samplers over an exact cumulative tree | interval decomposition of the descent |
| C60 | reward-class counters, tree and totals | invariant over histories |
| C61 | n-step return loop on the ring | loop invariant on the history index |
| C62 | `sample_softmax_with_temperature` | loop invariant on the running sum; refutations by witness |
| C63 | total variation loss and gradient | loop sums; refutations by witness |
| C65 | noisy forward/backward loops | index-counter invariant, chain rule; refutations by witness |
| C66 | `get_used_outputs` | loop invariant; refutation for fractional counts |
| C64 | vector primitives with bounds | loop/fill lemmas; refutation for `std` |
| C67 | transposed convolution loops | nested loop/sum lemmas, `HasDerivAt` |
| C68 | `self_attention_bp` | `HasDerivAt` through the soft-max |
| C69 | the final mean/variance loops of batch normalisation | algebra of finite sums; refutation by witness |
| C70 | `lstm_ff` gates, cell and hidden state | loop/sum lemmas, induction on time |
| C71, C72 | `lstm_bp`, the back-propagation driver of `rmodel.c` | chain rule by induction on the window; refutations |
| C73, C76 | back-propagation of the dueling heads | `HasDerivAt`; refutation when the sizes differ |
| C74 | bootstrap action selection | loop invariants; refutation with a used buffer |
| C75 | quantile Huber loss and gradient | `HasDerivAt`; refutation out of bounds |
| C77 | the L2 functions and `update_model` order | loop lemmas, gradient of the penalty, closed form with C42 history |
| C78 | `reset_oustrategy` | equality of runs; refutation |
| C79 | residual blocks accepted by `network` | from the C46 characterisation; refutations |
| C80 | `puct`/edge selection | argmax invariant against a written-out score; refutation |
| C81 | hyper-parameters of `ddpg_train` | trace of the update calls |
| C82 | `save_model`/`load_model`, `save_rmodel`/`load_rmodel` | round trip over token files; refutation for directories |
| C83 | `recurrent_network` checks | the C46 lemmas; refutation for duplicates |
| C84 | whole forward and backward pass of a model of fully connected layers (`Net/Chain`) | curves and pull-backs (`Pull`), induction over the layers; the specification `net` is written separately; the output array is the one `set_model_output_layer` picks (after dropout if the last layer has it) |
| C85 | `ff_error_bp_model_once` with the element-wise losses and class weights | C84 and C21; the Huber loss is refuted |
| C86 | hand-over between layers with dropout in training and at test time | values of the copied arrays; the mean is refuted |
| C87 | local response normalisation forward (`Layers/LRN`) | the two scans compute the window (`bounds_run`); the window is specified by counting used channels |
| C88 | local response normalisation backward | closed form of the accumulated sums, derivative of the power; refuted for unequal errors |
| C89 | fully connected layer with local response normalisation (`Net/NormFc`) | C84, C87, C88; the gradient is refuted with and without dropout |
| C90 | `neat_generation_run` with fitness, species and both buffers (`Neat/Generation`); mutations, crossover, distance and random draws are parameters | invariant over `Step`/`Reachable`: the population fits the buffers because the species before weeding are at most `new_max_pop` |
| C91 | as C90 | the last genome pushed is the best one; induction over generations |
| C92 | as C90 | bounds of `share` and `quota` summed over the species |
| C93 | as C90 (`Neat/GenerationHist`) | induction over a trajectory; an improvement below -1 is not recognised (refuted) |
| C94 | as C90 | order and upper bound proved; lower bound refuted, the first genome need not be the worst |
| C95 | as C90 | refuted by a reachable state: the counter consulted is never advanced |
| C96 | as C90 | number of genomes proved; the weakest are not always removed and `set_max_population` has no effect (refuted) |
| C97 | `channel_normalization_feed_forward` with padding and mask (`Layers/GroupNorm`) | flatten the loops over rows and columns, reuse the accumulation lemma of C33 |
| C98 | `group_normalization_feed_forward` | one group or one-cell channels proved from C97 (partial); refuted otherwise, the group offset is a channel number used as a cell number |
| C99 | ant colony search: graph of `init_aco`, walks, building a network (`Aco/Graph`) | the layout of the graph by induction over the layers (`Layout`, `attachLayer_spec`), walks by induction over the layout |
| C100 | `get_best_model` | greedy walk from the walk lemma; weights other than the first refuted |
| C101 | choosing an edge (`nextEdge`) | as C12: intervals of a roulette over the permutation `sort` returns |
| C102 | `get_all_nodes_and_edges` (`Aco/Colony`) | depth-first invariant (new nodes, their edges, closure); every node has a predecessor with a smaller number |
| C103 | `update_pheromones` on edges and nodes | trails visit increasing nodes, so slots are distinct; pointwise description; invariant over histories |
| C104 | `update_best_trail` | invariant over the list of rounds |
| C105 | `update_taus` | field arithmetic for average at least two; refuted below and for p = 1 |
| C106 | `get_stagnation`, `recompute_pheromones` | sum of minima; refuted after the bounds are lowered |
| C107 | `update_pheromones_according_to_subnodes` | full range equals the node update; refuted for a proper range |
| C108 | swarm leaders and `update_pso_nodes` (`Aco/Swarm`) | induction over the weights of a layer; refuted for the edge version, which walks `4*depth-3` weights |
| C109 | personal bests over a history, inertia and constants | induction over the history |
| C110 | masses of `update_gsa_nodes` | min/max folds; refuted for equal pheromones (0/0) |
| C111 | `vae_model_tensor_input_ff/bp` over whole fully connected networks (`Net/Vae`) | C84 for an arbitrary differentiable objective of the outputs, chained through the sampling step; refuted: the encoder gets twice the loss gradient, and `2σ − 1/σ` for the deviation is no multiple of the divergence's |
| C112 | `free_vae_model` as the list of released blocks | refuted: `return` without a semicolon swallows the next statement, so `z` leaks and null is dereferenced |
| C113 | `multi_core_neat.c` (`Neat/Threads`) | invariant over an arbitrary interleaving of the per-thread steps |
| C114 | `sin_cos_positional_encoding_vector` (`Misc/Random`) | double induction; cosine decreasing on [0, π]; refuted: the formula differs from the paper's |
| C115 | `initialization.c` (`Misc/Random`) | order and logarithm bounds; refuted for `random_beta` with two zero draws |
| C116 | `feed_forward`, `recursive_computation`, `ff_reconstruction`, `get_connections` … (`Neat/FeedForward`) | outputs are the sigmoid of the node sums when every node but the inputs hands its value on once (induction over the rank of nodes); range and independence of disabled connections for every genome; refuted with a skip connection |
| C117 | `multi_head_attention_bp` (`Transf/MultiHeadBack`, `Transf/AttentionCurve`) | closed forms of the four loops paired with arbitrary velocities; induction over heads for the running offsets; refuted when key and value sizes differ |
| C118 | `encoder_transformer_ff`, `encoder_transformer_bp` (`Transf/Encoder`, `EncoderFwd`, `EncoderBack`, `EncoderProps`); the networks inside are arbitrary functions with an adjoint pass | each stage of the forward pass run to its specification; adjoint identities of the stages composed along curves of input and parameters; refuted for a last convolution with an activation and no pooling, which works in the caller's error array |
| C119 | `transformer_encoder_layer`, `reset_*`, `copy_*` (`Transf/EncoderReset`, `EncoderCycle`) | invariants of the clearing loops; induction over the list of samples; refuted: second residual connection alone (null buffer in reset), derivative-keeping reset, copy without parameters, incomplete tokens |
| C120 | `policy_gradient_model_error` (`RL/PolicyError`) | the loops computed in closed form; derivative of the softmax along a curve and its transpose; refuted: the entropy bonus has the wrong sign (it falls along the negative error), one action (the second probability is printed) |
| C121 | `derivative_inverse_q_function_array` (`RL/PolicyError`) | closed form and derivative along a curve; refuted: the regulariser is not that of the chi-square divergence |
| C122 | `policy_gradient_training_passage`, `get_policies`, `init_policy_gradient` (`RL/PolicyTrain`) | induction over the rounds of the relation, with C39 for the threaded sum; induction over histories; refuted: first passage with a rate schedule divides by zero, clipping threshold never assigned, 0 threads never end, threaded `get_policies` returns the inputs or goes out of range |
| C123 | `train_iqn` (`RL/IqTrain`) | induction over rounds, batches and epochs; refuted: derivatives are never cleared, every update uses those of all earlier batches |
| C124 | `transf_ff`, `transf_ff_opt` (`Transf/Stack`); the layers are arbitrary functions | invariants of the two loops, the specification being list concatenation; refuted: `RUN_ONLY_ENCODER` runs no encoder, the shared pass reads its own decoders |
| C125 | `transf_bp` (`Transf/StackBack`), with the encoders of C118 in `Transf/StackEnc` | invariants of the downward loops carrying the pairing of errors with velocities; refuted: `RUN_ONLY_ENCODER` |
| C126 | `wrapped_encoder_transformer_decoder_ff`, `_bp` (`Transf/Cross`, `CrossBack`) | as C118, with two curves of inputs; partial as C118 is |
| C127 | `transformer_decoder_layer`, `decoder_transformer_ff`, `decoder_transformer_bp` (`Transf/Decoder`, `DecoderProps`), put into the transformer of C124 | forward pass run to its specification for one head; refuted: two or more heads (buffers for one), every backward pass (`fcls` is never assigned), a single normalisation (constructor exits) |
| C128 | `save_*`/`load_*` of encoder, decoder and transformer (`Save/Transf`), on the networks of C82 | reader lemmas composed in the order of the file; the constructor accepts what it returned; refuted: two or more decoders (saving exits), one decoder and several encoders (loading is undefined), connections (an address is saved) |
| C129 | `train_rainbow` after the sampling, `dueling_categorical_dqn_train_with_error`, `..._train_l_infinite` (`RL/RainbowTrain`) | relation over the rounds with C39 for the threaded sum, induction over rounds and over histories; small-step model of the shared variable of the returned distance; real powers for the weights; refuted: discounts and states of later rounds, returned distance, weights by slot |
| C130 | `multi_core_rmodel.c` (`Train/MultiCoreR`) | C40 for the drivers with own models; small-step model of unprotected additions for the shared model: invariant for one thread, a losing schedule for more |
| C131 | `parser.c` 28-292 (`Parse/Text`, `Parse/Csv`) | the buffer of 256 characters as a partial array; induction over fields, rows and characters; refutations for long fields, missing separators, line ends and classes |
| C132 | `parser.c` model descriptions (`Parse/ModelFile`) | the state machine over lines and fields, the grouping of convolutional layers in residual blocks; induction over the layers against the specification `netOf` |
| C133 | `parser.c` 1423-1623 (`Parse/DqnFile`) | both scans as one recursion over characters with the stage, positions and lengths; induction over sections; the name prefix refuted |
| C134 | `training.c` 28-298 (`Save/Training`) | files as byte strings, `fwrite` as `take`; the main file determines counters, characters and the first `n_size` bytes of each numeric array (theorem), hence a quarter of the numbers only (refuted: the size is in bytes, not cells); empty arrays make it exit; the model files do not collide unless another training is saved too near |
| C135 | `model_tensor_input_ff/bp`, `ff_cl_cl`, `bp_cl_cl`, `bp_fcl_cl`, `ff_fcl_cl`, `bp_cl_fcl` without normalisation and residual blocks (`Net/ConvOps`, `ConvPool`, `ConvLayer`, `ConvNet`) | curves and pull-backs as in C84; each convolutional layer is `CUnit.fn` (kernel map, activation, pooling), the network the composition `cnet`, written apart from the code; induction over the layers. Assumed: equal row and column padding of the output, all kernels used, `FULLY_FEED_FORWARD`, layers without convolution have pooling and as many kernels as channels, pooling windows disjoint (C30 refutes the overlapping case), accumulating arrays cleared. The code multiplies the error array of a last layer in place; the model leaves it (visible only with residual blocks, see C136) |
| C136 | the residual branches of `model_tensor_input_ff/bp` (`model.c` 7154-7461, 8079-8392) over the layers of C135 (`Net/ResNet`) | a block is `act1 (x + cnet inner x)`; induction over the layers with the pending residual error (`error_residual`, the array `addPend` adds) as part of the state, the in-place multiplication of that array by the last convolution modelled by `clobber`. Partial: `Tame` networks only; three universal refutations for the excluded ones. Not modelled: a last block writing through the caller's error array, blocks without convolutions, size mismatches inside `residual()` (it does not check) |
| C137 | vector.c 43-518 in `Verif/Net/VectorNode.lean`: nodes with their arrays, what the output pointer is, files as cells | each action a pull-back; forward and gradient with one and two inputs proved for every loss (partial: no dropout, error array cleared, no division by zero and no rectifier at zero). Refuted: dropout nodes send back the old error array, soft-max nodes add to the error of the last pass even after `reset_vector`, `GET_MAX` writes at -1 when all inputs are at most -1, other actions with two inputs become concatenations for good, `load_vector` loses the numbers, `RESIZE` nodes cannot be freed |
| C138 | mcts.c 128-170, 206-395 and math_functions.c 1286-1293 in `Verif/RL/SearchTree.lean`: nodes numbered in order of allocation, recursion on the levels left, networks and choices of edges as parameters | invariant of a visit (`Did`) by induction on the levels, invariant of all histories (`Sims`, `Inv`) by induction on the simulations; policy and value through C57. Refuted: node values are no means, the difference of the bounds is constant, equal bounds after one simulation, offset added per entry |
| C139 | `Verif/Net/BatchStep.lean` composes the models of C85 (one sample), C40 (threads), C39 (sum), C42 (optimisers) with the resets (fully_connected_layers.c 1359-1411, 1467-1511) into a relation `BatchStep` and histories `Train`; plain fully connected layers without noise, normalisation, edge-popup or regularisation | the small specification is `batchLoss` as a function of all parameters (`Params`) and `Descends`; shapes and readiness kept by every round (`Good`), the sum through C39, the derivative through C85. `Verif/Net/BatchDescent.lean`: the loss is Fréchet differentiable in the trained parameters, so it falls along the negative gradient; every architecture has a machine (`fresh_good`) |
| C140 | `Verif/Net/Wiring.lean` models struct_conn.c: building and freeing a connection (73-318), filling the input arrays (369-827), the forward pass (830-1053) and the backward pass with its sum of errors (1281-1799); the structures themselves are their output arrays and their backward pass a parameter; not `_opt`, reset, paste, the backward passes of recurrent and temporal models | the specification `Fed` says which value every position gets, proved by induction over the positions from the front (the later copy wins); errors by induction over the readers, and the chain rule for their sum. The code breaks the property in several branches (`_refuted`): three index arrays are not stored, offsets run past the end, the recurrent model ignores one index array, the encoder ignores its index array, concatenation reads the wrong side, and the errors of encoders, decoders and transformers do not say where they belong |
| C141 | `Layers/ConvPopup.lean`: the four edge-popup convolution routines over all feature maps, with the weights numbered across kernels and an arbitrary order of them. Forward = strided correlation with the masked kernels; input, weight and score errors = `HasDerivAt` of the error-weighted output. Refuted: the forward pass ignores the biases although the backward pass trains them. |
| C142 | `Layers/TConvPopup.lean`: the four edge-popup transposed convolution routines, with and without padding. Same statements; the bias is added (and its error is its derivative) without padding. Refuted: with padding the forward pass leaves the bias out although the backward pass trains it. |
| C143 | `Layers/LSTMPopup.lean`: `lstm_ff_edge_popup`, `lstm_bp_edge_popup` over ℝ, the rankings as index matrices. Forward with all gates active equals the LSTM equations with restricted weights and no biases; a gate with both flags zero reads an uninitialised cell (refuted). Score errors of the last cell are derivatives in factors on the weights (through the tangents of `BPTTMath`); units that are active only through recurrent weights get none (refuted). Errors from above and from the next step run over positions from ⌊Tk⌋ on instead of ⌊T−Tk⌋: right only if these agree, nothing flows with k = 1 (refuted); the cell-state error of the next step is dropped (refuted). |
| C144 | `Layers/LSTMStack.lean`, `Layers/LSTMStackMath.lean`: `ff_rmodel_lstm` and `bp_rmodel_lstm` for a list of layers, each with its stored steps, the error of the layer above going down with the flags `lstm_bp` gets, the derivative of the step overwritten layer by layer. Theorem: tangents of the stack paired with the adjoints (`stack_pair`), the loops shown to compute these adjoints, so every parameter gets its derivative. Residual connections and edge-popup layers above the first refuted. Group normalization between layers and the mixed indices of edge-popup backward are not modelled. |
| C145 | `RL/EzHeads.lean`: body and two heads as lists of fully connected layers, the four prediction functions, copies that borrow the parameters. Batch version proved from the single-model gradient (C84's machinery) with `Pull` for the sum of the heads; the one-sample backward pass runs the value head instead of the body and is refuted, as is the batch version of a model made for one thread (NULL arrays). |
| C146 | `RL/EzReward.lean`: which copy reads which array, with the three networks as abstract functions of vectors (what they compute is C71, C84). One window and backward proved while the stack's window is right; a history theorem says exactly when it is 1; batches are right exactly for 1 sample or as many samples as steps, undefined for more, mixed up for fewer (index `i*threads+j` instead of `i*lstm_window+j`). |
| C147 | `Save/Ez.lean`: save and load of the EfficientZero model as header plus the part files of `Save/Model` and `Save/RModel`. Round trip for a new number from the part round trips (`C147_save_partial`); refuted for a number used before (the old model is loaded) and for a directory (only the header is written there, for every model). The copies made for the batch are not in the file and not modelled here. |
| C148 | `RL/EzAll.lean`: the model as a record of ten networks and the arrays of copies, over any type of network; the operation on one network is a parameter. Proved: construction, preparation for inference, optimiser constants, copy, paste, release (a permutation of all networks). Refuted for every model: reset skips the reward networks and all but one window of copies, the inference reset skips the dynamics network (line 1038 lacks the call), the resets of the copies read NULL with one thread or without projections, edge-popup skips the projections and, with one thread, the reward copies. |
| C149 | `Net/FlatEz.lean`: vectors of the ten networks on top of the layer copies of C44, with the weight and score copies of recurrent layers. Round trips proved for parameters and weights; for scores only when every recurrent layer was made for edge-popup, refuted otherwise. The `int` offset of `/repo/src/rmodel.c` 2358 is taken as unbounded. |
| C150 | `RL/Diversity.lean`: the loops of the seven losses over the reals, from the result of the forward pass to the error buffer; NaN tests and float rounding are left out, `0/0` is a failure. Gradients proved with Mathlib derivatives in every q value and every output. L1 and KL (opt) proved; L-infinity ignores alpha, weight and clip and divides by zero on equal policies (refuted); the older KL treats action 0 as the greatest and returns an approximation that can be negative (refuted). |
| C151 | RL/Consensus (model), RL/ConsensusOrder, RL/ConsensusProps: the two readapters, the layer walk driven by the cumulative size function, the probability table and the exchange loops over any ordered field with `erf` and `sqrt` as parameters. The exchange loops are simulated by an order on positions. Proved for all inputs: termination of the walk, agreement of the networks, permutation per layer, scores in steps. Order: proved for layers of two and for strictly increasing totals of any size; refuted for every strictly decreasing layer of four and every low-high-middle layer of three. The divisor of the means is the layer size (refuted as a mean). The exported merge sort leaves its table for every n >= 2. |
| C152 | Layers/ScoreNorm: the scan for the extreme scores and the scaling loop of one layer, the walk over the layers of a model, and the global version with one scale. Scores over any ordered field, `none` for a null score pointer or a division by zero. Proved: the new scores are the image under one increasing affine scale onto [0,1], per layer and over the whole model, for layers with scores that are not all equal and not all beyond the starting values. Refuted: equal scores (0/0), scores all above 999999999, layers trained by gradient descent (null scores), layers without scores in the global scan. |
| C153 | Layers/GroupNormBack: the backward pass of channel normalisation (two passes over the padded planes) and the walk over the groups, over the reals. Proved: gamma and beta errors are the derivatives of the weighted outputs of the group; with one group, or channels of one cell, the walk treats every group so. Refuted: the input error (a cell with zero output error of its own gets none although it moves mean and variance), and the walk for the second group of larger channels (the offset is the channel number, not the cell number). |
| C154 | Replay/EfficientBuffer: construction (all range checks), insertion and priority update of the EfficientZero buffer, on top of the heap, tree and class models of Replay/. State vectors opaque, null pointers as `none`. Proved by an invariant over arbitrary histories, one theorem for each sampling mode; the constructor succeeds exactly for the documented ranges. Refuted: the discount argument is checked and then ignored, the stored discount is a power of lambda_value. Memory management and the commented-out training function are not modelled. |
| C155 | `Verif/Layers/FclLife.lean`: `fully_connected`, `copy_fcl`, `paste_fcl`, `reset_fcl`, `reset_fcl_only_for_ff`, `reset_fcl_for_edge_popup`, `make_the_fcl_only_for_ff`, `free_fully_connected` and the inference switches over a memory of addresses and live blocks. A layer is forty optional pointers. `none` is a write through null, a read of freed memory, a double free or `exit`. Proved by induction over the sequences of allocations, copies, stores and frees, for every memory and every combination of flags. Left out: layers with layer normalisation; the integer arrays are stored as field values; random draws, the ranking and the used-output count are parameters. Refuted: copying a dropout-only layer ends the program, a copy gets noise of its own, `reset_fcl` after stripping writes through null, `reset_fcl_for_edge_popup` keeps the gradient of the biases. |
| C156 | `Verif/Layers/HeapLib.lean` (library: sequences of allocations, writes, copies and frees on families of pointers) and `Verif/Layers/BnLife.lean`: `batch_normalization`, `copy_bn`, `paste_bn`, `reset_bn`, `reset_bn_except_partial_derivatives`, `make_the_bn_only_for_ff`, `free_the_bn_only_for_ff`, `free_batch_normalization` for every batch size and width. A matrix is a table block plus row blocks; the row pointers stored in the table are pointers of the layer. `epsilon` and `training_mode` are left out. Refuted: pasting on a narrower layer, freeing a complete layer with the function for stripped ones. |
| C157 | `Verif/Layers/ConvLife.lean` on `HeapLib` and `BnLife`: `convolutional`, `copy_cl`, `paste_cl`, `reset_cl`, `reset_cl_only_for_ff`, `reset_cl_for_edge_popup`, `make_the_cl_only_for_ff`, `free_convolutional` for every flag and size. Kernel matrices are a table block plus row blocks, group normalisations are families of blocks. Random draws, the ranking of the scores and the used kernels it gives are parameters; sizes computed from strides and paddings are given. `free_matrix` on a float array is undefined unless the pairs of floats it takes for pointers are zero and inside the array (pointers of eight bytes). Refuted: ranking of zeros, pasting groups of other width, `reset_cl_for_edge_popup` on an inference-only layer, `make_the_cl_only_for_ff` with score gradients. |
| C158 | `Verif/Layers/ModelLife.lean` on `FclLife` and `ConvLife`: `network` after its checks (the checks are C46), `copy_model`, `free_model`, `set_model_error`, `residual`, `copy_rl`, `free_residual`. A model is its lists of layers and a family of blocks (tables, rows of `sla`, error, weights). Any kind of object with a copy and a free (`Kind`) lifts to lists of them by induction, so the theorems hold for any number of layers. The contents of tables and of `sla` are not modelled; layers are copied before the tables are allocated. Refuted: copying with a layer that is only dropout, `set_model_error` with the model's own weights, without weights when the old loss had some. |
| C159 | `Verif/Layers/CompLife.lean` on `ModelLife`: `variational_auto_encoder_model`, `copy_vae_model`, `free_vae_model`, `dueling_categorical_dqn_init`, `copy_dueling_categorical_dqn`, `free_dueling_categorical_dqn`. The checks of the duelling constructor that compare models are a parameter that sees dimensions, rates and layer flags; a copy passes them because it has the same. Refuted: `free_vae_model` releases `z`; unbounded growth by induction on the number of copies. |
| C160 | `Verif/Layers/PasteLife.lean` on `CompLife`: `paste_rl`, `paste_model`, `paste_vae_model`, `paste_dueling_categorical_dqn`, with `paste_fcl` and `paste_cl` from C155 and C157. Layers are pasted in sequence; the frame of each paste and the disjointness of the parts carry the result of one through all others. Refuted: a target with fewer layers, the powers of the rates of Adam. |
| C161 | `Verif/Layers/ResetLife.lean` on `PasteLife`: `reset_model`, `reset_rl`, `reset_cl_without_learning_parameters` on the sum layer of a residual layer, `reset_vae_model`, `reset_dueling_categorical_dqn`, with `reset_fcl` and `reset_cl` from C155 and C157. Sorting of scores is a parameter. Fully connected layers that train scores are left out, since their reset replaces a block. Refuted: models stripped for inference. |
| C162 | `Verif/Layers/LstmLife.lean`: the life of an LSTM layer (construct, free, copy, paste, reset, strip) over the memory of `FclLife`, with the blocks of tables, rows, window and groups; uninitialised row pointers are a parameter of the constructor. Proved by the `HeapLib` lemmas; refuted: copies lose the first optimiser array of the group shifts, edge-popup in the forward pass only leaves row pointers unset, stripped layers cannot be reset or pasted on, smaller targets overflow, active outputs are never switched off. Not modelled: the sorting of the scores and the choice of the outputs named by the kept scores (parameters) |
| C163 | `Verif/Layers/RmodelLife.lean`: recurrent networks over the layers of `LstmLife`, with the object kinds of `ModelLife`, `PasteLife` and `ResetLife` and the sort and the check of numbers of `Net/Network.lean`. Proved by induction over the layers; refuted: the first moment of shifts is lost in copies, shorter targets of a paste are read out of bounds, rates are not pasted, a stripped network cannot be reset by `reset_rmodel`. Not modelled: the variants `_without_learning_parameters`. |
| C164 | `Aco/Firefly.lean`: the sort, the powers, their division by the sum, the roulette and the moves of `update_fa_nodes` for the candidates of one weight, with draws, `pow` and `exp` as parameters. Loop invariants over the list updates give the exact outcome of each candidate; the distance bound is over the reals. Refuted: that the dimmest candidates are those that move (the sort is the one of C02), and that pheromones of equal whole part are ranked. A zero sum of powers gives `NaN` shares, modelled as no move. |
| C165 | `Neat/GenomeLife.lean`: a heap of nodes and connections that point to each other; the three loops of `copy_genome`, the two of `free_genome` and `activate_bias`. The specification is a graph with a well-formedness predicate, a predicate that it lies in memory, and a renaming; invariants over each loop give the copy's graph and the frame. The pointer arrays of a node are part of its block. Refuted: `activate_bias` on a copy (the field is not copied, nor written anywhere else), freeing with too small a count. |
| C166 | `Aco/Whale.lean`: the sort, the shares, the roulette and the three kinds of move of `update_woa_nodes` for the candidates of one weight, in place and in order, with the draws, `pow`, `exp` and `cos` as parameters. The specification says by a relation where a candidate may end and by another what the roulette may choose; loop invariants. The distance bounds are over the reals. `best_global_params` is taken as non-NULL (C110 says when it is). |
| C167 | `Aco/Gravity.lean`: masses (C110), mean distances, forces, the velocity limit and both kinds of move of `update_gsa_nodes` and `update_psogsa_nodes` for the candidates of one weight; draws, `pow` and `exp` are parameters. Refuted: that the plain variant comes to rest at the last iteration (every value is scaled by `exp(pow(-1, omega))`), and that the swarm variant is led by the brightest candidate (it is led by the largest value). A NaN from `pow` of a negative base with a non-integral `omega` is outside the model. |
| C168 | `Layers/BnSteps.lean`: the two-step variants of batch normalisation, forward and backward, on the matrices of C33 and C34. Running the second step on the instances in any order, or its single cells in any interleaving, is compared with the function that does all at once: the final contents are a function of the set of cells (forward) or of a commutative sum (backward). Real arithmetic. |
| C169 | `Aco/Schedules.lean`: the functions that set gravity, firefly step, whale parameters and particle pulls from the iteration, over the reals, with bounds and monotonicity. Refuted: that the firefly step fades out, that the whale weight is not negative, that the own pull falls, and that `get_lambda_pso` returns a value in every iteration. |
| C170 | `RL/SearchLife.lean`: nodes, edges and tree of the search as typed blocks of a memory, with construction, expansion in `visit_node` along any choices, adding edges, and freeing. By induction over simulations the blocks of the tree are disjoint, live and the only difference to the memory before. Refuted: that edges added by the user belong to the tree, and that free cells are used before the array of a node grows. |
| C171 | `RL/RootNoise.lean`: `random_gamma` with its rejection loop, `dirichlet_sample` and the mixture of `visit_node` on a list of draws, in real arithmetic. Proved: the loop takes the first pair in the disc, a sample that exists adds up to one, the mixture keeps the sum. Refuted: the concentration cancels for every sequence of draws, variates are negative for half of the draws, the sample is (2, -1) for some draws, the weights are no probabilities, and the sample may not exist (sum zero, logarithm of zero). |
| C172 | `Layers/FactNoise.lean`: `factorised_gaussian` and `set_factorised_noise` on a stream of normal draws, in real arithmetic, by invariants of both loops. The specification is the signed root (`y * abs y = x`) and the product of a number for each input with one for each output. |
| C173 | `Math/Stats.lean`: `mean` and `std` in real arithmetic and `mat_mul` over any commutative ring, on arrays with bounds. Proved: the mean is within bounds and the least-squares point, `std` is the variance and does not move with the offset, the product (Mathlib's) is added to the third matrix, products of three agree. Refuted: `std` is not the deviation (no root is taken, it grows with the square of the scale), the result is the product only if the third matrix was zero. |
| C174 | `Neat/Adjust.lean`: `adjust_genome` on the memory of `Neat/GenomeLife.lean`, with `quick_sort_int` as modelled for C01. Proved with the theorem of C01: order of nodes and connections, nothing lost, and the canonical form of two listings of one genome. Local arrays are lists. |
| C175 | `Aco/NodeLife.lean`: `init_params`, `init_aco_node`, `add_aco_edge`, `free_aco_node` on a memory of live blocks; contents of arrays of numbers left out. Proved by an invariant over any sequence of added edges: lists and ends of edges, no leak and no double free if the node has no weights or no biases. Refuted: with both, the velocity of the weights is lost. |
| C176 | Genome files as lists of typed cells on top of `Neat/Bytes` (`Neat/GenomeFile`): round trip of both pairs of functions and for reachable populations; refuted for small counters, for files of the other kind and for every cut. |
| C177 | `RL/DdpgLife.lean`: `init_ddpg` with its checks and `free_ddpg` on the memory of `Aco/NodeLife.lean`, a network being one block; what is made and freed for every batch and number of frames; refuted: the arrays of outputs are lost, and residual last layers behind unused rows are accepted. |
| C178 | `Aco/AntSystem.lean`: the pheromone update without bounds along the trails of all ants and over all edges, in any commutative ring; what each edge has afterwards, by an invariant that counts a flagged edge as evaporated; independence of the order of the ants; the total. |
| C179 | `Transf/TransfLife.lean`: `transf`, `copy_transf`, `free_transf` on the memory of `Aco/NodeLife.lean`, an encoder or decoder being one block; copies, and freeing in both orders; refuted for transformers without decoders or without a matrix. |
| C180 | `Transf/TransfUpdate.lean`: which parts `update_transformer` updates, in which order and with which powers of the betas, over any field, and training by repeated updates; refuted for Adam, whose powers are divided at every encoder. |
| C181 | `Transf/LayerLife.lean`: constructors, copies and `free` functions of encoders and decoders with all their blocks in the memory of `Aco/NodeLife.lean`, networks as blocks with contents; by the blocks each step adds and a permutation of what is freed. |
| C182 | `Train/SumLstm.lean`: the list of additions of the sum of the gradients of recurrent models, shown free of repetitions, and what its loop over a batch leaves in every gradient; refuted for frozen biases. |

Where the code does not satisfy the natural property, the theorem named
`..._refuted` gives a concrete counterexample in the model, and a theorem
named `..._partial` proves what does hold.

## Theorems over whole histories

Some properties were first stated for one call and are now also stated for
any number of calls: C42 (closed form of every parameter after any number of
training rounds, for each optimiser), C47 (any history of mutations), C10-C12
(any history of insertions), C39/C40 (any interleaving of the threads).

## What is modelled

| source file | modelled in | part |
|-------------|-------------|------|
| `utils.c` | `Sort/*`, `Utils/*`, `Replay/CumTree`, `Replay/Heap`, `Layers/Scores`, `Save/Cells` | sorting, shuffles, argmax, confusion matrix, files claim, heaps, samplers, byte order |
| `math_functions.c` | `Math/*`, `RL/Quantile` | activations, losses, clipping, soft-max, sampling, vector primitives, total variation |
| `dictionary.c` | `Utils/Dictionary` | all |
| `learning_rate_decay.c` | `Math/Schedule` | all |
| `fully_connected.c`, `convolutional.c`, `attention.c`, `normalization.c`, `recurrent.c` | `Layers/*` | forward and backward loops named in each module |
| `gd.c`, `update.c`, `regularization.c`, `clipping_gradient.c`, `training.c` | `Train/*` | optimisers, update functions, L2, clipping, adaptive clipping |
| `multi_core_model.c` | `Train/MultiCore`, `Train/SumTree` | batch loops and the reduction |
| `*_layers.c`, `residual_layers.c`, `scaled_l2_norm_layers.c`, `batch_norm_layers.c` | `Net/Flat`, `Save/*`, `Train/SlowPaste` | parameter vectors, save/load, slow paste |
| `model.c`, `rmodel.c` | `Net/*`, `Save/*`, `Layers/BPTT*`, `Layers/LSTM*` | construction checks, parameter vectors, save/load, LSTM forward/backward |
| `mutations.c`, `neat_utils.c`, `speciation.c` | `Neat/*` | registry, mutations, crossover, species, distance, byte arrays |
| `neat.c`, `fitness.c` | `Neat/Generation*` | `init` after the genomes are made, one generation, setters; files and printing only as a list of saved genomes |
| `normalization.c` (local response), `model.c` (fully connected) | `Layers/LRN`, `Net/Chain*`, `Net/NormFc` | forward, backward, whole-network gradient |
| `rainbow.c`, `multi_core_dueling_categorical_dqn.c` | `Replay/*`, `RL/RainbowTrain` | ring buffer, priorities, reward classes, n-step returns, the training passage; not the choice of actions, the sampling of the recorded states, construction and saving |
| `multi_core_rmodel.c` | `Train/MultiCoreR` | the four drivers |
| `parser.c` | `Parse/Text`, `Parse/Csv`, `Parse/ModelFile`, `Parse/DqnFile` | every parser; `atof`, reading the file and building the layers from the parsed numbers are parameters |
| `training.c` | `Save/Training` | `get_training` (a constructor), `save_training`, `standard_save_training`; `save_model`/`save_rmodel` are parameters (C07), numbers are blocks of four bytes |
| `dueling_categorical_dqn.c` | `RL/Categorical`, `RL/Dueling`, `RL/Quantile` | heads, projection, losses, bootstrap action |
| `drl.c`, `noise.c`, `mcts.c` | `RL/*` | see the modules |
| `struct_conn_handler.c` | `Graph/Cycles` | the depth-first check |
| `aco_init.c`, `aco_building.c`, `aco_iterate.c`, `aco_process.c` | `Aco/*` | graph, walks, networks, pheromones, particle swarm step, gravitational masses; not the whale and firefly moves, the gravitational move itself, the unused `aco_build_layer_param_nodes` and `aco_tracker_build_model` variants |
| `vae_model.c`, `multi_core_neat.c` | `Net/Vae`, `Neat/Threads` | forward, backward, free of the auto-encoder; parallel evaluation of genomes |
| `initialization.c`, `positional_encoding.c` | `Misc/Random` | all |
| `feedforward.c` | `Neat/FeedForward` | all; the shared buffers of paths are lists |
| `transformer_encoder.c` | `Transf/Encoder*`, `Save/Transf` | save and load, construction, both passes, two resets, two copies; the networks inside are abstract (function, backward pass, what is left in the error array); not paste, the `_opt` passes; the passes with two inputs are in `Transf/Cross*` |
| `transformer_decoder.c` | `Transf/Decoder`, `DecoderProps`, `Save/Transf` | construction, both passes, save and load; not the other functions |
| `transformer.c` | `Transf/Stack`, `StackBack`, `StackEnc`, `Save/Transf` | save and load, forward pass, shared forward pass, backward pass; the layers are abstract there, the encoders are put in for stacks without decoders, and encoders and decoders for the forward pass |
| `struct_conn.c` | `Net/Wiring` | building, freeing, input arrays, forward pass, backward pass without the recurrent and temporal branches; not `_opt`, reset, paste |
| `policy_gradient.c`, `iq.c` | `RL/PolicyTrain`, `RL/IqTrain` | the passage, `get_policies`, the training loops; the passes of the network, clipping and `update_model` are parameters; not the checks of flags, saving, the reading of `int` counters through `unsigned long long*` |
| `model.c` errors 9217-9305, `math_functions.c` 431-458 | `RL/PolicyError` | all, over the reals |

## What is not modelled

* Floating-point rounding, NaN, overflow of `float`; `int` overflow.
* Allocation and freeing: leaks, double frees and failed allocations.
* GPU or SIMD paths; printing; the command line.
* the rest of `transformer_decoder.c` and `transformer.c`, `efficientzero*.c`,
  unless a row above names them.

## Axioms

`AXIOMS.md` lists, for every theorem in `MANIFEST.json`, the axioms reported by
`#print axioms`. They are all among `propext`, `Classical.choice` and
`Quot.sound`.
