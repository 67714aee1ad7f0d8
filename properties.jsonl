{"id": "C01", "title": "quick_sort sorts the index array without touching anything else", "statement": "After quick_sort(A,I,lo,hi) (and quick_sort_int) the slice I[lo..hi] is a rearrangement of what it was, reading A through it gives a non-decreasing sequence, every entry of I outside the slice is unchanged, and no read or write leaves the arrays, provided every entry of I in the slice is a valid position of A.", "quantifier": "every value array over a total order, every index array, every 0<=lo and hi inside the array (including empty and one-element slices)", "why_tests_cant": "the number of orderings and duplicate patterns grows with n!, and the in-place Hoare partition can go out of bounds only on particular pivots", "anchors": ["src/utils.c: quick_sort, quick_sort_int"]}
{"id": "C02", "title": "sort() orders the scores it is given", "statement": "After sort(values,indices,lo,hi) (the merge sort used by the edge-popup layers and by the genome culling) the index array is a permutation of the old one and lists the values in non-decreasing order.", "quantifier": "every value array and every starting index permutation", "why_tests_cant": "a wrong sort can be right on short or already integral arrays; only a proof over all arrays tells which part of the claim holds", "anchors": ["src/utils.c: merge_sort, merge, sort, merge_sort_double, merge_double, sort_double"]}
{"id": "C03", "title": "shuffling permutes the data set and keeps each sample with its label", "statement": "A shuffle call applied to several parallel arrays reorders all of them by one and the same permutation, so no sample is lost or duplicated and each sample keeps its label, whatever the random numbers are, and never accesses the arrays out of bounds.", "quantifier": "every array length, every contents and every sequence of rand() results in 0..RAND_MAX", "why_tests_cant": "the behaviour depends on the random stream; a test sees a few streams, and a lost element shows up only as a wrong statistic", "anchors": ["src/utils.c: shuffle_char_matrix, shuffle_float_matrix, shuffle_int_array, shuffle_int_matrix, shuffle_float_matrix_float_tensor, shuffle_char_matrices_float_int_vectors, shuffle_float_matrices_float_int_vectors, shuffle_char_matrices_float_int_int_vectors, shuffle_float_matrices_float_int_int_vectors"]}
{"id": "C04", "title": "every ordering can come out of the shuffle", "statement": "For every n with n*n at most RAND_MAX and every permutation of n items there is a random stream on which the shuffle produces exactly that permutation.", "quantifier": "every length and every target permutation", "why_tests_cant": "reachability of all n! outcomes cannot be sampled", "anchors": ["src/utils.c: shuffle_int_array, shuffle_float_matrix"]}
{"id": "C05", "title": "numbers used as file names are rendered faithfully", "statement": "itoa_n writes the canonical decimal form of its argument: reading the text back gives the number, and two different numbers never share a name; the only excluded argument is INT_MIN, where the function overflows.", "quantifier": "every C int except INT_MIN", "why_tests_cant": "2^32 arguments times the digit-count boundaries; a collision silently overwrites another model's file", "anchors": ["src/utils.c: itoa_n, get_files"]}
{"id": "C06", "title": "argmax returns the first position of the largest entry", "statement": "argmax(v,n) returns -1 exactly when n<=0 (or v is NULL); otherwise the returned position is in range, its entry is >= every entry and > every earlier entry.", "quantifier": "every vector over a total order", "why_tests_cant": "all tie patterns for all lengths", "anchors": ["src/utils.c: argmax"]}
{"id": "C07", "title": "confusion matrix and metrics count correctly", "statement": "Feeding any sequence of (prediction,label) vectors to confusion_matrix adds, for every output position, exactly one to the one of its four cells given by the actual and predicted class, so the four cells of a position total the number of calls; accuracy, precision, sensitivity and specificity derived from any counts are percentages between 0 and 100.", "quantifier": "every class count, every sequence of prediction and label vectors", "why_tests_cant": "the claim is about all histories of calls", "anchors": ["src/utils.c: confusion_matrix, accuracy, precision, sensitivity, specificity, accuracy_array, precision_array, sensitivity_array, specificity_array"]}
{"id": "C08", "title": "the array dictionary answers membership of everything inserted before", "statement": "check_int_array(root,a,n) answers 1 exactly when a is empty or a prefix of an array passed in an earlier call of the same history (so, for histories of arrays of one length, exactly when a itself was passed), otherwise it answers 0 and remembers a.", "quantifier": "every history of insertions of arrays of every length", "why_tests_cant": "the trie's shape depends on the whole history of calls", "anchors": ["src/dictionary.c: check_int_array"]}
{"id": "C09", "title": "workers claim disjoint training files and release them again", "statement": "Over any sequence of claim and release calls on the shared list file, a claimed file is not handed out again before it is released, exactly the claimed file changes state, and releasing restores the line.", "quantifier": "every list file made of non-empty newline-terminated names, every interleaving of whole claim/release calls", "why_tests_cant": "the property concerns all histories of calls and all file contents", "anchors": ["src/utils.c: read_files_from_file, set_files_free_from_file, remove_occupied_sets"]}
{"id": "C10", "title": "the replay buffer holds exactly the most recent experiences", "statement": "After any number of add_experience calls the buffer contains the last min(k,capacity) experiences, each intact (state, action, reward, next state and terminal flag of the same step), and the fill counter never exceeds the capacity.", "quantifier": "every capacity >= 1 and every sequence of experiences", "why_tests_cant": "wrap-around behaviour over unbounded histories", "anchors": ["src/rainbow.c: add_experience, init_rainbow"]}
{"id": "C11", "title": "the priority heap stays a heap and its two index maps stay inverse", "statement": "Under any history of buffer insertions and priority updates the ranked array is a max-heap ordered by priority, and the position map and its inverse describe the same bijection between buffer slots and heap positions, with no out-of-bounds access.", "quantifier": "every capacity and every history of insert and update operations with arbitrary priorities", "why_tests_cant": "heap violations appear only after particular long histories", "anchors": ["src/utils.c: max_heapify, max_heapify_up, remove_ith_element_from_max_heap; src/rainbow.c: add_buffer_state, update_buffer_state"]}
{"id": "C12", "title": "the cumulative tree holds the exact subtree sums", "statement": "After any history of priority updates every node's cumulative value equals the sum of the priorities stored strictly below it, so the root plus its own priority is the total priority mass.", "quantifier": "every tree size and every history of value changes", "why_tests_cant": "drift accumulates over unbounded histories", "anchors": ["src/utils.c: update_recursive_cumulative_heap_up; src/rainbow.c: add_buffer_state, update_buffer_state"]}
{"id": "C13", "title": "priority sampling always returns a usable index", "statement": "weighted_random_sample returns a position inside the buffer for every random draw, and weighted_random_sample_rewards does too.", "quantifier": "every buffer size, every non-negative priorities, every random draw, every set of already chosen positions", "why_tests_cant": "the failing draws have small probability", "anchors": ["src/utils.c: weighted_random_sample, weighted_random_sample_rewards, subtracted_value, subtracted_value_rewards, value_is_child, index_is_inside_buffer"]}
{"id": "C14", "title": "exploration probability stays in its configured range and only decreases", "statement": "Whatever the number of steps, the exploration probability never falls below its configured minimum, and never grows, given a start at or above the minimum and non-negative decay.", "quantifier": "every number of training steps and every admissible parameter choice", "why_tests_cant": "unbounded number of steps", "anchors": ["src/rainbow.c: update_exploration_probability"]}
{"id": "C15", "title": "the learning-rate schedule respects its period and its limits", "statement": "update_lr changes the learning rate only at epochs that are multiples of the configured period and never leaves the interval [minimum, maximum]; epoch 0 is accepted.", "quantifier": "every epoch, every threshold and every decay flag", "why_tests_cant": "all epochs and thresholds; boundary epochs are easily missed", "anchors": ["src/learning_rate_decay.c: update_lr, constant_decay, time_based_decay, step_decay, cosine_annealing"]}
{"id": "C16", "title": "categorical projection conserves probability mass and mean", "statement": "Projecting the shifted target distribution on the fixed support of a categorical DQN writes only inside the support array, produces non-negative weights summing to the mass of the source distribution, and the projected mean equals the mean of the clipped targets; for a terminal state the result is the point mass at the clipped reward.", "quantifier": "every number of atoms >= 2, every support interval, reward, discount and source distribution", "why_tests_cant": "real-valued parameters and boundary coincidences (targets exactly on an atom)", "anchors": ["src/dueling_categorical_dqn.c: get_loss_for_dueling_categorical_dqn; src/math_functions.c: clip_vector"]}
{"id": "C17", "title": "the dueling head is insensitive to a constant added to all advantages", "statement": "The action distributions computed by the dueling head are probability distributions, and adding the same atom-wise offset to every action's advantage does not change them.", "quantifier": "every network output, number of actions and number of atoms", "why_tests_cant": "all real inputs", "anchors": ["src/dueling_categorical_dqn.c: compute_probability_distribution"]}
{"id": "C18", "title": "softmax returns a probability vector", "statement": "For every non-empty input softmax writes strictly positive entries that sum to one, is invariant under adding a constant to the input, and does so for every finite input, without overflow.", "quantifier": "every vector of every length", "why_tests_cant": "all real vectors", "anchors": ["src/math_functions.c: softmax"]}
{"id": "C19", "title": "back-propagation through softmax is the transposed Jacobian", "statement": "derivative_softmax applied to the softmax output and an upstream error gives, in each coordinate, the partial derivative of the error-weighted softmax with respect to that input.", "quantifier": "every input vector and every upstream error", "why_tests_cant": "a derivative is a limit statement over all reals", "anchors": ["src/math_functions.c: derivative_softmax, softmax, derivative_softmax_array"]}
{"id": "C20", "title": "activation derivatives are the derivatives of the activations", "statement": "For sigmoid, tanh, relu, leaky relu and elu the library's derivative function equals the mathematical derivative of its forward function wherever the latter exists.", "quantifier": "every real input (and for the kinked ones every input except the kink)", "why_tests_cant": "a derivative is a limit statement over all reals", "anchors": ["src/math_functions.c: sigmoid, derivative_sigmoid, tanhh, derivative_tanhh, relu, derivative_relu, leaky_relu, derivative_leaky_relu, elu, derivative_elu"]}
{"id": "C21", "title": "loss derivatives are the derivatives of the losses", "statement": "For mean squared error, cross entropy, reduced cross entropy, KL divergence, entropy, focal, huber, modified huber and contrastive losses the library's derivative equals the mathematical derivative of its loss with respect to the prediction, wherever the loss is differentiable.", "quantifier": "every prediction and label in the loss's domain", "why_tests_cant": "a sign or factor error is invisible unless compared with the limit at every point", "anchors": ["src/math_functions.c: mse, derivative_mse, cross_entropy, derivative_cross_entropy, cross_entropy_reduced, huber_loss, derivative_huber_loss, modified_huber_loss, derivative_modified_huber_loss, kl_divergence, derivative_kl_divergence, entropy, derivative_entropy, focal_loss, derivative_focal_loss"]}
{"id": "C22", "title": "clipping puts every entry in the interval and changes nothing inside it", "statement": "clip_vector leaves entries inside [min,max] unchanged, moves the others to the nearer end and is idempotent; copy_clipped_vector writes the same result to a second array and leaves its source unchanged.", "quantifier": "every vector and every min<=max", "why_tests_cant": "all real vectors", "anchors": ["src/math_functions.c: clip_vector, copy_clipped_vector"]}
{"id": "C23", "title": "a fully connected layer computes the affine map W x + b", "statement": "fully_connected_feed_forward adds to each output exactly the bias and the dot product of its weight row with the input, and never reads or writes outside the arrays.", "quantifier": "every layer size, weights, biases and inputs", "why_tests_cant": "all sizes", "anchors": ["src/fully_connected.c: fully_connected_feed_forward"]}
{"id": "C24", "title": "fully connected back-propagation accumulates the exact gradient", "statement": "For any upstream error the weight, bias and input errors added by fully_connected_back_prop are the partial derivatives of the error-weighted layer output, and calling it for a sequence of samples accumulates the sum of the per-sample gradients.", "quantifier": "every layer size, every sample sequence", "why_tests_cant": "all sizes and histories", "anchors": ["src/fully_connected.c: fully_connected_back_prop"]}
{"id": "C25", "title": "edge-popup layers behave like the dense layer restricted to the selected weights", "statement": "The edge-popup forward pass equals the dense bias-free forward pass with every non-selected weight set to zero, and zeroing the unused weights of a layer leaves its edge-popup output unchanged.", "quantifier": "every layer size, every score permutation, every kept fraction", "why_tests_cant": "the off-by-one between 'selected' and 'zeroed' appears only for fractional counts", "anchors": ["src/fully_connected.c: fully_connected_feed_forward_edge_popup, fully_connected_back_prop_edge_popup; src/fully_connected_layers.c: set_fully_connected_unused_weights_to_zero, get_used_outputs"]}
{"id": "C26", "title": "convolution computes the strided cross-correlation inside its padded frame", "statement": "convolutional_feed_forward adds to each interior output cell the kernel/input correlation at the strided position plus the bias, leaves the padding frame untouched, and stays in bounds when the sizes satisfy the documented relation.", "quantifier": "every channel count, kernel size, stride, padding and input", "why_tests_cant": "all geometries", "anchors": ["src/convolutional.c: convolutional_feed_forward"]}
{"id": "C27", "title": "convolution back-propagation is the adjoint of the forward pass", "statement": "The input, kernel and bias errors accumulated by convolutional_back_prop are the partial derivatives of the error-weighted convolution output.", "quantifier": "every geometry, kernel, input and upstream error", "why_tests_cant": "all geometries", "anchors": ["src/convolutional.c: convolutional_back_prop"]}
{"id": "C28", "title": "transposed convolution is the adjoint of convolution", "statement": "For a single channel the unpadded transposed convolution with a kernel is the transpose of the convolution with the same kernel and stride: pairing outputs with any vector gives the same number either way.", "quantifier": "every geometry, kernel and pair of tensors", "why_tests_cant": "all geometries", "anchors": ["src/convolutional.c: transposed_convolutional_feed_forward, convolutional_feed_forward"]}
{"id": "C29", "title": "max pooling returns the maximum of each window", "statement": "Every interior output cell of max_pooling_feed_forward is an element of its window and at least as large as all of them.", "quantifier": "every geometry and every input", "why_tests_cant": "all geometries and the sentinel used as starting maximum", "anchors": ["src/convolutional.c: max_pooling_feed_forward"]}
{"id": "C30", "title": "pooling back-propagation conserves the error", "statement": "The error written by max (average) pooling back-propagation is the gradient of the pooling output: in particular it sums to the sum of the upstream error.", "quantifier": "every geometry including overlapping windows", "why_tests_cant": "overlap of windows is a corner of the parameter space", "anchors": ["src/convolutional.c: max_pooling_back_prop, avarage_pooling_feed_forward, avarage_pooling_back_prop"]}
{"id": "C31", "title": "masked attention is causal", "statement": "With masked attention the output for token i does not depend on keys or values of tokens after i, and with both kinds of attention every output is a convex combination of the values it may see.", "quantifier": "every number of tokens, embedding sizes and tensors", "why_tests_cant": "independence from future tokens is a statement about all pairs of inputs", "anchors": ["src/attention.c: self_attention_ff; src/math_functions.c: softmax, dotProduct1D"]}
{"id": "C32", "title": "the multi-head merge is the head/token transposition, for every embedding sizes", "statement": "multi_head_attention_ff lays the heads' results out token by token (token i, head h, component c at position i*heads*v + h*v + c) without losing or duplicating a value, and the backward pass undoes it.", "quantifier": "every number of heads and tokens, every key and value embedding size", "why_tests_cant": "the layout bug needs key size different from value size", "anchors": ["src/attention.c: multi_head_attention_ff, multi_head_attention_bp"]}
{"id": "C33", "title": "batch normalisation standardises every coordinate", "statement": "batch_normalization_feed_forward produces, before scale and shift, columns with mean zero and variance var/(var+eps), and output gamma*x_hat+beta, for every batch.", "quantifier": "every batch size >= 1, vector size and data", "why_tests_cant": "all real batches", "anchors": ["src/normalization.c: batch_normalization_feed_forward"]}
{"id": "C34", "title": "batch normalisation back-propagation is the gradient", "statement": "The input error of batch_normalization_back_prop is the derivative of the error-weighted normalised output.", "quantifier": "every batch", "why_tests_cant": "a limit statement over all reals", "anchors": ["src/normalization.c: batch_normalization_back_prop"]}
{"id": "C35", "title": "scaled L2 normalisation has output norm |g| and exact gradients", "statement": "feed_forward_scaled_l2_norm returns a vector of Euclidean norm |g| in the direction of its input for every non-zero input, and back_propagation_scaled_l2_norm accumulates the exact partial derivatives in g and in every input coordinate.", "quantifier": "every dimension, every non-zero input, every upstream error", "why_tests_cant": "a limit statement over all reals", "anchors": ["src/normalization.c: feed_forward_scaled_l2_norm, back_propagation_scaled_l2_norm"]}
{"id": "C36", "title": "LSTM states stay bounded", "statement": "Whatever weights and inputs, each hidden-state component lies strictly between -1 and 1 and after t steps from a zero state each cell component is at most t in absolute value.", "quantifier": "every weights, input sequence and sequence length", "why_tests_cant": "unbounded sequences", "anchors": ["src/recurrent.c: lstm_ff; src/math_functions.c: sigmoid, tanhh"]}
{"id": "C37", "title": "gradient clipping bounds the norm and keeps the direction", "statement": "After clipping_gradient(m,threshold) the global norm of the model's gradient is at most the threshold, the gradient is a non-negative multiple of the original, and it is unchanged when the norm was already below the threshold; the combined variant over several networks does the same for all of them.", "quantifier": "every layer structure and every gradient", "why_tests_cant": "the failing case needs a mix of network kinds and a small gradient", "anchors": ["src/clipping_gradient.c: clipping_gradient, general_clipping_gradient, clip_fcls, clip_cls, clip_rls"]}
{"id": "C38", "title": "adaptive gradient clipping bounds the gradient relative to the weights", "statement": "After adaptive_gradient_clipping_fcl each unit's gradient norm is at most threshold times max(weight norm, epsilon) and gradients already within that bound are unchanged.", "quantifier": "every weights, gradients and thresholds", "why_tests_cant": "real-valued; the direction of the test decides", "anchors": ["src/clipping_gradient.c: adaptive_gradient_clipping_fcl, adaptive_gradient_clipping_lstm"]}
{"id": "C39", "title": "parallel gradient reduction equals the sequential sum", "statement": "sum_models_partial_derivatives_multithread adds to the target exactly the sum of all per-sample gradients, for every batch size and every interleaving of the worker threads.", "quantifier": "every batch size, every recursion depth, every thread schedule", "why_tests_cant": "schedules cannot be enumerated by tests", "anchors": ["src/multi_core_model.c: sum_models_partial_derivatives_multithread; src/math_functions.c: sum_model_partial_derivatives"]}
{"id": "C40", "title": "multi-core batch processing handles each sample exactly once", "statement": "The multi-core forward/backward drivers run every sample index below the batch size exactly once, on its own model copy, for every number of threads >= 1.", "quantifier": "every batch size and thread count", "why_tests_cant": "remainders of the division of batch size by threads", "anchors": ["src/multi_core_model.c: model_tensor_input_ff_multicore, model_tensor_input_bp_multicore, ff_error_bp_model_multicore, model_tensor_input_ff_multicore_only_for_ff_loss_reset_opt"]}
{"id": "C41", "title": "optimiser moments are exponential averages and steps are bounded", "statement": "Over any gradient history Adam's moments are the exponentially weighted sums of gradients and squared gradients, the second moment is never negative, the bias-corrected first moment of a constant gradient equals that gradient, and nesterov_momentum with zero momentum is plain gradient descent.", "quantifier": "every gradient sequence of every length", "why_tests_cant": "unbounded histories", "anchors": ["src/gd.c: adam_algorithm, nesterov_momentum, adamod, adam_diff_grad_algorithm, radam_algorithm; src/update.c: update_training_parameters"]}
{"id": "C42", "title": "one optimiser step touches each trainable parameter exactly once and no frozen one", "statement": "update_model moves every trainable parameter by exactly one optimiser step and leaves the parameters of frozen layers (and biases in freeze-biases mode) unchanged.", "quantifier": "every model structure and training mode", "why_tests_cant": "all layer mixes", "anchors": ["src/update.c: update_model, update_fully_connected_layer_nesterov, update_convolutional_layer_nesterov, update_residual_layer_nesterov, update_batch_normalized_layer_nesterov"]}
{"id": "C43", "title": "soft target updates are convex combinations", "statement": "After k soft updates with rate tau each target parameter equals (1-tau)^k times its old value plus (1-(1-tau)^k) times the source value; with tau in [0,1] it stays between the two.", "quantifier": "every number of updates, every parameter vector", "why_tests_cant": "unbounded number of updates", "anchors": ["src/fully_connected_layers.c: slow_paste_fcl; src/scaled_l2_norm_layers.c: slow_paste_scaled_l2_norm"]}
{"id": "C44", "title": "parameter vectors round-trip", "statement": "Copying a model's parameters to a flat vector and back restores every weight, bias and normalisation parameter, the vector has exactly the advertised length, and every flat position is written exactly once.", "quantifier": "every model structure (noisy or not, normalised or not)", "why_tests_cant": "all layer mixes and sizes", "anchors": ["src/fully_connected_layers.c: memcopy_params_to_vector, memcopy_vector_to_params, get_array_size_params; src/model.c: memcopy_params_to_vector_model, memcopy_vector_to_params_model, get_array_size_params_model"]}
{"id": "C45", "title": "saving and loading a layer gives the layer back", "statement": "Loading a file written by the save function returns a layer with the same configuration and parameters, and saving twice under the same number and loading returns the later layer.", "quantifier": "every layer configuration, every previous file content", "why_tests_cant": "all configurations and all prior file states", "anchors": ["src/fully_connected_layers.c: save_fcl, load_fcl; src/vector.c: save_vector, load_vector; src/scaled_l2_norm_layers.c: save_scaled_l2_norm, load_scaled_l2_norm"]}
{"id": "C46", "title": "network construction accepts exactly the well-formed layer lists", "statement": "network() succeeds exactly when every position below the layer count is taken by exactly one layer, and it then stores each kind of layer in increasing position order.", "quantifier": "every list of layer positions", "why_tests_cant": "all layer lists", "anchors": ["src/model.c: network"]}
{"id": "C47", "title": "innovation numbers identify structure across the whole population", "statement": "Under any history of structural mutations, re-activations, removals, copies and crossovers over a population sharing one registry, equal innovation numbers always mean the same pair of node numbers, different pairs get different numbers, every genome's connections are distinct, point to nodes of that genome and never enter an input node.", "quantifier": "every population, every history of operations, every random choice", "why_tests_cant": "unbounded histories of random operations", "anchors": ["src/mutations.c: add_random_connection, split_random_connection, remove_random_connection, activate_connections, crossover; src/neat_utils.c: copy_genome, init_genome, init_global_params"]}
{"id": "C48", "title": "crossover inherits the union of the parents' genes", "statement": "The child of crossover(g,g2) has exactly the connections and nodes occurring in a parent; each child connection's weight and activation come from one of the parents having it, and neither parent is modified.", "quantifier": "every pair of genomes over one registry, every random stream", "why_tests_cant": "all genome pairs", "anchors": ["src/mutations.c: crossover"]}
{"id": "C49", "title": "speciation partitions the population", "statement": "put_genome_in_species places every genome in exactly one species, the first whose representative is closer than the threshold, opening a new species when there is none; deleting empty species loses no genome.", "quantifier": "every population and every distance function", "why_tests_cant": "all populations and histories", "anchors": ["src/speciation.c: create_species, put_genome_in_species, delete_species_without_population"]}
{"id": "C50", "title": "compatibility distance is symmetric and separates different genomes", "statement": "compute_species_distance(a,b) equals compute_species_distance(b,a), is zero for identical genomes and counts every non-matching gene.", "quantifier": "every pair of genomes", "why_tests_cant": "all gene sets", "anchors": ["src/speciation.c: compute_species_distance"]}
{"id": "C51", "title": "the connection-graph check accepts exactly the acyclic graphs", "statement": "there_are_no_cycles returns 1 exactly when the graph of connected structures reachable from the argument has no directed cycle.", "quantifier": "every finite graph", "why_tests_cant": "all graphs", "anchors": ["src/struct_conn_handler.c: there_are_no_cycles"]}
{"id": "C52", "title": "the critic target bootstraps from the target network", "statement": "In ddpg_train the regression target for sample i is reward + lambda*(1-terminal)*Q_target(next state, target action).", "quantifier": "every batch and networks", "why_tests_cant": "numerical: the missing term looks like slow learning", "anchors": ["src/drl.c: ddpg_train; src/fully_connected_layers.c: reset_fcl"]}
{"id": "C53", "title": "exploration noise respects the action bounds", "statement": "Every action returned by the noise strategy lies in [low,high] whatever the history of noise states and random draws.", "quantifier": "every history of calls, every draw", "why_tests_cant": "unbounded histories", "anchors": ["src/noise.c"]}
{"id": "C54", "title": "genomes round-trip through the byte array", "statement": "init_genome_from_array applied to the array produced by get_genome_array rebuilds a genome with the same nodes and connections, and the array has the advertised size.", "quantifier": "every well-formed genome", "why_tests_cant": "all genomes", "anchors": ["src/neat_utils.c: get_genome_array, get_genome_array_size, init_genome_from_array"]}
{"id": "C55", "title": "byte order conversion is an involution that reverses each element", "statement": "On a big-endian machine convert_data reverses the bytes of each array element in place and applying it twice restores the array; on a little-endian machine it does nothing.", "quantifier": "every element size and count", "why_tests_cant": "all arrays, on a machine the tests do not run on", "anchors": ["src/utils.c: is_little_endian, reverse_ptr, swap_array_bytes_order, convert_data"]}
{"id": "C56", "title": "score comparison keeps the better score", "statement": "compare_score_fcl (and its vector variant) writes, at each position, the larger of the two valid scores.", "quantifier": "every pair of score vectors", "why_tests_cant": "the guard error only shows as a silently skipped update", "anchors": ["src/fully_connected_layers.c: compare_score_fcl, compare_score_fcl_with_vector"]}
{"id": "C57", "title": "search probabilities and selection are well defined", "statement": "get_mcts_probability returns non-negative numbers summing to one for every node with a visited child and leaves the search statistics unchanged; root selection always chooses an existing edge.", "quantifier": "every tree state and random draw", "why_tests_cant": "all statistics and draws", "anchors": ["src/mcts.c: get_mcts_probability, visit_node"]}
{"id": "C58", "title": "priorities are written back to the sampled experiences", "statement": "After a training step with ranked sampling, the priority of each sampled experience is the absolute value of its new error, and no other priority changes.", "quantifier": "every buffer state and every batch of heap positions", "why_tests_cant": "depends on how each single update permutes the heap before the next one", "anchors": ["src/rainbow.c: train_rainbow, update_buffer_state"]}
{"id": "C59", "title": "prioritised sampling without replacement is proportional", "statement": "With exact cumulative sums, each draw of the weighted samplers returns a position that was not chosen before, and returns position k exactly when the draw lies in an interval of length weight(k)/remaining weight; the intervals are disjoint.", "quantifier": "every tree size, every weights, every set of already chosen positions, every draw", "why_tests_cant": "a statement about all draws and all trees", "anchors": ["src/utils.c: weighted_random_sample; src/rainbow.c: weighted_random_sample_rewards, subtracted_value, subtracted_value_rewards"]}
{"id": "C60", "title": "reward classes describe the stored experiences", "statement": "With reward sampling, after any history of insertions and uses, the positive, negative and neutral counters, subtree sums, totals and member counts are exactly those of the stored experiences.", "quantifier": "every history of insertions and uses, every capacity", "why_tests_cant": "histories with many overwritten slots", "anchors": ["src/rainbow.c: add_buffer_state_reward_sampling, update_buffer_state_reward_sampling, train_rainbow"]}
{"id": "C61", "title": "n-step returns never cross the end of the history", "statement": "For every stored experience the n-step return is the discounted sum of at most n consecutive rewards, ending at the first terminal experience or the newest one, and the successor state belongs to the last one summed.", "quantifier": "every history, every stored slot, every n and discount", "why_tests_cant": "the ring index arithmetic has to be right for every wrap position", "anchors": ["src/rainbow.c: train_rainbow"]}
{"id": "C62", "title": "temperature sampling returns an existing action with its softmax probability", "statement": "sample_softmax_with_temperature returns a position of the vector for every draw, and returns position k on a set of draws of measure equal to the k-th softmax weight at that temperature.", "quantifier": "every vector length, every vector, temperature and draw", "why_tests_cant": "a statement about all draws", "anchors": ["src/math_functions.c: sample_softmax_with_temperature"]}
{"id": "C63", "title": "total variation loss and its gradient agree", "statement": "The total variation loss is the sum, over the image, of the absolute differences between neighbouring pixels, and its derivative function returns the partial derivatives of that loss.", "quantifier": "every image size and every image", "why_tests_cant": "all image sizes and borders", "anchors": ["src/math_functions.c: total_variation_loss_2d, derivative_total_variation_loss_2d"]}
{"id": "C64", "title": "vector primitives compute their mathematical definition", "statement": "The elementwise sums, products, divisions, copies and scalings, the dot product, matrix product and averages write exactly their mathematical value in each output cell, leave other cells alone and stay within the given lengths; the standard deviation is the square root of the variance.", "quantifier": "every length and all vectors", "why_tests_cant": "all lengths and index computations", "anchors": ["src/math_functions.c: dot1D, sum1D, sub1D, mul_value, div1D, mat_mul, compute_prob_average, std"]}
{"id": "C65", "title": "noisy layers compute and differentiate the perturbed affine map", "statement": "A noisy fully connected layer adds to its output the affine map with weights w + sigma*noise and biases perturbed the same way, and its backward pass adds to each error array (weights, biases, inputs and both noise scales) the partial derivative of the error-weighted output, accumulating over the samples of a batch, with or without biases.", "quantifier": "every layer size, parameters, noise, input, upstream error and prior contents of the error arrays", "why_tests_cant": "the wrong term is the prior contents of an accumulator, invisible on the first sample", "anchors": ["src/fully_connected.c: noisy_fully_connected_feed_forward, noisy_fully_connected_back_prop"]}
{"id": "C66", "title": "active outputs are exactly those with a used weight", "statement": "get_used_outputs marks an output neuron as active exactly when the edge-popup forward pass uses at least one of its incoming weights.", "quantifier": "every layer size, every score order and every kept fraction", "why_tests_cant": "the off-by-one appears only for fractional counts", "anchors": ["src/fully_connected_layers.c: get_used_outputs; src/fully_connected.c: fully_connected_feed_forward_edge_popup"]}
{"id": "C67", "title": "transposed convolution computes and differentiates the scatter sum", "statement": "transposed_convolutional_feed_forward puts in each output cell the bias plus the sum of the products of input cells and kernel cells that land on it (cropped by the padding), and transposed_convolutional_back_prop adds to the kernel, input and bias errors the partial derivatives of the error-weighted output.", "quantifier": "every geometry, stride, padding, tensors and prior contents of the error arrays", "why_tests_cant": "all index computations for all geometries", "anchors": ["src/convolutional.c: transposed_convolutional_feed_forward, transposed_convolutional_back_prop"]}
{"id": "C68", "title": "attention back-propagation is the gradient of attention", "statement": "self_attention_bp adds to the query, key and value errors the partial derivatives of the error-weighted output of self_attention_ff, for standard and masked attention.", "quantifier": "every number of tokens, embedding sizes, tensors and upstream error", "why_tests_cant": "a limit statement over all reals", "anchors": ["src/attention.c: self_attention_bp, self_attention_ff"]}
{"id": "C69", "title": "final batch-normalisation statistics cover the whole data set", "statement": "batch_normalization_final_mean_variance leaves in the layer the average over all mini-batches of the mini-batch means, and m/(m-1) times the average of the mini-batch variances, of every vector it is given.", "quantifier": "every number of vectors divisible by the mini-batch size, every shuffle and data", "why_tests_cant": "all data sets and shuffles", "anchors": ["src/normalization.c: batch_normalization_final_mean_variance; src/batch_norm_layers.c: reset_bn"]}
{"id": "C70", "title": "the LSTM forward pass computes the LSTM equations", "statement": "lstm_ff sets, for every unit, pre-activations W x + U h + b, cell state sigmoid(z_i)*tanh(z_c)+sigmoid(z_f)*c and hidden state sigmoid(z_o)*tanh(cell), reading and writing inside its arrays.", "quantifier": "every input and output size, weights, biases, input and previous state", "why_tests_cant": "all sizes and reals", "anchors": ["src/recurrent.c: lstm_ff"]}
{"id": "C71", "title": "LSTM back-propagation through time is the gradient", "statement": "For a single-layer LSTM unrolled over any window, the weight, recurrent-weight and bias derivatives accumulated by bp_rmodel_lstm are the partial derivatives of the error-weighted outputs of ff_rmodel_lstm over the whole window, including the paths through earlier hidden and cell states and through dropout masks.", "quantifier": "every window length, sizes, weights, inputs, initial states, dropout masks and output errors", "why_tests_cant": "a limit statement over all reals and window lengths", "anchors": ["src/rmodel.c: ff_rmodel_lstm, bp_rmodel_lstm; src/recurrent.c: lstm_ff, lstm_bp"]}
{"id": "C72", "title": "the LSTM input error is the gradient in the input", "statement": "The input error lstm_dinput returns for a time step is the derivative of the error-weighted outputs in that step's inputs.", "quantifier": "every size, weights and errors", "why_tests_cant": "a limit statement over all reals", "anchors": ["src/rmodel.c: lstm_dinput; src/recurrent.c: lstm_ff, lstm_bp"]}
{"id": "C73", "title": "back-propagation through the dueling head gives the gradient", "statement": "The errors the dueling head passes to the value stream and to the advantage stream are the partial derivatives of the error-weighted action distributions with respect to the value outputs and to the advantage outputs.", "quantifier": "every number of actions and atoms, every network output and upstream error", "why_tests_cant": "a derivative is a limit statement over all reals", "anchors": ["src/dueling_categorical_dqn.c: bp_dueling_categorical_network, compute_probability_distribution"]}
{"id": "C74", "title": "the bootstrap action of the categorical DQN is greedy", "statement": "The loss functions of the categorical DQN bootstrap from the first action that maximises the expected value computed from the target network at the next state, whatever was computed before, and all variants of the loss project the same distribution for it.", "quantifier": "every pair of networks, next state and call history", "why_tests_cant": "all network outputs and all previous calls", "anchors": ["src/dueling_categorical_dqn.c: get_loss_for_dueling_categorical_dqn, get_loss_for_dueling_categorical_dqn_opt, get_loss_for_dueling_categorical_dqn_opt_with_error, compute_q_functions"]}
{"id": "C75", "title": "quantile regression loss", "statement": "The error left by the quantile regression DQN loss for the taken action is, for each quantile, the quantile weight times the derivative of the Huber loss between that quantile and the Bellman target; it reads only the taken action's quantiles and leaves the other actions' errors unchanged.", "quantifier": "every number of actions and quantiles, every network output, reward and discount", "why_tests_cant": "all real outputs; the out-of-range read depends on the action", "anchors": ["src/dueling_categorical_dqn.c: get_loss_for_qr_dqn, get_loss_for_qr_dqn_opt, get_loss_for_qr_dqn_opt_with_error; src/math_functions.c: derivative_huber_loss, derivative_huber_loss_array, dot1D; src/multi_core_dueling_categorical_dqn.c: dueling_categorical_dqn_train_thread"]}
{"id": "C76", "title": "back-propagation through the quantile head gives the gradient", "statement": "The errors the quantile regression head passes to the value stream and to the advantage stream are the partial derivatives of the error-weighted quantiles with respect to the value outputs and to the advantage outputs.", "quantifier": "every number of actions and quantiles, every network output and upstream error", "why_tests_cant": "a derivative is a limit statement over all reals; the error depends on the relation of two sizes", "anchors": ["src/dueling_categorical_dqn.c: bp_qr_dqn_opt, compute_probability_distribution_opt_qr_dqn, compute_probability_distribution_qr_dqn"]}
{"id": "C77", "title": "L2 regularisation adds the gradient of the penalty once per trained weight", "statement": "With L2 regularisation the update adds to the gradient of every trained weight exactly the derivative of lambda/(2n) times the sum of squared weights, once, and changes no other gradient.", "quantifier": "every layer kind, training mode, size and lambda", "why_tests_cant": "Tests compare losses on fixed nets; index mistakes in one mode only show as slightly different training.", "anchors": ["src/regularization.c: add_l2_residual_layer, add_l2_convolutional_layer, add_l2_fully_connected_layer, add_l2_lstm_layer; src/utils.c: ridge_regression"]}
{"id": "C78", "title": "resetting the exploration noise restarts the process", "statement": "After reset_oustrategy the noise process starts again from its mean.", "quantifier": "every history of calls before the reset", "why_tests_cant": "The effect is hidden in a random process; a test sees plausible noise either way.", "anchors": ["src/noise.c: reset_oustrategy, get_action"]}
{"id": "C79", "title": "a residual layer of an accepted model is a contiguous block whose output fits its input", "statement": "In every model the constructor accepts, each residual layer occupies consecutive positions with no other layer between, and its last layer's output has the size of the residual layer's input, so that the skip connection can be added.", "quantifier": "every list of residual, convolutional and fully-connected layers, in every order", "why_tests_cant": "Tests build a few well-formed networks; the failure needs a layer list in an unusual order.", "anchors": ["src/model.c: network"]}
{"id": "C80", "title": "tree search follows the edge with the largest score", "statement": "Below the root the search follows an existing edge whose score (normalised value plus exploration bonus, or the parent estimate for unvisited edges) is maximal among all edges.", "quantifier": "every node, statistics and constants", "why_tests_cant": "The choice depends on real-valued statistics; a wrong choice still returns a legal move.", "anchors": ["src/mcts.c: visit_node"]}
{"id": "C81", "title": "each set of training hyper-parameters reaches the network it is documented for", "statement": "Per call, ddpg_train updates the policy and each part of the critic exactly once; the policy is updated with the learning rate, momentum, algorithm and regularisation documented as the policy's, the critic with those documented as the critic's.", "quantifier": "every pair of hyper-parameter sets", "why_tests_cant": "Tests use one learning rate for both networks.", "anchors": ["src/drl.c: init_ddpg, ddpg_train"]}
{"id": "C82", "title": "a saved model is loaded back as it was", "statement": "A model that was built from layers, saved under a number and loaded again has the same layers in the same positions with the same parameters, and can be built again from them; this also holds when a directory is given.", "quantifier": "every model accepted by the constructors, every number and directory, every previous content of the other files", "why_tests_cant": "all models and all file systems", "anchors": ["src/model.c: save_model, save_model_given_directory, load_model, network; src/rmodel.c: save_rmodel, load_rmodel, recurrent_network"]}
{"id": "C83", "title": "recurrent network construction accepts exactly the well-formed LSTM lists", "statement": "recurrent_network() succeeds exactly when every position below the layer count is taken by exactly one LSTM layer, all layers have the given window and each layer's input size is the output size of the one before; the layers are then stored in increasing position order.", "quantifier": "every list of LSTM layers, every layer count and window", "why_tests_cant": "all lists of positions, sizes and windows", "anchors": ["src/rmodel.c: recurrent_network"]}
{"id": "C84", "title": "one backward pass through a whole network gives the gradient of the loss", "statement": "For a model of fully connected layers in the reset state, the forward pass computes the composition of the layers (affine map, activation, dropout mask), and the backward pass given the derivative of a loss at the outputs adds to every weight's and bias's gradient exactly the partial derivative of that loss and returns the partial derivatives in the inputs. Biases frozen by their layer's training mode accumulate nothing.", "quantifier": "every number of layers, all sizes, activations, training modes and dropout draws, every weight, bias, input and separable differentiable loss", "why_tests_cant": "a derivative is a limit statement over all reals, and the chain rule is needed for every depth", "anchors": ["src/model.c: model_tensor_input_ff, model_tensor_input_bp, ff_fcl_fcl, bp_fcl_fcl, ff_cl_fcl, bp_cl_fcl"]}
{"id": "C85", "title": "one training step accumulates the gradient of the configured loss", "statement": "ff_error_bp_model_once() on one sample adds to the gradients of a model of fully connected layers the gradient of the model's configured loss between output and target, each output weighted by its class weight where the target is not zero.", "quantifier": "every model of fully connected layers, loss kind, loss parameters, class weights, sample and target", "why_tests_cant": "a derivative is a limit statement over all reals; each loss has its own formula", "anchors": ["src/model.c: ff_error_bp_model_once, compute_model_error, model_tensor_input_ff, model_tensor_input_bp"]}
{"id": "C86", "title": "dropout at test time hands over the mean of the training values", "statement": "A layer with dropout hands the next layer, in training, zero for every dropped unit and the unit's value otherwise; at test time it hands over the mean of that, the value times the probability that the unit is kept.", "quantifier": "every layer, activation, dropout threshold and draw", "why_tests_cant": "the mean is over all draws; a wrong factor only lowers accuracy", "anchors": ["src/model.c: ff_fcl_fcl; src/utils.c: set_dropout_mask, get_dropout_array"]}
{"id": "C87", "title": "local response normalisation divides by the norm of the nearest used neighbours", "statement": "local_response_normalization_feed_forward() writes, for a used channel, the value divided by (k + alpha times the sum of the squares over the channel and its nearest used neighbours, half of n on each side) to the power beta; it writes nothing else, reads only inside the arrays, and unused channels take no part.", "quantifier": "every number of channels, tensor shape and position, every set of used channels, window and hyper-parameters", "why_tests_cant": "all sets of used channels and window sizes; windows cut by the border behave differently", "anchors": ["src/normalization.c: local_response_normalization_feed_forward, local_response_normalization_feed_forward_fcl"]}
{"id": "C88", "title": "local response normalisation back-propagates the gradient", "statement": "local_response_normalization_back_prop_fcl() adds to the error of every entry the derivative of the error-weighted sum of the normalised outputs in that entry.", "quantifier": "every size, set of used entries, window, hyper-parameters with positive k, entry values and output errors", "why_tests_cant": "a derivative is a limit statement over all reals", "anchors": ["src/normalization.c: local_response_normalization_back_prop, local_response_normalization_back_prop_fcl"]}
{"id": "C89", "title": "a normalised fully connected layer back-propagates through its normalisation", "statement": "A fully connected layer with local response normalisation hands the normalised results to the next layer, and its backward pass adds the gradient of these normalised results to the weights and biases, with and without dropout.", "quantifier": "every layer, activation, dropout draw, input and error", "why_tests_cant": "a derivative is a limit statement over all reals; training still converges with a wrong gradient", "anchors": ["src/model.c: ff_fcl_fcl, bp_fcl_fcl"]}
{"id": "C90", "title": "A NEAT generation is always defined", "statement": "From any state that init, fitness assignment, set_generation_iter, set_max_population and earlier generations can produce, neat_generation_run terminates, reads and writes only inside its two genome buffers, and leaves at least one genome, with a new-connection rate in (0, 1].", "quantifier": "every sequence of calls, every fitness assignment, every outcome of the random draws and mutations", "why_tests_cant": "The buffers are sized once from the initial parameters while the number of species and children depends on the whole history; an overflow needs an unusual history.", "anchors": ["src/neat.c: init, neat_generation_run", "src/fitness.c", "src/speciation.c"]}
{"id": "C91", "title": "NEAT never loses its best genome", "statement": "Every generation but the last puts a genome of maximal fitness into the next population unchanged (up to adjust_genome), so that for a fixed scoring function the best score of the population never falls.", "quantifier": "every history of generations and every random outcome", "why_tests_cant": "Losing the best genome would show only in rare generations where it is removed with the weakest or its species is dropped.", "anchors": ["src/neat.c: neat_generation_run"]}
{"id": "C92", "title": "Size of the next NEAT population", "statement": "A generation with n species produces between n*children+1 and n*(50*children)+n+n/2+1 genomes, and the total number of genomes seen grows by that number.", "quantifier": "every reachable state and every random outcome", "why_tests_cant": "The bounds depend on the fitness of all species and on the rounding of shares.", "anchors": ["src/neat.c: neat_generation_run", "src/fitness.c: get_mean_fitness, get_mean_specie_fitness"]}
{"id": "C93", "title": "NEAT records the best fitness, counts stagnation and saves genomes", "statement": "The recorded fitness is the best fitness of all generations so far; the stagnation counter counts generations without improvement and raises the new-connection rate by 0.03 each time it reaches same_fitness_limit; the best genome is written exactly at multiples of saving and at the last generation.", "quantifier": "every sequence of generations with arbitrary fitness values", "why_tests_cant": "These are statements about arbitrarily long histories.", "anchors": ["src/neat.c: neat_generation_run"]}
{"id": "C94", "title": "Normalised fitness lies in [0,1] and keeps the order", "statement": "Before the species share the offspring, the fitness values are mapped to [0,1], keeping their order.", "quantifier": "all populations and fitness values", "why_tests_cant": "The result depends on which genome comes first; tests usually put a worst genome there or use non-negative values.", "anchors": ["src/neat.c: neat_generation_run"]}
{"id": "C95", "title": "Species without improvement die out", "statement": "With at least ten species, a species whose best fitness has not improved for limiting_species generations produces no more offspring.", "quantifier": "all histories of generations", "why_tests_cant": "Needs long histories with many species.", "anchors": ["src/neat.c: neat_generation_run, init", "src/neat_utils.c: init_genome, copy_genome"]}
{"id": "C96", "title": "The population limit removes the weakest genomes", "statement": "When the population exceeds the limit, the genomes of lowest fitness are removed until the limit is met, and set_max_population changes that limit for the following generations.", "quantifier": "all populations, limits and states", "why_tests_cant": "The sort used is only wrong for particular orders and fractional values, and the setter is silently ignored.", "anchors": ["src/neat.c: neat_generation_run, set_max_population", "src/fitness.c: sort_genomes_by_fitness"]}
{"id": "C97", "title": "Channel normalisation of a padded tensor", "statement": "channel_normalization_feed_forward normalises, for every cell inside the padding, the values over the first batch_size used channels: it stores their mean and variance, writes gamma*(x-mean)/sqrt(var+eps)+beta into these channels and changes no other cell of the output.", "quantifier": "all tensors, paddings, masks of used channels and parameters", "why_tests_cant": "Every combination of padding and mask changes all addresses.", "anchors": ["src/normalization.c: channel_normalization_feed_forward"]}
{"id": "C98", "title": "Group normalisation normalises every group of channels", "statement": "group_normalization_feed_forward divides the used channels into groups of n_channels and normalises each group with its own parameters.", "quantifier": "all tensors, group sizes and masks of used channels", "why_tests_cant": "With a single group or one-cell channels the result is right; only larger cases show the wrong offsets.", "anchors": ["src/normalization.c: group_normalization_feed_forward"]}
{"id": "C99", "title": "Every ant walks through one complete network", "statement": "For every list of layer sizes, candidate counts and activation choices accepted by init_aco, the construction graph is built, every ant's walk (whatever the pheromones and the random draws) ends, and get_model_according_to_path turns its trail into the network with exactly the chosen candidate for every weight, zero biases, the chosen activations and the sizes asked for; every such choice has a trail.", "quantifier": "all layer sizes, widths, activation settings, candidate values, pheromones and draws", "why_tests_cant": "The graph grows with the product of the layer sizes; one trail is one of exponentially many.", "anchors": ["src/aco_process.c: init_aco, build_path_from_ant_index, build_path_from_ant_index_according_to_nodes, get_model_according_to_path", "src/aco_building.c", "src/aco_iterate.c: aco_tracker_build_model_complete2"]}
{"id": "C100", "title": "The best model is the network of the strongest trail", "statement": "get_best_model follows, from the root, the edge with the most pheromone at every node and returns the network of that trail.", "quantifier": "all graphs of init_aco and all pheromones", "why_tests_cant": "The returned network has the right shape, so only a comparison of all weights shows the difference.", "anchors": ["src/aco_process.c: get_best_model", "src/aco_iterate.c: aco_tracker_best_next, aco_tracker_build_model_complete"]}
{"id": "C101", "title": "Ants take edges in proportion to their pheromone", "statement": "At every node an ant takes each outgoing edge with probability pheromone / sum of pheromones over a uniform draw.", "quantifier": "all non-negative pheromones with positive sum, all draws in (0,1]", "why_tests_cant": "A claim about a measure over draws, for every order the sort may produce.", "anchors": ["src/aco_iterate.c: aco_tracker_next_weithout_setting_flags, aco_tracker_next_weithout_setting_flags_according_to_nodes"]}
{"id": "C102", "title": "All nodes and edges of the colony are registered once", "statement": "After init_aco the arrays of nodes and edges contain every node and every edge of the graph exactly once.", "quantifier": "all graphs of init_aco", "why_tests_cant": "Nodes are reached along exponentially many paths; the walk must terminate and count each once.", "anchors": ["src/aco_iterate.c: get_all_nodes_and_edges, compute_all_nodes_edges"]}
{"id": "C103", "title": "One pheromone update", "statement": "update_pheromones lets every edge evaporate by the factor p, lays the amount of the best ant on the edges of its trail only, clips everything to [tau_min, tau_max] and clears all flags; the same for nodes; over any history the pheromones stay within the bounds.", "quantifier": "all graphs, trails, amounts, pheromones and histories", "why_tests_cant": "Needs every trail to visit each edge once and every flag to be cleared, in every state.", "anchors": ["src/aco_process.c: update_pheromones, update_pheromones_according_to_nodes, update_pheromones_best", "src/aco_iterate.c: update_aco_tracker_next_according_to_path"]}
{"id": "C104", "title": "The best trail is the best ever reported", "statement": "After any number of rounds the stored best trail and its pheromone belong to one ant that really reported them, and no ant ever reported more; reporting for an index stores that ant's pheromone only, and an index outside the colony is ignored.", "quantifier": "all histories of rounds, all amounts", "why_tests_cant": "Histories are unbounded.", "anchors": ["src/aco_process.c: update_best_trail"]}
{"id": "C105", "title": "The pheromone bounds stay ordered", "statement": "update_taus sets tau_max to best/(1-p) and keeps 0 <= tau_min <= tau_max.", "quantifier": "all graphs of init_aco, all p, p_dec and best amounts", "why_tests_cant": "The lower bound divides by an integer average that depends on the whole graph.", "anchors": ["src/aco_process.c: update_taus, init_aco"]}
{"id": "C106", "title": "Stagnation measures the distance to the bounds", "statement": "get_stagnation is never negative and is zero exactly when every pheromone is at a bound; recompute_pheromones moves every pheromone the fraction delta towards tau_max and keeps it within the bounds.", "quantifier": "all pheromones and bounds a run can produce", "why_tests_cant": "Depends on the history of tau updates.", "anchors": ["src/aco_process.c: get_stagnation, recompute_pheromones"]}
{"id": "C107", "title": "Updating part of the nodes", "statement": "update_pheromones_according_to_subnodes treats the nodes of the given range as update_pheromones_according_to_nodes does and leaves all the others and their flags as they were.", "quantifier": "all ranges, graphs and trails", "why_tests_cant": "Only ranges whose trail positions and array positions disagree show the difference.", "anchors": ["src/aco_process.c: update_pheromones_according_to_subnodes", "src/aco_iterate.c: update_aco_tracker_next_according_to_path_according_to_subnodes"]}
{"id": "C108", "title": "Swarm leaders and one swarm step", "statement": "Setting the global bests makes the first candidate of a weight with the largest personal best the leader of all candidates of that weight; the following update_pso_nodes is then defined, moves no value by more than v_max, keeps velocities within v_max and personal bests unchanged, does not move a candidate already at its leader's value and moves any other by inertia times its velocity plus the random pulls to its own best and its leader's best, clipped.", "quantifier": "all layers, widths, personal bests, velocities, parameters and draws", "why_tests_cant": "Layers, widths and draws are unbounded; the failing cases need a layer whose size is not 4*depth-3.", "anchors": ["src/aco_process.c: set_best_global_node_fitness_pso, set_best_global_node_fitness_pso_according_to_nodes, update_pso_nodes"]}
{"id": "C109", "title": "Personal bests and swarm parameters over a run", "statement": "Over any history of pheromones and moves the personal best of a candidate is the largest pheromone it ever had together with the value it had then; the inertia stays between inertia_min and inertia_max and the two pulls stay in fixed ranges.", "quantifier": "all histories, all iterations", "why_tests_cant": "Histories are unbounded.", "anchors": ["src/aco_process.c: set_best_personal_node_fitness_pso, update_pso_params"]}
{"id": "C110", "title": "Gravitational masses", "statement": "In update_gsa_nodes the masses of the candidates of a weight are never negative, add up to one and grow with the pheromone.", "quantifier": "all widths and pheromones", "why_tests_cant": "Only equal pheromones show the division of zero by zero.", "anchors": ["src/aco_process.c: update_gsa_nodes"]}
{"id": "C111", "title": "Gradient of the variational auto-encoder", "statement": "After vae_model_tensor_input_ff and vae_model_tensor_input_bp the decoder holds the gradient of the loss with respect to its parameters, and the encoder holds the gradient of the loss plus a fixed multiple of the divergence of the latent distribution from the standard normal one.", "quantifier": "all encoders, decoders, inputs, losses and draws of the latent noise", "why_tests_cant": "Networks, inputs and draws are unbounded; a wrong factor in the prior term still trains.", "anchors": ["src/vae_model.c: vae_model_tensor_input_ff, vae_model_tensor_input_bp"]}
{"id": "C112", "title": "Freeing a variational auto-encoder", "statement": "free_vae_model releases every block of the auto-encoder exactly once and accepts a null pointer.", "quantifier": "all auto-encoders", "why_tests_cant": "Leaks have no visible effect in a test.", "anchors": ["src/vae_model.c: free_vae_model"]}
{"id": "C113", "title": "Parallel evaluation of genomes", "statement": "Evaluating a population on several threads gives for every interleaving of the threads the same outputs in population order as evaluating one genome after the other; every genome is evaluated exactly once.", "quantifier": "all populations, thread counts and interleavings", "why_tests_cant": "Interleavings cannot be enumerated by tests.", "anchors": ["src/multi_core_neat.c: genome_thread_ff_opt, feed_forward_multi_thread_opt, feed_forward_multi_thread_opt_with_indices"]}
{"id": "C114", "title": "Positional encoding", "statement": "sin_cos_positional_encoding_vector writes every entry, keeps all entries in [-1,1], encodes position zero as 0,1,0,1,..., gives different positions different rows, and agrees with the encoding of the cited paper.", "quantifier": "all even dimensions and sequence lengths", "why_tests_cant": "Dimensions and lengths are unbounded.", "anchors": ["src/positional_encoding.c: sin_cos_positional_encoding_vector"]}
{"id": "C115", "title": "Ranges of random initial values", "statement": "The random number generators stay in their documented ranges for every value of rand: r2 in [0,1], signed_r2(n) in [-n,n], the uniform one in [lo,hi], the normal one finite, the beta one in [0,1].", "quantifier": "all values of rand, all parameters", "why_tests_cant": "The failing value of rand is one in RAND_MAX squared.", "anchors": ["src/initialization.c: r2, signed_r2, generate_from_random_distribution, random_normal, random_general_gaussian, random_beta, signed_kaiming_constant"]}
{"id": "C116", "title": "Evaluation of a genome", "statement": "feed_forward returns one output per output node, each strictly between 0 and 1 and equal to the modified sigmoid of 1 plus the weighted sum of what the enabled incoming connections carry, where a connection from an input carries the input and a connection from another node the sigmoid of that node's sum; disabled connections have no influence.", "quantifier": "all genomes, inputs, orders of the connections and contents of the work arrays", "why_tests_cant": "Topologies are unbounded and the traversal order depends on the order in which connections were created.", "anchors": ["src/feedforward.c: feed_forward, recursive_computation, ff_reconstruction, get_connections"]}
{"id": "C117", "title": "Backward pass of multi-head attention", "statement": "After multi_head_attention_ff, multi_head_attention_bp with zeroed score errors adds to the query, key and value error arrays of every head the gradient of the error-weighted output: for every motion of all queries, keys and values, the error paired with the velocity of the output equals the added errors paired with the velocities of queries, keys and values.", "quantifier": "all numbers of tokens, heads and components, masked or not, all queries, keys, values and errors", "why_tests_cant": "Gradients are statements about derivatives in every direction at every real point, and the reshaping offsets depend on three unbounded sizes.", "anchors": ["src/attention.c: multi_head_attention_bp, multi_head_attention_ff, self_attention_bp"]}
{"id": "C118", "title": "The transformer encoder computes its function and its gradient", "statement": "encoder_transformer_ff followed by encoder_transformer_bp on a fresh encoder: the output is attention of the projected input, linear map, optional residual connection and normalisation, network, optional residual connection and normalisation; the returned input error and the derivatives added to every network and scale are the gradient of the error-weighted output in every direction of input and parameters.", "quantifier": "all numbers of heads, tokens and components, all sixteen combinations of the four flags, masked or not, all differentiable networks inside, all inputs and errors", "why_tests_cant": "A gradient is a statement about every direction at every real point, and the sixteen branches are composed with networks of unbounded size.", "anchors": ["src/transformer_encoder.c: encoder_transformer_ff, encoder_transformer_bp", "src/transformer.c: get_output_layer_from_encoder_transf", "src/scaled_l2_norm_layers.c"]}
{"id": "C119", "title": "Construction, reset, copy and repeated use of the transformer encoder", "statement": "The constructor returns a well-formed encoder with clean buffers; a reset clears every buffer and derivative and keeps shape and parameters, so that any number of rounds of forward pass, backward pass and reset give each sample its own output and gradient; copies have the same shape, function, parameters and derivatives.", "quantifier": "all encoders, all flags, all sequences of samples of any length", "why_tests_cant": "Leaks between rounds depend on the whole history of uses; the null buffers appear only for certain flag combinations.", "anchors": ["src/transformer_encoder.c: transformer_encoder_layer, reset_transformer_encoder, reset_transformer_encoder_except_partial_derivatives, copy_transformer_encoder, copy_transformer_encoder_without_learning_parameters", "src/scaled_l2_norm_layers.c: scaled_l2_normalization_layer, reset_scaled_l2_norm, copy_scaled_l2_norm"]}
{"id": "C120", "title": "The policy gradient error is the gradient of the policy loss", "statement": "policy_gradient_model_error writes into the cleared error array the gradient, with respect to the outputs of the network, of minus the reward-weighted log-probabilities of the softmax policy at the given temperature, plus the entropy weight times the entropy, minus the diversity weight times the distance to the other policy; the last two when their weights are positive.", "quantifier": "all numbers of actions from two on, all outputs, rewards, weights and temperatures, all directions, provided the distance to the other policy is not zero when it is used", "why_tests_cant": "Being a gradient is a statement about every direction at every real point.", "anchors": ["src/model.c: policy_gradient_model_error", "src/math_functions.c: softmax, derivative_softmax, mul_value"]}
{"id": "C121", "title": "The inverse Q-learning error is the gradient of its loss", "statement": "derivative_inverse_q_function_array on a cleared array writes the gradient, in the values of the current state, of minus the advantage of the chosen action over the discounted soft value of the next state, plus its regulariser, plus the soft value of the current state; the next values are not read without a positive discount.", "quantifier": "all numbers of actions, all values, temperatures different from 0, all directions, chosen actions whose value differs from the discounted next value", "why_tests_cant": "Being a gradient is a statement about every direction at every real point.", "anchors": ["src/math_functions.c: derivative_inverse_q_function_array", "src/model.c: inverse_q_model_error"]}
{"id": "C122", "title": "A policy training passage updates with the sum over its samples, whatever the threads", "statement": "policy_gradient_training_passage terminates and updates the parameters once, with the sum over all samples of what each contributes on clean buffers with its reward credited to its action, for every number of threads and every schedule, and leaves no derivative behind, so that a history of passages is plain training; get_policies returns the outputs of the network on every input.", "quantifier": "all numbers of samples and threads, all interleavings of the summation threads, all sequences of passages, all networks", "why_tests_cant": "Thread counts, schedules and histories are unbounded.", "anchors": ["src/policy_gradient.c: init_policy_gradient, policy_gradient_training_passage, get_policies", "src/multi_core_model.c: sum_models_partial_derivatives_multithread", "src/learning_rate_decay.c: update_lr"]}
{"id": "C123", "title": "An epoch of inverse Q-learning visits every demonstration once and updates batch by batch", "statement": "train_iqn splits the shuffled demonstrations into consecutive batches; each demonstration contributes with 1 at its action, with the outputs on the following state as next values and the discount, both 0 at the end of an episode; each update uses the derivatives of its batch; the number of threads does not matter.", "quantifier": "all numbers of demonstrations, batches, threads and epochs, all orders, all networks", "why_tests_cant": "The result depends on the whole history of batches and on unbounded numbers of threads and demonstrations.", "anchors": ["src/iq.c: init_iq, train_iqn", "src/math_functions.c: sum_models_partial_derivatives"]}
{"id": "C124", "title": "The transformer runs its encoders in order and hands each decoder the outputs of the encoders connected to it", "statement": "transf_ff with RUN_ALL_TRANSF runs the encoders one after the other on the first input; every decoder receives the outputs of exactly the encoders connected to it, one after the other in the order of the encoders; the decoders run one after the other on the second input. RUN_ONLY_DECODER runs the decoders on what they last received, RUN_ONLY_ENCODER runs the encoders; transf_ff_opt does the same with the parameters of a second transformer.", "quantifier": "all numbers of encoders and decoders, all connection matrices, all layers and their sizes, all inputs", "why_tests_cant": "The offsets at which outputs are placed depend on the whole connection matrix and on all the sizes, which no finite set of networks covers", "anchors": ["src/transformer.c transf_ff, transf_ff_opt"]}
{"id": "C125", "title": "The backward pass of the transformer is the gradient of the whole network", "statement": "After a forward pass transf_bp returns the gradient of the paired error with respect to the input of the encoders and adds to every layer the gradient with respect to its parameters, the errors of the decoders reaching exactly the encoders connected to them.", "quantifier": "all numbers of layers, all connection matrices, all layers whose own backward pass is a gradient, all inputs, errors and motions of inputs and parameters", "why_tests_cant": "A gradient is a statement about every direction; errors travel along every path of an arbitrary connection matrix", "anchors": ["src/transformer.c transf_bp"]}
{"id": "C126", "title": "Both inputs of the attention inside a decoder get their gradient", "statement": "The encoder inside a decoder takes values and its residual connection from the layer below and queries and keys from the encoders. Its forward pass computes that function; its backward pass returns the gradient with respect to the input from below, adds to the array of the errors of the encoders the gradient with respect to what came from them and nothing else, and adds to all parameters their gradients.", "quantifier": "all sizes, numbers of heads, networks inside, inputs, errors, previous contents of the errors of the encoders, and motions of inputs and parameters", "why_tests_cant": "A gradient is a statement about every direction, and the two inputs share the parameters and error buffers of all heads", "anchors": ["src/transformer_decoder.c wrapped_encoder_transformer_decoder_ff, wrapped_encoder_transformer_decoder_bp"]}
{"id": "C127", "title": "A decoder can be built with the options offered, runs, and can be trained", "statement": "transformer_decoder_layer accepts every combination of residual connections and normalisations; decoder_transformer_ff computes attention over the input from below, a linear map with residual connection and normalisation, and then the encoder inside with the outputs of the encoders, for every number of heads; decoder_transformer_bp returns its gradient; the same for a transformer with any number of encoders and decoders.", "quantifier": "all decoders that can be built, all histories of forward passes, all inputs and errors, all stacks", "why_tests_cant": "The claim ranges over all configurations and over all transformers put together from them", "anchors": ["src/transformer_decoder.c transformer_decoder_layer, decoder_transformer_ff, decoder_transformer_bp", "src/transformer.c transf_ff, transf_bp"]}
{"id": "C128", "title": "Saved transformers are loaded back", "statement": "Loading a file written by saving a transformer encoder, a transformer decoder or a whole transformer gives back the same configuration, normalisation layers, networks (heads, feed-forward and linear), encoder-decoder connections and order of layers.", "quantifier": "all encoders, decoders and transformers made by their constructors, any number of heads and layers, any contents of the file after them", "why_tests_cant": "The order and number of things in the file depend on flags and counts, and the connections are written through a pointer; a test of one shape with one decoder would not see it.", "anchors": ["src/transformer_encoder.c: save_transformer_encoder, load_transformer_encoder", "src/transformer_decoder.c: save_transformer_decoder, load_transformer_decoder", "src/transformer.c: save_transf, load_transf, transf"]}
{"id": "C129", "title": "A training step of the rainbow agent uses every sampled experience with its own data", "statement": "One call of the training function updates the online network once, with the sum over the sampled experiences of the gradient of each one at its own state, action, return, discount and importance weight, plus the diversity gradient of every recorded state chosen; the weights are in (0,1] and belong to the rank with which the experience was drawn; the target network is copied exactly at the configured passages; nothing is left over for the next call.", "quantifier": "all batches, numbers of threads, interleavings and sequences of calls", "why_tests_cant": "The work is cut in rounds of threads and the arrays must be advanced with each round; the interleaving and the number of rounds vary, and a wrong discount or weight only biases the training.", "anchors": ["src/rainbow.c: train_rainbow", "src/multi_core_dueling_categorical_dqn.c: dueling_categorical_dqn_train_with_error, dueling_categorical_dqn_train_l_infinite"]}
{"id": "C130", "title": "Batch passes of recurrent models on several threads", "statement": "Running a batch of recurrent models on several threads gives every instance the result of running it alone, and the backward pass with a shared model adds to the shared derivatives what all the instances contribute.", "quantifier": "all batches, numbers of threads and schedules", "why_tests_cant": "Which updates are lost depends on the schedule.", "anchors": ["src/multi_core_rmodel.c: ff_rmodel_lstm_multicore, bp_rmodel_lstm_multicore, bp_rmodel_lstm_multicore_opt", "src/rmodel.c: bp_rmodel_lstm_opt"]}
{"id": "C131", "title": "Data set files are read value by value", "statement": "Reading a data set from a text file puts every value of every row in its own input or output cell, in order, for every file of rows of values ended by a separator, for every split into inputs and outputs; the same for files of single characters and of digits with a class.", "quantifier": "all files, row lengths, field lengths and splits", "why_tests_cant": "The parser is a state machine over characters with a buffer of fixed length; only a proof covers every length and every position of a separator.", "anchors": ["src/parser.c: multiple_instance_single_csv_file_parser, single_instance_single_csv_file_parser, multiple_instances_single_char_binary_file_parser, get_inputs_from_multiple_instances_single_char_binary_file_with_single_softmax_output, get_outputs_from_multiple_instances_single_char_binary_file_with_single_softmax_output"]}
{"id": "C132", "title": "A model description gives the model it describes", "statement": "Parsing the description of a model gives exactly the layers of the description, in order, with all their parameters, the convolutional layers inside of residual blocks going to their block; a malformed description is reported.", "quantifier": "all sequences of fully connected, convolutional and residual layers and all parameters", "why_tests_cant": "The number and order of layers is unbounded and each kind is collected in its own array with its own counter.", "anchors": ["src/parser.c: parse_model_file, parse_model_str"]}
{"id": "C133", "title": "A network description in sections is cut at the section names", "statement": "Parsing the description of a dueling network gives each of its five models exactly the text of its own section; a file whose sections are missing or misnamed is rejected.", "quantifier": "all texts of the five sections", "why_tests_cant": "The sections are found by scanning for names and their lengths are computed from positions: every length and content of each section is possible.", "anchors": ["src/parser.c: parse_dueling_categorical_dqn_file"]}
{"id": "C134", "title": "Saving a training state keeps all of it", "statement": "Saving a training state writes the counters and every array in full, so that the files determine the whole state, and puts every model in a file of its own with consecutive numbers, changing no other file.", "quantifier": "all training states, array lengths and file numbers", "why_tests_cant": "Which bytes are lost depends on the lengths of the arrays, which are unbounded; there is no loader with which a round trip could be tested.", "anchors": ["src/training.c: get_training, save_training, standard_save_training"]}
{"id": "C135", "title": "Convolutional networks back-propagate the gradient of their function", "statement": "For a network of convolutional, transposed convolutional, pooling-only and fully connected layers in any order (every activation; max, average or no pooling with windows that do not overlap; dropout on the fully connected layers; no normalisation, no residual blocks), started from the state reset_model leaves: the forward pass is defined and the output array holds the composed network function; for every separable loss whose derivative at the outputs is the error passed in, the backward pass is defined, adds to the accumulator of every kernel cell, weight and bias exactly the partial derivative of the loss in it (nothing for frozen biases), and returns the derivative in every input cell. One training step on one sample therefore accumulates the gradient of the (class weighted) loss.", "quantifier": "all lists of layers, all geometries (strides, paddings, numbers of kernels and channels), all parameters and inputs where no rectifier is at zero and no pooling window has a tie, all dropout draws, all losses", "why_tests_cant": "The gradient is a statement about limits at every parameter of every architecture; numeric checks cover a few small nets.", "anchors": ["src/model.c:model_tensor_input_ff", "src/model.c:model_tensor_input_bp", "src/model.c:ff_cl_cl", "src/model.c:bp_cl_cl", "src/model.c:ff_fcl_cl", "src/model.c:bp_fcl_cl", "src/model.c:ff_cl_fcl", "src/model.c:bp_cl_fcl", "src/model.c:ff_error_bp_model_once"]}
{"id": "C136", "title": "Networks with residual blocks compute and back-propagate act(x + inner x)", "statement": "For a network of plain layers and residual blocks (each a list of convolutional layers leading back to the size of its input, followed by a sum with the input and an activation), started from the state reset_model leaves: the forward pass is defined and gives the composition in which a block is act(x + inner(x)); the backward pass adds to the accumulator of every parameter the derivative of the loss in it and returns the derivative in every input. The backward half holds only when the last working convolution of each block has a pooling or no activation, a block directly before another block has no activation after its sum, and a block before a layer that is no block has at least two convolutions; each of the three restrictions is necessary, shown by refutations for every network of the excluded kind.", "quantifier": "all lists of layers and blocks, all geometries, parameters, inputs where no rectifier is at zero and no pooling window ties, all dropout draws, all separable losses", "why_tests_cant": "A wrong residual error changes gradients only slightly and for certain combinations of layers; a test of the loss going down cannot see it.", "anchors": ["src/model.c:model_tensor_input_ff", "src/model.c:model_tensor_input_bp", "src/model.c:bp_cl_cl", "src/residual_layers.c:residual"]}
{"id": "C137", "title": "The vector nodes and the derivatives they pass back", "statement": "A vector node with one input and no dropout computes the sum, difference, product or quotient of the input with its own numbers, the inverse, the opposite, the part of the input from the index on, or the activation; with two inputs it computes the sum, difference, product, quotient or concatenation. For every loss whose derivatives by the outputs are the errors handed in, the array handed back by the backward pass holds the derivatives of the loss by every input, of both inputs when there are two. GET_MAX marks the first of the largest inputs. Dropout zeroes the drawn inputs in training and scales in testing. A node written to a file is read back as it was, and a node can be freed after any use.", "quantifier": "every size, index, vector of numbers, pair of inputs, error and differentiable loss; every draw of the dropout; every history of uses of a node; every file following the node", "why_tests_cant": "inputs, errors and losses are real functions, histories are unbounded", "anchors": ["vector.c: create_vector", "vector.c: ff_vector", "vector.c: bp_vector", "vector.c: reset_vector", "vector.c: save_vector", "vector.c: load_vector", "vector.c: copy_vector", "vector.c: free_vector"]}
{"id": "C138", "title": "The search tree grows with one visit per simulation and its statistics add up", "statement": "After any number n of simulations of the tree search, whatever the networks predict and whatever edges are chosen: the nodes form a tree no deeper than the maximum depth with at most n+1 nodes, every edge of every node is registered exactly once, the visits of the children of the root sum to n, and every other node above the maximum depth was visited once more than its children together. The recorded minimum and maximum enclose the value of every node but the root, so the search value of the root is between 0 and 1 once two values were recorded; with temperature 1 the probability of an action is the fraction of the simulations that began with it. Inside a window of the reward network the rewards along a path sum to the predicted prefix. The value of a node is the mean of what its visits returned, and the recorded difference is that of the bounds.", "quantifier": "all numbers of simulations, all sequences of choices, all networks, actions, windows and depths", "why_tests_cant": "histories are unbounded and the networks arbitrary functions", "anchors": ["mcts.c: init_mcts", "mcts.c: visit_node", "mcts.c: get_mcts_probability", "mcts.c: get_mcts_v", "math_functions.c: mul_array_values_by_indices"]}
{"id": "C139", "title": "Training on mini batches with many threads is gradient descent on the loss of the batch", "statement": "For every network of fully connected layers, every history of mini batches, every number of threads and every interleaving of their steps: a round (one copy of the model per sample run by the threads, the derivatives summed into the model, the optimiser applied, model and copies reset) moves every trained weight and bias by exactly one step of the chosen optimiser on the partial derivative of the summed loss of the batch at the parameters before the round, leaves the frozen ones, and leaves model and copies ready for the next round, so the result does not depend on the schedule. With plain gradient descent and a small enough learning rate the loss of the batch goes down strictly unless it was stationary in the trained parameters.", "quantifier": "all architectures of fully connected layers with their activations, dropout draws and training modes, all losses, batches, optimisers, numbers of threads, interleavings and numbers of rounds", "why_tests_cant": "the property composes back propagation, threads, summation, optimiser and resets over unbounded histories, and is about derivatives", "anchors": ["multi_core_model.c: ff_error_bp_model_multicore_opt", "multi_core_model.c: sum_models_partial_derivatives_multithread", "update.c: update_model", "model.c: ff_error_bp_model_once_opt", "model.c: reset_model", "model.c: reset_model_without_learning_parameters", "fully_connected_layers.c: reset_fcl_without_learning_parameters"]}
{"id": "C140", "title": "Structures connected in a graph get the inputs they are wired to and the sum of the errors sent back", "statement": "A connection between two structures with index arrays feeds every position of the second structure with the value of the first that the index names (unconnected positions keep their value), for encoders, decoders, transformers, recurrent models, plain models and concatenations; building a connection stores what it was given; a structure that is read several times gets, at each output, the sum of the errors its readers send back, which is the gradient of the whole; and the error is sent back to the place that was read.", "quantifier": "all kinds of structures on both sides, all sizes, index arrays, values, numbers of readers and their errors", "why_tests_cant": "the wiring has eight kinds on each side and free index arrays, and the sum of errors ranges over any number of readers", "anchors": ["struct_conn.c: structure_connection", "struct_conn.c: struct_connection_input_arrays", "struct_conn.c: ff_struc_conn", "struct_conn.c: bp_struc_conn", "struct_conn.c: free_struct_conn"]}
{"id": "C141", "title": "Edge-popup convolutions use exactly the best-scored weights", "statement": "An edge-popup convolution computes, in every feature map, the convolution with the kernel whose weights outside the best-scored ones are zero; the error of the input is the derivative of that output, the pass with gradient descent adds to every used weight its derivative and nothing to the others, the score errors are the derivatives in a factor on the weight, and the bias errors are the derivatives in the bias.", "quantifier": "all geometries, inputs, kernels, orders of the weights and numbers of used weights", "why_tests_cant": "The weight numbering spans all kernels and the selection is an arbitrary permutation.", "anchors": ["src/convolutional.c:convolutional_feed_forward_edge_popup", "src/convolutional.c:convolutional_back_prop_edge_popup", "src/convolutional.c:convolutional_back_prop_edge_popup_ff_gd_bp", "src/convolutional.c:convolutional_back_prop_edge_popup_for_input"]}
{"id": "C142", "title": "Edge-popup transposed convolutions use exactly the best-scored weights", "statement": "An edge-popup transposed convolution computes, in every feature map, the (cropped) transposed convolution with the kernel whose weights outside the best-scored ones are zero plus the bias; the errors of input, used weights, scores and biases are the corresponding derivatives.", "quantifier": "all geometries with and without padding, inputs, kernels, orders of the weights and numbers of used weights", "why_tests_cant": "The weight numbering spans all kernels and the selection is an arbitrary permutation.", "anchors": ["src/convolutional.c:transposed_convolutional_feed_forward_edge_popup", "src/convolutional.c:transposed_convolutional_back_prop_edge_popup", "src/convolutional.c:transposed_convolutional_back_prop_edge_popup_ff_gd_bp", "src/convolutional.c:transposed_convolutional_back_prop_edge_popup_for_input"]}
{"id": "C143", "title": "Training an LSTM cell by edge-popup", "statement": "In edge-popup mode an LSTM cell computes, for all weights, inputs, rankings and k_percentage, the LSTM equations with the weights outside the selected part of the ranking taken as zero. In the backward pass the errors added to the score of a weight are the derivative of the loss in a factor on that weight, the error sent to the layer below and to the previous step flows through exactly the selected weights, and the error of the cell state flows from a step to the previous one.", "quantifier": "every input and output size, weights, inputs, states, rankings, flags, k_percentage, errors, dropout masks", "why_tests_cant": "a unit test compares one small cell; which weights are used depends on a ranking and a fraction, and the derivative is a statement over the reals", "anchors": ["src/recurrent.c:lstm_ff_edge_popup", "src/recurrent.c:lstm_bp_edge_popup"]}
{"id": "C144", "title": "Back-propagation through time of several LSTM layers", "statement": "For a recurrent model of several LSTM layers, the backward pass over a window of steps adds to the derivative of every weight, recurrent weight and bias of every layer exactly the derivative, in that parameter, of the error-weighted sum of the outputs of the top layer over all steps of the window, for all dropout masks and with residual connections and edge-popup layers; and from its second step on the forward pass of every layer continues from the cell state its previous step left.", "quantifier": "every number of layers and steps, layer sizes, weights, inputs, initial states, dropout masks, output errors, residual flags, modes", "why_tests_cant": "a unit test compares a few numbers; the derivative through layers and time is a statement over the reals for every window, and depends on the order in which layers and steps overwrite shared arrays", "anchors": ["src/rmodel.c:ff_rmodel_lstm", "src/rmodel.c:bp_rmodel_lstm", "src/recurrent.c:lstm_bp"]}
{"id": "C145", "title": "Two heads on one body accumulate the gradient of the sum of their losses", "statement": "For the prediction network of an EfficientZero model (a body whose output goes to a policy head and to a value head), forward prediction gives each head's function of the body's output; the backward pass leaves in each head the gradient of its loss, in the body the gradient of the sum of both losses, and returns the gradient in the input, for one sample and for a batch on several threads.", "quantifier": "all body and head networks of fully connected layers, inputs, batch sizes, thread counts, dropout draws, and losses with the given error as gradient", "why_tests_cant": "A gradient is a limit and must be right for every network; with one sample the numbers returned look plausible while the body receives nothing.", "anchors": ["src/efficientzeromodel.c:efficientzero_ff_prediction_f,efficientzero_bp_prediction_f,efficientzero_ff_prediction_f_opt,efficientzero_bp_prediction_f_opt", "src/multi_core_model.c:model_tensor_input_ff_multicore_opt,model_tensor_input_bp_multicore_opt"]}
{"id": "C146", "title": "Reward prediction gives every sample its own window, at every moment of a model's life", "statement": "Predicting rewards over a window applies the step network, then the LSTM stack over the whole window, then the output network to every step of every sample of the batch, whatever calls for single steps came before; the backward pass returns the error of that composition, and neither call touches memory outside its arrays nor loses memory.", "quantifier": "all networks, window lengths, batch sizes, thread counts, inputs, errors and histories of calls", "why_tests_cant": "The result depends on the history of calls and on the relation between batch size and window; a test with one batch size equal to the window passes.", "anchors": ["src/efficientzeromodel.c:efficientzero_ff_reward_prediction,efficientzero_bp_reward_prediction,efficientzero_ff_reward_prediction_opt,efficientzero_bp_reward_prediction_opt,efficientzero_ff_reward_prediction_single_cell,efficientzero_reset_only_for_ff_reward_prediction_single_cell"]}
{"id": "C147", "title": "An EfficientZero model saved under a new number loads back with the same networks", "statement": "save_efficientzero_model followed by load_efficientzeromodel of that file gives back the window length, both optional projection networks and the eight main networks, with the batch size passed to the load; files of other numbers are not touched. Saving twice under a number, or into a directory, must behave as for a new file.", "quantifier": "every model whose parts are well formed, with or without the projection networks, every batch size, number and state of the disk", "why_tests_cant": "a test saves one model; the order of ten parts in one file, the presence flags and an already existing file need all models and disks", "anchors": ["src/efficientzeromodel.c:save_efficientzero_model", "src/efficientzeromodel.c:load_efficientzeromodel", "src/efficientzeromodel.c:save_efficientzero_model_given_directory", "src/efficientzeromodel.c:init_efficientzero_model"]}
{"id": "C148", "title": "Operations on an EfficientZero model reach every network", "statement": "init_efficientzero_model makes one copy per thread (and per window step for the reward networks) of each network; make_efficientzeromodel_only_for_ff, the four reset functions, set_efficientzero_model_training_edge_popup, the beta setters, copy, paste and slow paste apply the operation to every network they name, each in its own place, and free_efficientzero_model releases every network exactly once.", "quantifier": "every model, number of threads, window, with or without projection networks, and any operation on one network", "why_tests_cant": "twenty arrays and eleven functions with one call per network each; a missing call shows only in the state of a network no test inspects", "anchors": ["src/efficientzeromodel.c:init_efficientzero_model", "src/efficientzeromodel.c:make_efficientzeromodel_only_for_ff", "src/efficientzeromodel.c:reset_efficientzeromodel", "src/efficientzeromodel.c:reset_efficientzeromodel_only_for_ff", "src/efficientzeromodel.c:reset_efficientzeromodel_without_learning_parameters", "src/efficientzeromodel.c:reset_efficientzeromodel_only_for_ff_without_learning_parameters", "src/efficientzeromodel.c:set_efficientzero_model_training_edge_popup", "src/efficientzeromodel.c:copy_efficientzero_model", "src/efficientzeromodel.c:paste_efficientzero_model", "src/efficientzeromodel.c:free_efficientzero_model"]}
{"id": "C149", "title": "The parameter, weight and score vectors of an EfficientZero model round-trip", "statement": "Copying the parameters (or weights, or scores) of an EfficientZero model to a vector fills exactly the advertised number of positions, and copying them into a model of the same shape gives it the same values in every network, recurrent layers included.", "quantifier": "every model of well-formed parts, every target of the same shape, every offset and surrounding vector", "why_tests_cant": "offsets add up over ten networks and all their layers; a test covers one architecture", "anchors": ["src/efficientzeromodel.c:memcopy_params_to_vector_efficientzero_model", "src/efficientzeromodel.c:memcopy_vector_to_params_efficientzero_model", "src/efficientzeromodel.c:memcopy_weights_to_vector_efficientzero_model", "src/efficientzeromodel.c:memcopy_scores_to_vector_efficientzero_model", "src/efficientzeromodel.c:get_array_size_params_efficientzero_model", "src/recurrent_layers.c:memcopy_weights_to_vector_lstm", "src/recurrent_layers.c:memcopy_scores_to_vector_lstm", "src/rmodel.c:memcopy_weights_to_vector_rmodel"]}
{"id": "C150", "title": "The diversity losses of the DQN return the distance of two policies and descend on it", "statement": "compute_l1, compute_l_infinite and compute_kl return the distance (total variation, largest difference, Kullback-Leibler divergence) between the softmax policy of the network's q functions and the other policy, and add to the error of every output the derivative of -alpha*weight*distance with respect to it, limited per action to [-clip, clip].", "quantifier": "all numbers of actions and atoms, all distributions, supports, other policies, alpha, weight and clip", "why_tests_cant": "the claim is about derivatives over a continuum of policies; a finite-difference test covers one point and hides the cases of equal policies or of another greatest action", "anchors": ["src/dueling_categorical_dqn.c:compute_l1_dueling_categorical_dqn", "src/dueling_categorical_dqn.c:compute_l1_dueling_categorical_dqn_opt", "src/dueling_categorical_dqn.c:compute_l1_qr_dqn_opt", "src/dueling_categorical_dqn.c:compute_l_infinite_dueling_categorical_dqn_opt", "src/dueling_categorical_dqn.c:compute_l_infinite_qr_dqn_opt", "src/dueling_categorical_dqn.c:compute_kl_dueling_categorical_dqn_opt", "src/dueling_categorical_dqn.c:compute_kl_dueling_categorical_dqn"]}
{"id": "C151", "title": "Consensus of the scores of several networks", "statement": "After scores_and_indices_readapter or scores_and_indices_readapter_float the m networks hold the same indices and the same scores; in every layer the indices are a permutation of the positions of that layer and the position listed k-th gets the score k times step, so the scores and the indices describe one ranking. The ranking lists the positions of every layer by decreasing mean over the networks.", "quantifier": "every list of layer sizes, every number of networks, all indices and scores, every step, every erf and sqrt with the stated signs", "why_tests_cant": "The layer boundaries come from a function called with the running total, the index is reset and reordered in place inside the first network's own row, and the exchange loops revisit pairs; whether all layers are handled and whether the order is right depends on every size and every order of the values.", "anchors": ["src/utils.c:scores_and_indices_readapter", "src/utils.c:scores_and_indices_readapter_float", "src/utils.c:readapt_scores", "src/utils.c:merge_sort_for_probabilities", "src/math_functions.c:get_sorted_probability_vector", "src/dueling_categorical_dqn.c:get_array_size_scores_index_dueling_categorical_dqn"]}
{"id": "C152", "title": "Min-max scaling of the edge-popup scores maps them onto the unit interval", "statement": "Normalising the edge-popup scores, layer by layer or over a whole model, replaces every score by its image under one increasing affine scale for which the smallest score becomes 0 and the largest becomes 1, so that no two scores change their order; layers without scores are left alone.", "quantifier": "every layer or model, every number of layers and scores, every value of the scores", "why_tests_cant": "the scale must hold for every content of the score arrays, including equal, very large and very small scores, and for every mix of layers with and without scores", "anchors": ["src/normalization.c:normalize_scores_among_fcl_layers", "src/normalization.c:normalize_scores_among_cl_layers", "src/normalization.c:normalize_scores_among_all_internal_layers", "src/normalization.c:given_max_min_normalize_fcl", "src/normalization.c:given_max_min_normalize_cl", "src/normalization.c:min_max_normalize_scores_among_all_leyers"]}
{"id": "C153", "title": "The backward pass of group normalisation gives the derivatives of the weighted outputs", "statement": "For one group of channels, the errors that the backward pass accumulates for gamma and beta are the derivatives of the weighted sum of the outputs, on top of what was there, and the errors of the inputs are the derivatives with respect to the inputs, for every split of the channels into groups.", "quantifier": "every plane size, padding, number of channels and groups, every input, scale, shift and output error", "why_tests_cant": "derivatives of a function of all the inputs over real numbers, and offsets that are only right for particular splits", "anchors": ["src/normalization.c:channel_normalization_back_prop", "src/normalization.c:group_normalization_back_propagation", "src/normalization.c:group_normalization_back_propagation_without_learning_parameters"]}
{"id": "C154", "title": "The replay buffer of EfficientZero stores the last experiences and keeps its sampling structures right", "statement": "After any history of insertions and priority updates the buffer holds exactly the last max_buffer_size experiences with state, next state, value, action, reward and terminal flag; with ranked sampling the priorities, the heap and the rank weights are right, with reward sampling the three classes describe the stored rewards, with uniform sampling every filled slot is named once. The constructor accepts exactly the documented parameters and uses the discount it is given.", "quantifier": "every capacity, every history, every sampling mode, every parameter", "why_tests_cant": "unbounded histories with wrap-around and shared bookkeeping over three sampling modes", "anchors": ["src/efficientzero.c:init_efficientzero", "src/efficientzero.c:add_experience_efficientzero", "src/efficientzero.c:update_buffer_state_efficientzero", "src/efficientzero.c:add_buffer_state_reward_sampling_efficientzero", "src/efficientzero.c:update_buffer_state_reward_sampling_efficientzero"]}
{"id": "C155", "title": "Copying, pasting, resetting and freeing a fully connected layer", "statement": "A constructed fully connected layer owns one live array per role, all different; its copy owns arrays that are all different from those of the original and hold the same parameters, scores, gradients and optimiser values, so no write to one is ever seen by the other; pasting makes the second layer hold the same learned values as the first without sharing memory; resetting clears the gradients and work arrays and keeps everything learned; freeing releases exactly the layer's arrays, so building and freeing leaks nothing; stripping a layer for inference frees only what the forward pass does not need. Refuted: copying a layer switched to dropout only ends the program, a copy draws noise of its own, the ordinary reset after stripping writes through null, and the edge-popup reset keeps the gradient of the biases.", "quantifier": "all memories, layer sizes, flags, parameter values and random draws", "why_tests_cant": "aliasing and leaks show only for particular flag combinations, and a test of one layer says nothing about the forty arrays of another configuration", "anchors": ["src/fully_connected_layers.c: fully_connected", "src/fully_connected_layers.c: copy_fcl", "src/fully_connected_layers.c: paste_fcl", "src/fully_connected_layers.c: reset_fcl", "src/fully_connected_layers.c: reset_fcl_only_for_ff", "src/fully_connected_layers.c: reset_fcl_for_edge_popup", "src/fully_connected_layers.c: make_the_fcl_only_for_ff", "src/fully_connected_layers.c: free_fully_connected", "src/fully_connected_layers.c: inference_fcl", "src/fully_connected_layers.c: train_fcl"]}
{"id": "C156", "title": "Copying, pasting, resetting, stripping and freeing a normalisation layer", "statement": "A constructed normalisation layer owns all its tables, rows and vectors, each a block of its own, with scale one and everything else zero; its copy shares no block with it and has the same scale, shift, gradients and optimiser values; resetting clears work arrays (and gradients, or not, as the two functions say) and keeps scale, shift and optimiser values, also on a stripped layer; stripping for inference frees exactly what only back-propagation and the optimiser use; freeing gives back every block once, and build-then-free and strip-then-free leak nothing. Pasting between layers of the same width copies exactly the learned arrays. Refuted: pasting on a narrower layer writes out of bounds, and freeing a complete layer with the function for stripped layers leaks.", "quantifier": "all memories, batch sizes, widths and contents", "why_tests_cant": "use after free, double free and leaks depend on the order of operations and on which pointers are null", "anchors": ["src/batch_norm_layers.c: batch_normalization", "src/batch_norm_layers.c: copy_bn", "src/batch_norm_layers.c: paste_bn", "src/batch_norm_layers.c: reset_bn", "src/batch_norm_layers.c: reset_bn_except_partial_derivatives", "src/batch_norm_layers.c: make_the_bn_only_for_ff", "src/batch_norm_layers.c: free_the_bn_only_for_ff", "src/batch_norm_layers.c: free_batch_normalization"]}
{"id": "C157", "title": "Convolutional layers own their memory through their whole life", "statement": "Constructing a convolutional layer gives a layer with exactly the arrays its flags call for, in fresh memory and with their first contents; copying gives a second layer that shares no memory with the first and agrees with it in kernels, biases, scores, gradients, optimiser arrays, ranking, used kernels and the parameters of its group normalisations; pasting does the same into an existing layer of the same shape and does nothing for another shape; resetting clears gradients and work arrays only; making the layer inference-only frees exactly what training needs; freeing gives back every array once. None of these calls touches other memory or accesses memory out of bounds.", "quantifier": "every number of kernels and groups, every size, convolution kind, activation, pooling and normalisation flag, training mode and feed-forward mode, every content of the arrays and every surrounding memory", "why_tests_cant": "Leaks, double frees and writes out of bounds depend on the combination of seven flags and on what was done before; tests run a few combinations and do not see a block that is never freed.", "anchors": ["src/convolutional_layers.c:convolutional", "src/convolutional_layers.c:copy_cl", "src/convolutional_layers.c:paste_cl", "src/convolutional_layers.c:reset_cl", "src/convolutional_layers.c:reset_cl_only_for_ff", "src/convolutional_layers.c:reset_cl_for_edge_popup", "src/convolutional_layers.c:make_the_cl_only_for_ff", "src/convolutional_layers.c:free_convolutional"]}
{"id": "C158", "title": "Models in memory: build, copy, set the loss, free", "statement": "A model built of layers that own their arrays owns them and its own tables and has no loss; all other memory is as before. `copy_model` of a model without layers that are only dropout yields a model of the same shape, loss and rates, with copies of all layers in their order, the weights of the loss and a cleared error; it shares no block with the source, and source and copy can each be freed without touching the other. `free_model` releases exactly the blocks of the model, each once. `set_model_error` replaces the error by a cleared one of the given size and copies the given weights; everything else in the model stays. Three things a user would expect are false: copying a model with a layer that is only dropout is undefined, setting the loss with the weights the model already holds is a use after free, and setting a loss without weights keeps the weights of the old loss, of the old size.", "quantifier": "every list of fully connected, convolutional and residual layers with any flags and sizes, every memory, every loss and dimension", "why_tests_cant": "whether every block of a nested object is released once and none is shared depends on the combination of all layers and flags", "anchors": ["src/model.c:network", "src/model.c:copy_model", "src/model.c:free_model", "src/model.c:set_model_error", "src/residual_layers.c:residual", "src/residual_layers.c:copy_rl", "src/residual_layers.c:free_residual"]}
{"id": "C159", "title": "Auto-encoders and duelling networks in memory", "statement": "An auto-encoder made of two models holds copies of both that share nothing with them, and a copy of an auto-encoder is independent of it. A duelling network made of five models owns them, has evenly spaced atoms from v_min to v_max and cleared arrays; its copy has copies of the five models in their order, the same sizes, range and kind, and original and copy can each be freed without touching the other; freeing releases every block exactly once. Freeing an auto-encoder should release every block, but the latent code z is never released: copying an auto-encoder and freeing the copy n times leaves n blocks behind. Copying with a layer that is only for dropout ends the program.", "quantifier": "all memories, models with any layers, sizes, flags and losses, and any number of copies", "why_tests_cant": "leaks and double frees of nested objects depend on all layers and on how often objects are copied", "anchors": ["src/vae_model.c:variational_auto_encoder_model", "src/vae_model.c:copy_vae_model", "src/vae_model.c:free_vae_model", "src/dueling_categorical_dqn.c:dueling_categorical_dqn_init", "src/dueling_categorical_dqn.c:copy_dueling_categorical_dqn", "src/dueling_categorical_dqn.c:free_dueling_categorical_dqn"]}
{"id": "C160", "title": "Pasting whole networks onto others", "statement": "Pasting a model on a model of the same architecture makes every learned array of the target (weights, biases, scores, moments) equal to that of the source, layer by layer in every position, keeps the target's blocks, shape and loss, and leaves the source and all other memory as they were; likewise for auto-encoders and duelling networks, where the choice of quantile regression is taken over too. A copy can always be pasted back on its source. Pasting should also bring over the powers of the rates of the optimiser or refuse targets with fewer layers; it does neither: the target keeps its own powers next to the moments of the source, and a shorter target is read out of bounds.", "quantifier": "all memories and models with any numbers of layers, sizes, flags and contents", "why_tests_cant": "which arrays of nested layers are brought over depends on the flags of every layer in both networks", "anchors": ["src/model.c:paste_model", "src/residual_layers.c:paste_rl", "src/vae_model.c:paste_vae_model", "src/dueling_categorical_dqn.c:paste_dueling_categorical_dqn"]}
{"id": "C161", "title": "Resetting whole networks between samples", "statement": "Resetting a model clears the gradients, the work arrays and the error of every layer at any depth, makes the dropout masks keep everything, draws new noise, and leaves weights, biases, scores, optimiser arrays, tables, the weights of the loss and all other memory as they were; resetting an auto-encoder or a duelling network does so for all its models and clears its own arrays, except the support. A copy of a model can always be reset. A model stripped for inference should be resettable too, but resetting writes through a null pointer.", "quantifier": "all memories and models with any numbers of layers, sizes, flags and contents, and all draws of noise", "why_tests_cant": "an array forgotten by a reset shows only for the combination of flags that uses it, at any depth, on the second sample", "anchors": ["src/model.c:reset_model", "src/residual_layers.c:reset_rl", "src/convolutional_layers.c:reset_cl_without_learning_parameters", "src/vae_model.c:reset_vae_model", "src/dueling_categorical_dqn.c:reset_dueling_categorical_dqn"]}
{"id": "C162", "title": "An LSTM layer owns its memory from construction to freeing", "statement": "Building an LSTM layer gives it exactly the arrays its flags call for in fresh memory with the documented first contents; freeing releases each of them once and nothing else; a copy is independent and equal in everything learned; pasting transfers everything learned; resetting clears gradients and the window, opens the dropout masks and recomputes rankings and active outputs; stripping removes exactly what only training needs.", "quantifier": "all accepted flags and sizes, all memory contents, all learned values", "why_tests_cant": "memory errors and lost optimiser state depend on combinations of flags and on the order of operations, over unbounded sizes", "anchors": ["src/recurrent_layers.c: recurrent_lstm", "src/recurrent_layers.c: free_recurrent_lstm", "src/recurrent_layers.c: copy_lstm", "src/recurrent_layers.c: paste_lstm", "src/recurrent_layers.c: reset_lstm", "src/recurrent_layers.c: reset_lstm_only_for_ff", "src/recurrent_layers.c: make_the_lstm_only_for_ff", "src/recurrent_layers.c: get_used_outputs_lstm"]}
{"id": "C163", "title": "Life of recurrent networks in memory", "statement": "From LSTM layers in any order, recurrent_network makes a network that holds them in order of their numbers and owns them, the table of the layers and a right sla. free_rmodel frees every block once. copy_rmodel gives an independent network with everything learned, the rates and a right sla. paste_rmodel gives the target what the source has learned and changes nothing else. reset_rmodel and reset_rmodel_only_for_ff make every layer ready for the next sequence and keep what is learned. make_the_rmodel_only_for_ff gives back gradients and optimiser arrays, and the network can still be reset for the pass forward and freed.", "quantifier": "every network of any number of layers of any sizes and flags, every state of memory, every order of the given layers", "why_tests_cant": "memory errors, leaks and lost arrays depend on sizes, flags and the history of the heap; a test sees one shape and usually not the error", "anchors": ["src/rmodel.c:recurrent_network", "src/rmodel.c:free_rmodel", "src/rmodel.c:copy_rmodel", "src/rmodel.c:paste_rmodel", "src/rmodel.c:reset_rmodel", "src/rmodel.c:reset_rmodel_only_for_ff", "src/rmodel.c:make_the_rmodel_only_for_ff"]}
{"id": "C164", "title": "A firefly step moves the dim candidates towards brighter ones and leaves the brightest alone", "statement": "The firefly update of the ant colony search runs without undefined behaviour for any candidates, pheromones, temperature and draws. Per weight, the candidates are ranked by pheromone; those ranked past the firefly share do not move, and each of the others chooses one of them with a probability proportional to its pheromone raised to 1/temperature and flies towards it if it is strictly brighter. A draw in [0,1] always chooses. A flying candidate ends within half a step of a point between it and its choice, at a fraction between beta_min and beta_zero of the way. A candidate that no other outshines keeps its value, and nothing but values changes. The movers should be the dimmest candidates: this fails, since the ranking is not by brightness, and with pheromones of equal whole part there is no ranking at all.", "quantifier": "all candidates of a weight, pheromones, firefly shares, parameters and draws", "why_tests_cant": "the choice depends on real-valued draws and on the ranking of arbitrarily many candidates; a test fixes the seed", "anchors": ["src/aco_process.c:update_fa_nodes", "src/utils.c:sort"]}
{"id": "C165", "title": "Copying a genome copies its graph and freeing it releases all of it once", "statement": "Copying a genome of the neuro-evolution code gives the same graph on newly allocated nodes and connections: numbers, values, weights, flags and the order of every array are the same, and every pointer goes to the copy of what the original's pointer goes to; the original and all else in memory stay as they are. Freeing a genome whose connection numbers lie between one and the given count releases each node and each connection exactly once, although every connection is reached from both of its ends, and nothing else. After copying either genome can be freed and the other stays whole. Switching on a bias in a copy should work: it reads a field that was never written. Freeing with a count below a connection's number runs outside an array.", "quantifier": "all genomes in memory with distinct node and connection numbers, of any size and shape, and all counts", "why_tests_cant": "memory errors on shared pointers depend on the shape of the graph; a test that does not crash shows nothing about other shapes", "anchors": ["src/neat_utils.c:copy_genome", "src/neat_utils.c:free_genome", "src/mutations.c:activate_bias", "src/genome.h:node"]}
{"id": "C166", "title": "A whale step moves each candidate by exactly one of three rules and exploits once alpha is small", "statement": "The whale update of the ant colony search runs without undefined behaviour for any candidates and draws once a best value is known. A candidate that has the best value stays. Any other candidate, by its draws, encircles the best value, or spirals around it, or is drawn to one candidate chosen in proportion to pheromone raised to 1/temperature among those ranked past the share, or uniformly if the draw chooses none; candidates that moved earlier in the step count with their new values. Nothing but values changes. With alpha below one no candidate searches any more, and each ends within weight times alpha of its distance from the scaled best value, or within weight times e to |beta| of its distance from the best value.", "quantifier": "all candidates of a weight, pheromones, shares, parameters and draws", "why_tests_cant": "the outcome depends on real-valued draws and on moves made earlier in the same step; a test fixes the seed", "anchors": ["src/aco_process.c:update_woa_nodes", "src/utils.c:sort"]}
{"id": "C167", "title": "Gravitational steps attract, limit the speed and come to rest", "statement": "Both gravitational updates of the ant colony search run if two candidates of a weight have different pheromones, and lose none. All candidates move by the state before the step. The pull on a candidate never points away from all others. No velocity set by a step is above alpha times the spread of the values times one minus the share of iterations done to the power h. At the last iteration the search should be at rest: true of the swarm variant, false of the plain one, which multiplies every value by exp(pow(-1, omega)). In the swarm variant the brightest candidate should lead: false, all are drawn to the largest value, and the candidate that has it never moves, whatever its pheromone.", "quantifier": "all candidates of a weight, pheromones, parameters, iterations and draws", "why_tests_cant": "real-valued inputs and draws; a test on some runs shows neither a bound nor the lack of a drift", "anchors": ["src/aco_process.c:update_gsa_nodes", "src/aco_process.c:update_psogsa_nodes"]}
{"id": "C168", "title": "Batch normalisation run instance by instance is batch normalisation", "statement": "Batch normalisation in two steps, the first run once and the second once for each instance, leaves the same means, variances, normalised vectors and outputs as batch normalisation of the whole batch at once; the same holds for the errors of scale, shift and inputs of its backward pass. The instances may be taken in any order, and the elementary updates of different instances in any interleaving.", "quantifier": "all batches, sizes, inputs, parameters, orders of the instances and interleavings of their updates", "why_tests_cant": "the orders and interleavings of threads cannot be enumerated, and a test on one input does not show equality on all", "anchors": ["src/normalization.c:batch_normalization_feed_forward_first_step", "src/normalization.c:batch_normalization_feed_forward_second_step", "src/normalization.c:batch_normalization_back_prop_first_step", "src/normalization.c:batch_normalization_back_prop_second_step"]}
{"id": "C169", "title": "The swarm parameters follow their schedules over the iterations", "statement": "Over the iterations of the ant colony search the gravity falls and stays strictly between zero and its initial constant; the firefly step falls; the whale parameter alpha falls from 2 to 0 and is below one exactly in the second half, so that no whale searches any more there. The firefly step should fade out: it is still 0.2, half its bound, at the last iteration. The whale weight should be a weight: it is negative from four fifths of the iterations on and -1 at the end. The pull of a particle's own best should give way to the common one: both rise, and in the second half the own one is the larger. The factor lambda should have a value in every iteration: in the last quarter its function returns none.", "quantifier": "all numbers of iterations, iterations and parameters", "why_tests_cant": "statements about all real iterations and parameters", "anchors": ["src/aco_process.c:update_gsa_params", "src/aco_process.c:update_fa_params", "src/aco_process.c:update_woa_params", "src/aco_process.c:update_pso_params", "src/aco_process.c:get_lambda_pso", "src/aco_process.c:get_lvalue_pso"]}
{"id": "C170", "title": "A search tree is built, grown and freed without leaks", "statement": "Over any number of simulations with any choices of actions the tree search uses no freed or foreign memory, and freeing the tree leaves the memory as before it was built, without the initial state, which the tree takes over; blocks of others are not touched. A node is full exactly if each of its cells has an edge; an added edge goes to the first free cell if the last cell is free. An edge added by the user should belong to the tree: it is not freed with it, and a later expansion of that node overruns an array. A free cell should be used before the array grows: if the last cell is used the array grows anyway.", "quantifier": "all numbers of actions and layers, memories, numbers of simulations and choices", "why_tests_cant": "needs every history of simulations and the absence of leaks in all of them", "anchors": ["src/mcts.c:init_mcts_node", "src/mcts.c:free_mcts_node", "src/mcts.c:mcts_node_add_edge", "src/mcts.c:node_is_full_of_edges", "src/mcts.c:init_mcts", "src/mcts.c:free_mcts", "src/mcts.c:visit_node"]}
{"id": "C171", "title": "The noise at the root of the search is a random probability vector shaped by its concentration", "statement": "The noise mixed into the prior of the root of the Monte-Carlo tree search has one entry for each action, the entries add up to one and none of them is negative, whatever numbers are drawn; the mixture with the prior adds up to one; and the concentration asked for shapes the noise.", "quantifier": "all concentrations, numbers of actions, shares of noise, priors and sequences of draws", "why_tests_cant": "A test fixes the seed of the generator: the draws whose sum is zero, which give a negative entry, or for which the concentration cancels are all of them or rare ones, which no seed shows.", "anchors": ["src/math_functions.c:random_gamma", "src/math_functions.c:dirichlet_sample", "src/mcts.c:visit_node"]}
{"id": "C172", "title": "The noise of noisy layers is the product of one number for each input and one for each output", "statement": "When the noise of a noisy layer is drawn, the noise of each weight is the product of the number of its input and that of its output, the noise of each bias is the number of its output, these are the signed square roots of normal draws, and exactly one draw is taken for each input and each output.", "quantifier": "all sizes of layers, draws and earlier contents of the arrays", "why_tests_cant": "The noise is random, so a test can only compare it with itself, and a wrong index into the flat array shows only for particular shapes.", "anchors": ["src/math_functions.c:factorised_gaussian", "src/math_functions.c:set_factorised_noise", "src/fully_connected_layers.c:fully_connected"]}
{"id": "C173", "title": "Means, deviations and products of matrices are those of mathematics", "statement": "The mean of a vector is between the bounds of its entries and the point with the least squared differences to them; the deviation is the root of the mean of those, moves with the scale of the vector and not with its offset; and the product of two matrices in flat arrays is their product, written within the third array, so that products of three matrices agree in both orders.", "quantifier": "all vectors, scales, offsets and sizes, and all matrices over any commutative ring with all earlier contents of the third array", "why_tests_cant": "Single vectors and square matrices of zeros and ones do not tell the variance from the deviation, rows from columns or a product that is stored from one that is added.", "anchors": ["src/math_functions.c:mean", "src/math_functions.c:std", "src/math_functions.c:mat_mul"]}
{"id": "C174", "title": "Adjusting a genome lists its nodes and connections in the order of their innovation numbers", "statement": "After a genome has been adjusted its nodes are listed in ascending order of their innovation numbers and so are the incoming and outgoing connections of every node; no node or connection is lost, doubled or otherwise changed; and two listings of the same genome become the same.", "quantifier": "all genomes whose nodes and connections are live, with any number of nodes and connections in any order", "why_tests_cant": "The order depends on how the genome was grown: a test has a few genomes of few nodes, and a lost or doubled connection shows only for particular orders.", "anchors": ["src/neat_utils.c:adjust_genome", "src/utils.c:quick_sort_int"]}
{"id": "C175", "title": "Nodes of the graph of the ant colony are built, linked and freed without leaks", "statement": "A node of the graph of the ant colony can be built from the structures handed over to it, linked with any number of incoming and outgoing edges, which it lists in the order they were added and which then start or end at it, and freed, after which the memory is as before without those structures.", "quantifier": "all nodes (of weights, biases, activations or layers, of all sizes), states of the memory and sequences of added edges", "why_tests_cant": "A leaked or twice freed block does not change any output, and shows only under a checker for the one history the test runs.", "anchors": ["src/aco_init.c:init_aco_node", "src/aco_init.c:add_aco_edge", "src/aco_init.c:free_aco_node", "src/aco_init.c:init_params", "src/aco_init.c:free_params"]}
{"id": "C176", "title": "Genomes come back from their files", "statement": "A genome saved with save_genome and loaded with load_genome under the counter of its population has the same inputs, outputs, nodes, connections and fitness. Saved with save_genome_complete it is loaded without being told the counter, and the two counters can be read from it afterwards. Loaders should notice counters that are too small, files of the other kind and files that were cut.", "quantifier": "every genome with distinct connection numbers within the counter, every genome of a population of any history, every fitness, every cut of every file", "why_tests_cant": "Files are loaded with another counter, by the other loader or after a crash while saving only in runs nobody tests, and what is then read was never written", "anchors": ["src/neat_utils.c: save_genome, save_genome_complete, load_genome, load_genome_complete, get_global_innovation_number_connections_from_genome, get_global_innovation_number_nodes_from_genome"]}
{"id": "C177", "title": "A policy gradient learner is made and freed whole", "statement": "init_ddpg ends the program if a network is null, an error was not set, a last layer is residual or the size of a frame differs from the input of the first network, and otherwise makes a learner with eight copies for each place in the batch and three rows for each frame. free_ddpg frees the four networks and all that was made, each block once.", "quantifier": "every four networks, every list of layers, every size of the batch, every number of frames, every memory", "why_tests_cant": "A leak shows only in long runs that make many learners, and a residual last layer behind unused rows only with networks nobody tests", "anchors": ["src/drl.c: init_ddpg, free_ddpg"]}
{"id": "C178", "title": "The unbounded pheromone update is that of the ant system", "statement": "After update_pheromones_no_min_max every edge of the graph has p times its pheromone plus, for every ant, the ant's pheromone once for each time its trail passes the edge. No edge stays flagged, the order of the ants does not matter, and all pheromone together becomes p times what it was plus what each ant carries times the length of its way.", "quantifier": "every graph, every number of ants, every trail also with loops and trails that end early, every pheromone", "why_tests_cant": "Edges passed by several ants or more than once by the same are rare in a small test, and whether they evaporate once or several times shows only there", "anchors": ["src/aco_iterate.c: update_aco_tracker_next_according_to_path_no_min_max", "src/aco_process.c: update_path_with_pheromone_no_min_max, update_pheromones_no_min_max, update_graph_pheromone_from_trail_no_min_max"]}
{"id": "C179", "title": "Transformers are copied and freed whole", "statement": "The copy of a transformer has as many encoders and decoders, the same matrix of connections and the same rates in blocks of its own. Copy and original can be freed in either order; all their blocks are freed once and no other, and freeing the copy leaves the original whole. This should also hold of transformers made of encoders alone or without a matrix.", "quantifier": "every number of encoders and decoders, every matrix, every memory", "why_tests_cant": "Transformers of encoders alone are copied and freed only in programs for classification, and a null matrix that is read may go unnoticed", "anchors": ["src/transformer.c: transf, free_transf, free_transf_without_learning_parameters, copy_transf, copy_transf_without_learning_parameters"]}
{"id": "C180", "title": "Transformers are updated part by part with the same powers of the betas", "statement": "One call of update_transformer updates every network and every norm of every encoder and decoder, each in its turn, with the running powers of the betas that were passed, and leaves these powers as they were, so that in training the update number n uses the powers n+1.", "quantifier": "every number of encoders and decoders, of heads and norms, every algorithm, every number of updates", "why_tests_cant": "The powers only enter through a correction that hides among noise, and a division by zero at the first step looks like diverging training", "anchors": ["src/update.c: update_transformer, update_transformer_encoder, update_transformer_decoder, update_training_parameters, update_model"]}
{"id": "C181", "title": "Encoders and decoders are copied and freed whole", "statement": "The copy of an encoder or decoder of a transformer has the same networks, normalisation layers and settings as the original in the same places, in memory of its own; an encoder or decoder and its copy can be freed in any order, and then all their blocks are free and no other, each freed once.", "quantifier": "every encoder and decoder that the constructors make, with any number of heads, any flags for residual connections and normalisation, every state of the memory", "why_tests_cant": "A block freed twice or left behind, or two networks swapped in the copy, shows only for some combination of flags or much later", "anchors": ["src/transformer_encoder.c: transformer_encoder_layer, copy_transformer_encoder, free_transformer_encoder_layer, free_transformer_wrapped_encoder_layer", "src/transformer_decoder.c: transformer_decoder_layer, copy_transformer_decoder, free_transformer_decoder_layer"]}
{"id": "C182", "title": "Gradients of recurrent models are summed over a batch", "statement": "sum_rmodels_partial_derivatives adds to every gradient the model trains with, of every layer, gate and normalisation, the sum of that gradient over all models of the batch, each once, and changes nothing else; the order of the models does not matter and the batch can be summed in parts.", "quantifier": "every number and shape of layers, every training mode, every batch", "why_tests_cant": "A gradient that is left out or added twice for one mode or one normalisation only slows training", "anchors": ["src/math_functions.c: sum_rmodels_partial_derivatives, sum_rmodel_partial_derivatives, sum_lstm_layers_partial_derivatives"]}
