{
 "claims": [
  {
   "property": "C01",
   "status": "proved",
   "theorems": [
    "LLab.Sort.C01_quick_sort"
   ],
   "note": "Covers quick_sort and quick_sort_int; out-of-bounds accesses are excluded by the theorem."
  },
  {
   "property": "C02",
   "status": "partial",
   "theorems": [
    "LLab.Sort.C02_sort_partial",
    "LLab.Sort.C02_sort_already_sorted_partial",
    "LLab.Sort.C02_sort_witnesses",
    "LLab.Sort.C02_sort_refuted"
   ],
   "note": "Permutation and stability on sorted input proved; sortedness is false in the code and refuted by witness."
  },
  {
   "property": "C03",
   "status": "partial",
   "theorems": [
    "LLab.Utils.C03_shuffle_one",
    "LLab.Utils.C03_shuffle_two",
    "LLab.Utils.C03_shuffle_four_partial",
    "LLab.Utils.C03_shuffle_five_partial",
    "LLab.Utils.C03_int_vector_refuted",
    "LLab.Utils.C03_shuffle_until_length"
   ],
   "note": "Proved for the one- and two-array shuffles and for the matrices and float vector of the larger ones; the integer vectors are not permuted by the code (refuted by witness)."
  },
  {
   "property": "C04",
   "status": "proved",
   "theorems": [
    "LLab.Utils.C04_every_ordering_reachable",
    "LLab.Utils.C04_large_arrays_refuted"
   ],
   "note": "Proved for n*n <= RAND_MAX; C04_large_arrays_refuted shows that a bound is needed."
  },
  {
   "property": "C05",
   "status": "proved",
   "theorems": [
    "LLab.Utils.C05_itoa_round_trip",
    "LLab.Utils.C05_itoa_injective",
    "LLab.Utils.C05_itoa_canonical",
    "LLab.Utils.C05_itoa_int_min",
    "LLab.Utils.C05_file_names_distinct"
   ],
   "note": ""
  },
  {
   "property": "C06",
   "status": "proved",
   "theorems": [
    "LLab.Utils.C06_argmax",
    "LLab.Utils.C06_argmax_failure"
   ],
   "note": ""
  },
  {
   "property": "C07",
   "status": "proved",
   "theorems": [
    "LLab.Utils.C07_confusion_counts",
    "LLab.Utils.C07_metrics_range",
    "LLab.Utils.C07_accuracy_full",
    "LLab.Utils.C07_confusion_total"
   ],
   "note": ""
  },
  {
   "property": "C08",
   "status": "proved",
   "theorems": [
    "LLab.Dict.C08_dictionary",
    "LLab.Dict.C08_dictionary_fixed_length"
   ],
   "note": ""
  },
  {
   "property": "C09",
   "status": "proved",
   "theorems": [
    "LLab.Files.C09_effect",
    "LLab.Files.C09_history",
    "LLab.Files.C09_exclusive",
    "LLab.Files.C09_release_restores"
   ],
   "note": "Calls are atomic in the model; the code takes no lock."
  },
  {
   "property": "C10",
   "status": "proved",
   "theorems": [
    "LLab.Replay.C10_ring",
    "LLab.Replay.C10_slots_distinct"
   ],
   "note": ""
  },
  {
   "property": "C11",
   "status": "proved",
   "theorems": [
    "LLab.Replay.C11_heap",
    "LLab.Replay.C11_root_is_max"
   ],
   "note": ""
  },
  {
   "property": "C12",
   "status": "proved",
   "theorems": [
    "LLab.Replay.C12_cumulative_tree",
    "LLab.Replay.C12_ranked_insertions"
   ],
   "note": ""
  },
  {
   "property": "C13",
   "status": "partial",
   "theorems": [
    "LLab.Replay.C13_ranked_in_range",
    "LLab.Replay.C13_rewards_refuted"
   ],
   "note": "Ranked sampler: in range for every draw and state. Reward sampler: in range whenever some remaining member exists and 0<r<=1 (C59_rewards_proportional); returns one past the end when the class is exhausted (refuted)."
  },
  {
   "property": "C14",
   "status": "proved",
   "theorems": [
    "LLab.Replay.C14_epsilon",
    "LLab.Replay.C14_reaches_minimum"
   ],
   "note": ""
  },
  {
   "property": "C15",
   "status": "partial",
   "theorems": [
    "LLab.Schedule.C15_not_before_period_partial",
    "LLab.Schedule.C15_period_refuted",
    "LLab.Schedule.C15_epoch_zero_refuted",
    "LLab.Schedule.C15_annealing_refuted",
    "LLab.Schedule.C15_minimum_refuted",
    "LLab.Schedule.C15_values_partial",
    "LLab.Schedule.C15_limits_partial"
   ],
   "note": "Decay is exact before the first period and stays in the stated limits where the code checks them; period boundary, epoch 0, annealing and the minimum are violated by the code (refuted by witness)."
  },
  {
   "property": "C16",
   "status": "proved",
   "theorems": [
    "LLab.Categorical.C16_projection",
    "LLab.Categorical.C16_mass_and_mean",
    "LLab.Categorical.C16_terminal",
    "LLab.Categorical.C16_error"
   ],
   "note": ""
  },
  {
   "property": "C17",
   "status": "proved",
   "theorems": [
    "LLab.Dueling.C17_head",
    "LLab.Dueling.C17_distribution",
    "LLab.Dueling.C17_offset"
   ],
   "note": ""
  },
  {
   "property": "C18",
   "status": "partial",
   "theorems": [
    "LLab.Softmax.C18_softmax",
    "LLab.Softmax.C18_shift",
    "LLab.Softmax.C18_masked",
    "LLab.Softmax.C18_overflow_refuted"
   ],
   "note": "Exact in real arithmetic; softmax does not shift by the maximum so single-precision exponentials overflow (C18_overflow_refuted)."
  },
  {
   "property": "C19",
   "status": "proved",
   "theorems": [
    "LLab.Softmax.C19_softmax_gradient",
    "LLab.Softmax.C19_masked_gradient"
   ],
   "note": ""
  },
  {
   "property": "C20",
   "status": "proved",
   "theorems": [
    "LLab.Act.C20_sigmoid",
    "LLab.Act.C20_sigmoid_given",
    "LLab.Act.C20_tanh",
    "LLab.Act.C20_relu",
    "LLab.Act.C20_leaky_relu",
    "LLab.Act.C20_elu",
    "LLab.Act.C20_values"
   ],
   "note": ""
  },
  {
   "property": "C21",
   "status": "partial",
   "theorems": [
    "LLab.Loss.C21_mse",
    "LLab.Loss.C21_cross_entropy",
    "LLab.Loss.C21_cross_entropy_softmax",
    "LLab.Loss.C21_kl",
    "LLab.Loss.C21_entropy",
    "LLab.Loss.C21_focal",
    "LLab.Loss.C21_modified_huber",
    "LLab.Loss.C21_huber_refuted",
    "LLab.Loss.C21_huber_partial",
    "LLab.Loss.C21_contrastive_partial",
    "LLab.Loss.C21_contrastive_refuted"
   ],
   "note": "All losses proved except huber (sign wrong on one side, refuted; partial on the rest) and contrastive (a path without return value, refuted)."
  },
  {
   "property": "C22",
   "status": "proved",
   "theorems": [
    "LLab.Clip.C22_clip",
    "LLab.Clip.C22_copy_clipped"
   ],
   "note": ""
  },
  {
   "property": "C23",
   "status": "proved",
   "theorems": [
    "LLab.FC.C23_feed_forward"
   ],
   "note": ""
  },
  {
   "property": "C24",
   "status": "proved",
   "theorems": [
    "LLab.FC.C24_back_prop",
    "LLab.FC.C24_batch"
   ],
   "note": ""
  },
  {
   "property": "C25",
   "status": "proved",
   "theorems": [
    "LLab.EdgePopup.C25_forward",
    "LLab.EdgePopup.C25_zeroing",
    "LLab.EdgePopup.C25_backward",
    "LLab.EdgePopup.C25_scores"
   ],
   "note": "Counts are computed exactly (rational k); forward, zeroing for every fraction, and both backward passes."
  },
  {
   "property": "C26",
   "status": "proved",
   "theorems": [
    "LLab.Conv.C26_sizes",
    "LLab.Conv.C26_feed_forward"
   ],
   "note": ""
  },
  {
   "property": "C27",
   "status": "proved",
   "theorems": [
    "LLab.Conv.C27_back_prop"
   ],
   "note": ""
  },
  {
   "property": "C28",
   "status": "proved",
   "theorems": [
    "LLab.TConv.C28_adjoint"
   ],
   "note": ""
  },
  {
   "property": "C29",
   "status": "partial",
   "theorems": [
    "LLab.Pool.C29_max_pooling_partial",
    "LLab.Pool.C29_max_pooling_refuted",
    "LLab.Pool.C29_sizes"
   ],
   "note": "Proved when every window has an entry of at least -999999, the code's initial maximum; refuted for lower inputs."
  },
  {
   "property": "C30",
   "status": "partial",
   "theorems": [
    "LLab.Pool.C30_max_conservation_partial",
    "LLab.Pool.C30_max_gradient_partial",
    "LLab.Pool.C30_max_overlap_refuted",
    "LLab.Pool.C30_average_forward",
    "LLab.Pool.C30_average_gradient_partial",
    "LLab.Pool.C30_average_overlap_refuted"
   ],
   "note": "Proved for non-overlapping windows; refuted for overlapping ones, where the code overwrites instead of accumulating."
  },
  {
   "property": "C31",
   "status": "proved",
   "theorems": [
    "LLab.Attention.C31_prefix",
    "LLab.Attention.C31_attention",
    "LLab.Attention.C31_convex",
    "LLab.Attention.C31_causal"
   ],
   "note": ""
  },
  {
   "property": "C32",
   "status": "partial",
   "theorems": [
    "LLab.Attention.C32_merge_partial",
    "LLab.Attention.C32_split_partial",
    "LLab.Attention.C32_merge_refuted",
    "LLab.Attention.C32_multi_head_partial"
   ],
   "note": "Proved when key and value embeddings have the same size; refuted otherwise."
  },
  {
   "property": "C33",
   "status": "proved",
   "theorems": [
    "LLab.BatchNorm.C33_batch_norm"
   ],
   "note": ""
  },
  {
   "property": "C34",
   "status": "partial",
   "theorems": [
    "LLab.BatchNorm.C34_gamma_beta_partial",
    "LLab.BatchNorm.C34_input_error_refuted"
   ],
   "note": "Gamma and beta gradients proved; the input error is refuted by a witness."
  },
  {
   "property": "C35",
   "status": "proved",
   "theorems": [
    "LLab.L2Norm.C35_scaled_l2_forward",
    "LLab.L2Norm.C35_scaled_l2_gradient"
   ],
   "note": ""
  },
  {
   "property": "C36",
   "status": "proved",
   "theorems": [
    "LLab.LSTM.C36_lstm_bounded"
   ],
   "note": ""
  },
  {
   "property": "C37",
   "status": "partial",
   "theorems": [
    "LLab.ClipGrad.C37_joint_partial",
    "LLab.ClipGrad.C37_freeze_biases_refuted",
    "LLab.ClipGrad.C37_layer_norm_refuted",
    "LLab.ClipGrad.C37_rmodel_refuted",
    "LLab.ClipGrad.C37_rmodel_bounds_refuted",
    "LLab.ClipGrad.C37_general_refuted",
    "LLab.ClipGrad.C37_general_partial",
    "LLab.ClipGrad.C37_general_large_partial"
   ],
   "note": "Joint clipping proved for layers in modes other than FREEZE_BIASES and no layer normalisation; refutations give the bugs in the other cases."
  },
  {
   "property": "C38",
   "status": "partial",
   "theorems": [
    "LLab.Agc.C38_agc_partial",
    "LLab.Agc.C38_agc_refuted",
    "LLab.Agc.C38_kernels_partial"
   ],
   "note": "The adaptive clipping ratio is inverted in the code; the partial theorems give what it computes."
  },
  {
   "property": "C39",
   "status": "partial",
   "theorems": [
    "LLab.SumTree.C39_multithread",
    "LLab.SumTree.C39_race_free",
    "LLab.SumTree.C39_model_partial",
    "LLab.SumTree.C39_group_norm_refuted",
    "LLab.SumTree.C39_layer_norm_refuted",
    "LLab.SumTree.C39_noisy_refuted",
    "LLab.SumTree.C39_residual_scores_refuted"
   ],
   "note": "Every interleaving of the reduction threads gives the sequential sum; the pairwise sum is exact for models without normalisation, noise and residual edge-popup. Refuted: group norm sums d_beta twice and never d_gamma, layer norm never sums d_beta, noisy gradients never summed, residual score gradients only up to n_kernels."
  },
  {
   "property": "C40",
   "status": "partial",
   "theorems": [
    "LLab.MultiCore.C40_each_once",
    "LLab.MultiCore.C40_at_most_threads",
    "LLab.MultiCore.C40_zero_threads_partial",
    "LLab.MultiCore.C40_loss_partial",
    "LLab.MultiCore.C40_loss_refuted"
   ],
   "note": "Each sample exactly once for every interleaving and threads >= 1. Refuted for the loss driver, which drops batch mod threads samples."
  },
  {
   "property": "C41",
   "status": "proved",
   "theorems": [
    "LLab.Optim.C41_nesterov_zero",
    "LLab.Optim.C41_nesterov_lookahead",
    "LLab.Optim.C41_adam_moments",
    "LLab.Optim.C41_second_moment_nonneg",
    "LLab.Optim.C41_adam_constant",
    "LLab.Optim.C41_adam_step_bound",
    "LLab.Optim.C41_diff_grad",
    "LLab.Optim.C41_adamod",
    "LLab.Optim.C41_radam"
   ],
   "note": ""
  },
  {
   "property": "C42",
   "status": "partial",
   "theorems": [
    "LLab.Update.C42_fcl",
    "LLab.Update.C42_cl_partial",
    "LLab.Update.C42_cl_once",
    "LLab.Update.C42_model_partial",
    "LLab.Update.C42_frozen",
    "LLab.Update.C42_freeze_biases",
    "LLab.Update.C42_group_norm_refuted",
    "LLab.Update.C42_layer_norm_batch_refuted",
    "LLab.Update.C42_fcl_history",
    "LLab.Update.C42_cl_history",
    "LLab.Update.C42_lstm_history",
    "LLab.Update.C42_lstm",
    "LLab.Update.C42_lstm_frozen",
    "LLab.Update.C42_lstm_freeze_biases_refuted",
    "LLab.Update.C42_lstm_scores_partial",
    "LLab.Update.C42_lstm_scores_refuted",
    "LLab.Update.C42_rmodel_norm_partial",
    "LLab.Update.C42_rmodel_radam_refuted"
   ],
   "note": "Closed form after any number of rounds for all optimisers on fully-connected, convolutional and LSTM layers; refuted for group normalisation, layer-norm batches, LSTM FREEZE_BIASES/score modes and radam on recurrent normalisation."
  },
  {
   "property": "C43",
   "status": "partial",
   "theorems": [
    "LLab.SlowPaste.C43_fcl",
    "LLab.SlowPaste.C43_fcl_mismatch",
    "LLab.SlowPaste.C43_bn",
    "LLab.SlowPaste.C43_l2",
    "LLab.SlowPaste.C43_cl_partial",
    "LLab.SlowPaste.C43_cl_score_state_refuted",
    "LLab.SlowPaste.C43_lstm",
    "LLab.SlowPaste.C43_lstm_ranking_refuted"
   ],
   "note": "Proved for fully-connected, normalisation and LSTM layers; convolutional layers keep the score state (refuted) and LSTM rankings are not rebuilt (refuted)."
  },
  {
   "property": "C44",
   "status": "proved",
   "theorems": [
    "LLab.Flat.C44_params",
    "LLab.Flat.C44_weights",
    "LLab.Flat.C44_scores",
    "LLab.Flat.C44_rmodel",
    "LLab.Flat.C44_dueling"
   ],
   "note": "Proved for every model: parameters, weights and scores of fully-connected, convolutional and residual layers, recurrent models and dueling networks."
  },
  {
   "property": "C45",
   "status": "partial",
   "theorems": [
    "LLab.Save.C45_bn",
    "LLab.Save.C45_l2",
    "LLab.Save.C45_cl",
    "LLab.Save.C45_rl",
    "LLab.Save.C45_fcl_partial",
    "LLab.Save.C45_k_percentage_refuted",
    "LLab.Save.C45_lstm_partial",
    "LLab.Save.C45_lstm_refuted",
    "LLab.Save.C45_vector_partial",
    "LLab.Save.C45_vector_refuted",
    "LLab.Save.C45_twice_refuted",
    "LLab.Save.C45_sequence"
   ],
   "note": "Proved for batch normalisation, scaled L2 normalisation, convolutional and residual layers and sequences of them; for fully-connected layers all but k_percentage, for LSTM layers unless edge-popup is used in the forward pass only. Refuted: fully-connected k_percentage is not written (C45_k_percentage_refuted), a vector's array is lost (C45_vector_refuted), LSTM with forward-only edge-popup cannot be saved (C45_lstm_refuted), saving twice under one number and loading returns the first layer (C45_twice_refuted)."
  },
  {
   "property": "C46",
   "status": "partial",
   "theorems": [
    "LLab.Network.C46_network_partial",
    "LLab.Network.C46_count_refuted"
   ],
   "note": "Proved when the total number of positions passed equals the number of layers; refuted without it (more layers than declared are accepted or overflow an internal array)."
  },
  {
   "property": "C47",
   "status": "proved",
   "theorems": [
    "LLab.Neat.C47_innovation",
    "LLab.Neat.C47_wellformed",
    "LLab.Neat.C47_hidden",
    "LLab.Neat.C47_defined"
   ],
   "note": "Proved for every population reached by any history of weight mutations, removals, activations, additions, splits, crossovers, copies and frees, with every random choice; also that adding and splitting never leave an array (at least one input and one output). Adjacency lists are derived from one connection list; copy_genome is the identity of the abstract genome."
  },
  {
   "property": "C48",
   "status": "proved",
   "theorems": [
    "LLab.Neat.C48_child"
   ],
   "note": "Proved for any two genomes of a population reached by any history, every draw: exact description of the child's genes. That the parents are not modified is by construction of the model (crossover works on a copy)."
  },
  {
   "property": "C49",
   "status": "proved",
   "theorems": [
    "LLab.Species.C49_put",
    "LLab.Species.C49_delete",
    "LLab.Species.C49_create"
   ],
   "note": "Proved for every distance function, order of genomes and previous species list."
  },
  {
   "property": "C50",
   "status": "partial",
   "theorems": [
    "LLab.Neat.C50_self_partial",
    "LLab.Neat.C50_symmetric_partial",
    "LLab.Neat.C50_nonmatching_partial",
    "LLab.Neat.C50_value_partial",
    "LLab.Neat.C50_refuted"
   ],
   "note": "Refuted: two different genomes at distance 0 in one order and 1 in the other; only the genes of the genome with the higher last innovation number are counted. Proved: distance of a genome from itself is 0, symmetry when the highest innovation numbers differ, and the lower bound by the counted non-matching genes."
  },
  {
   "property": "C51",
   "status": "partial",
   "theorems": [
    "LLab.Cycles.C51_levelled_partial",
    "LLab.Cycles.C51_refuted"
   ],
   "note": "Refuted both ways: the check accepts a graph with a 2-cycle fed by a common structure, and rejects an acyclic chain with a shortcut. Proved for every finite graph whose connections go from one level to the next: accepted from every structure (and such graphs are acyclic)."
  },
  {
   "property": "C52",
   "status": "partial",
   "theorems": [
    "LLab.Ddpg.C52_terminal_partial",
    "LLab.Ddpg.C52_refuted",
    "LLab.Ddpg.C52_overflow_refuted"
   ],
   "note": "Refuted for every non-terminal transition with a non-zero target value: ddpg_train resets the target networks before it reads their output arrays, so the target is the bare reward (reward plus lambda when the last layer has dropout). Also refuted memory safety: inputx3 has m2_output*m3_output floats and m2_output+m3_output are written. Proved for terminal transitions."
  },
  {
   "property": "C53",
   "status": "proved",
   "theorems": [
    "LLab.Noise.C53_bounds",
    "LLab.Noise.C53_history"
   ],
   "note": "Proved for every state, draw and history, with ordered bounds."
  },
  {
   "property": "C54",
   "status": "proved",
   "theorems": [
    "LLab.Neat.C54_roundtrip",
    "LLab.Neat.C54_reachable"
   ],
   "note": "Proved for every well-formed genome and every reachable population; connections come back ordered by innovation number (same multiset)."
  },
  {
   "property": "C55",
   "status": "partial",
   "theorems": [
    "LLab.Utils.C55_reverse_ptr_partial",
    "LLab.Utils.C55_little_endian_partial",
    "LLab.Utils.C55_convert_data_never_converts",
    "LLab.Utils.C55_convert_data_refuted"
   ],
   "note": "reverse_ptr proved; swap_array_bytes_order works on the address of its parameter and is refuted."
  },
  {
   "property": "C56",
   "status": "partial",
   "theorems": [
    "LLab.Scores.C56_compare_partial",
    "LLab.Scores.C56_only_first_refuted",
    "LLab.Scores.C56_vector_refuted"
   ],
   "note": "compare_score_fcl exact when both or only the second score is usable; the first is lost when only it is usable (refuted); the vector variant never writes (refuted)."
  },
  {
   "property": "C57",
   "status": "partial",
   "theorems": [
    "LLab.Mcts.C57_probability_partial",
    "LLab.Mcts.C57_value",
    "LLab.Mcts.C57_statistics_refuted",
    "LLab.Mcts.C57_selection_refuted",
    "LLab.Mcts.C57_selection_partial"
   ],
   "note": "Proved: non-negative, sums to one, zero exactly where there is no child; and a selected root edge exists. Refuted: the call overwrites the visit counts, and the root selection can choose no edge (index -1)."
  },
  {
   "property": "C58",
   "status": "partial",
   "theorems": [
    "LLab.Replay.C58_write_back_single_partial",
    "LLab.Replay.C58_write_back_refuted"
   ],
   "note": "Exact when at most one position is written back; stale heap positions corrupt later updates (refuted)."
  },
  {
   "property": "C59",
   "status": "partial",
   "theorems": [
    "LLab.Replay.C59_proportional",
    "LLab.Replay.C59_zero_draw_refuted",
    "LLab.Replay.C59_rewards_proportional"
   ],
   "note": "Proved for every draw in (0,1] for both samplers; the draw 0, of probability 1/(RAND_MAX+1), can return an already chosen position (refuted at that boundary)."
  },
  {
   "property": "C60",
   "status": "proved",
   "theorems": [
    "LLab.Replay.C60_reward_classes"
   ],
   "note": ""
  },
  {
   "property": "C61",
   "status": "proved",
   "theorems": [
    "LLab.Replay.C61_n_step"
   ],
   "note": ""
  },
  {
   "property": "C62",
   "status": "partial",
   "theorems": [
    "LLab.SampleSoftmax.C62_in_range_partial",
    "LLab.SampleSoftmax.C62_single_action_refuted",
    "LLab.SampleSoftmax.C62_distribution_refuted"
   ],
   "note": "In range for vectors of at least two entries and draws away from the boundary; a single action and the distribution are refuted by witness."
  },
  {
   "property": "C63",
   "status": "partial",
   "theorems": [
    "LLab.TV.C63_loss_partial",
    "LLab.TV.C63_loss_refuted",
    "LLab.TV.C63_gradient_refuted"
   ],
   "note": "The loss loop skips part of the image (refuted, partial on what it sums) and the gradient disagrees with it (refuted)."
  },
  {
   "property": "C64",
   "status": "partial",
   "theorems": [
    "LLab.Vec.C64_elementwise",
    "LLab.Vec.C64_map",
    "LLab.Vec.C64_additional_mul_value",
    "LLab.Vec.C64_dot",
    "LLab.Vec.C64_prob_average",
    "LLab.Vec.C64_mat_mul",
    "LLab.Vec.C64_std_refuted"
   ],
   "note": "All primitives exact; std returns the variance, not its square root (refuted)."
  },
  {
   "property": "C65",
   "status": "partial",
   "theorems": [
    "LLab.FC.C65_forward",
    "LLab.FC.C65_backward_partial",
    "LLab.FC.C65_accumulation_refuted",
    "LLab.FC.C65_no_bias_refuted"
   ],
   "note": "Forward exact; backward exact for one sample with bias; accumulation over samples and layers without bias are refuted by witness."
  },
  {
   "property": "C66",
   "status": "partial",
   "theorems": [
    "LLab.EdgePopup.C66_used_outputs_partial",
    "LLab.EdgePopup.C66_fractional_refuted"
   ],
   "note": "Exact for whole counts on the fully connected branch; fractional counts refuted. The convolutional flag branch is not modelled."
  },
  {
   "property": "C67",
   "status": "proved",
   "theorems": [
    "LLab.TConv.C67_sizes",
    "LLab.TConv.C67_forward",
    "LLab.TConv.C67_backward"
   ],
   "note": ""
  },
  {
   "property": "C68",
   "status": "proved",
   "theorems": [
    "LLab.Attention.C68_attention_backward"
   ],
   "note": ""
  },
  {
   "property": "C69",
   "status": "partial",
   "theorems": [
    "LLab.BatchNorm.C69_final_statistics_partial",
    "LLab.BatchNorm.C69_final_statistics_refuted"
   ],
   "note": "Proved: the statistics are those of the first mini-batch only, so exact for a single mini-batch; refuted for more."
  },
  {
   "property": "C70",
   "status": "proved",
   "theorems": [
    "LLab.LSTM.C70_lstm_forward"
   ],
   "note": ""
  },
  {
   "property": "C71",
   "status": "partial",
   "theorems": [
    "LLab.LSTM.C71_bptt_gradient_partial",
    "LLab.LSTM.C71_window_one_refuted"
   ],
   "note": "Proved for one layer, every window of at least two steps; a window of one step reads past the stored pre-activations (refuted). C144 covers several layers. Group normalization between layers is not modelled."
  },
  {
   "property": "C72",
   "status": "partial",
   "theorems": [
    "LLab.LSTM.C72_input_error_refuted"
   ],
   "note": "False of the code: each unit overwrites the previous unit's contribution, and the candidate gate uses the sigmoid derivative. lstmDinput_eq gives what is computed."
  },
  {
   "property": "C73",
   "status": "partial",
   "theorems": [
    "LLab.Dueling.C73_value_gradient_partial",
    "LLab.Dueling.C73_advantage_refuted"
   ],
   "note": "Value stream: gradient proved. Advantage stream: the code assigns instead of accumulating (only the last action's error survives) and divides by n_atoms instead of action_size; refuted on a witness, exact effect in bpAdvantage_eq."
  },
  {
   "property": "C74",
   "status": "partial",
   "theorems": [
    "LLab.Categorical.C74_bootstrap_partial",
    "LLab.Categorical.C74_variants_refuted",
    "LLab.Categorical.C74_no_reset_refuted"
   ],
   "note": "Greedy with respect to the target network's distributions when its q_functions buffer is cleared; the code adds to that buffer without clearing it (refuted after a previous call), and the _opt variant projects the target network's distribution where the others project the online network's (refuted)."
  },
  {
   "property": "C75",
   "status": "partial",
   "theorems": [
    "LLab.Quantile.C75_opt_partial",
    "LLab.Quantile.C75_mid_partial",
    "LLab.Quantile.C75_plain_bounds_refuted",
    "LLab.Quantile.C75_plain_row_refuted"
   ],
   "note": "Gradient of the quantile Huber loss proved for the _opt variants; get_loss_for_qr_dqn reads the next action's quantiles and runs out of bounds for the last action (refuted). The multi-thread wrapper that passes an uninitialised error pointer (multi_core_dueling_categorical_dqn.c 37-38) is not modelled."
  },
  {
   "property": "C76",
   "status": "partial",
   "theorems": [
    "LLab.Quantile.C76_value_gradient",
    "LLab.Quantile.C76_advantage_partial",
    "LLab.Quantile.C76_advantage_refuted"
   ],
   "note": "Value stream proved; advantage stream proved when n_atoms = action_size and refuted for every other pair of sizes."
  },
  {
   "property": "C77",
   "status": "partial",
   "theorems": [
    "LLab.Regularize.C77_fcl_partial",
    "LLab.Regularize.C77_cl_partial",
    "LLab.Regularize.C77_lstm_partial",
    "LLab.Regularize.C77_freeze_biases_refuted",
    "LLab.Regularize.C77_cl_scores_refuted",
    "LLab.Update.C77_update"
   ],
   "note": "Refuted for FREEZE_BIASES (no regularisation) and for edge-popup convolutional scores (wrong index)."
  },
  {
   "property": "C78",
   "status": "partial",
   "theorems": [
    "LLab.Noise.C78_reset_partial",
    "LLab.Noise.C78_reset_refuted"
   ],
   "note": "reset_oustrategy writes the unused action_space, not the state."
  },
  {
   "property": "C79",
   "status": "partial",
   "theorems": [
    "LLab.Network.C79_size_partial",
    "LLab.Network.C79_interleaved_refuted",
    "LLab.Network.C79_size_refuted"
   ],
   "note": "Proved for layers listed in increasing order; refuted: the size check is made before sorting and a residual layer may have other layers between its own."
  },
  {
   "property": "C80",
   "status": "partial",
   "theorems": [
    "LLab.Mcts.C80_ucb_partial",
    "LLab.Mcts.C80_ucb_refuted"
   ],
   "note": "Proved when the first edge is unvisited or the value range is [0,1]; refuted otherwise because the first edge's value is not normalised."
  },
  {
   "property": "C81",
   "status": "partial",
   "theorems": [
    "LLab.Ddpg.C81_refuted",
    "LLab.Ddpg.C81_partial"
   ],
   "note": "Refuted whenever the two hyper-parameter sets differ: lr1, momentum1, ... are documented for the policy and used for the critic, and conversely. Proved: each network is updated exactly once, the three critic parts with the same set and step count."
  },
  {
   "property": "C82",
   "status": "partial",
   "theorems": [
    "LLab.Network.C82_rebuild_partial",
    "LLab.Network.C82_rebuild_refuted",
    "LLab.Save.C82_model_partial",
    "LLab.Save.C82_directory_refuted",
    "LLab.Save.C82_rmodel_partial"
   ],
   "note": "Proved for a number not used before; a directory makes the saved model unloadable (C82_directory_refuted); a model whose residual layers were listed out of order cannot be built again (C82_rebuild_refuted)."
  },
  {
   "property": "C83",
   "status": "partial",
   "theorems": [
    "LLab.Save.C83_rnetwork_partial",
    "LLab.Save.C83_duplicate_refuted"
   ],
   "note": "Proved for distinct positions; duplicates are accepted when the number of layers is right (C83_duplicate_refuted)."
  },
  {
   "property": "C84",
   "status": "proved",
   "theorems": [
    "LLab.Chain.C84_model_gradient"
   ],
   "note": "Covers fully connected layers without noise, normalisation or edge-popup; every activation, dropout in training, any depth. Pre-activations of rectifiers are assumed non-zero (no derivative there); the loss is any sum of per-output differentiable functions."
  },
  {
   "property": "C85",
   "status": "partial",
   "theorems": [
    "LLab.Chain.C85_step",
    "LLab.Chain.C85_huber_partial",
    "LLab.Chain.C85_huber_refuted"
   ],
   "note": "Proved for all element-wise losses except HUBER1_LOSS, whose sign is wrong: the accumulators receive the gradient of minus the loss (refuted with a witness). The last layer must have no dropout, because the error is computed from the output before dropout."
  },
  {
   "property": "C86",
   "status": "partial",
   "theorems": [
    "LLab.Chain.C86_train",
    "LLab.Chain.C86_test_partial",
    "LLab.Chain.C86_mean_refuted",
    "LLab.Chain.C86_no_activation_refuted",
    "LLab.Chain.C86_out_of_bounds_refuted"
   ],
   "note": "Training hand-over proved. At test time the code multiplies by the probability that a unit is dropped, so the mean is right only for threshold 1/2; without activation it reads the next layer's array (zeros, or past its end)."
  },
  {
   "property": "C87",
   "status": "proved",
   "theorems": [
    "LLab.LRN.C87_forward",
    "LLab.LRN.C87_forward_tensor"
   ],
   "note": ""
  },
  {
   "property": "C88",
   "status": "partial",
   "theorems": [
    "LLab.LRN.C88_gradient_partial",
    "LLab.LRN.C88_refuted"
   ],
   "note": "Proved when the output errors are equal within every window. Refuted in general: the code multiplies the derivative of output ac in entry c by the error of c instead of the error of ac (normalization.c 157-161)."
  },
  {
   "property": "C89",
   "status": "partial",
   "theorems": [
    "LLab.NormFc.C89_forward",
    "LLab.NormFc.C89_gradient_partial",
    "LLab.NormFc.C89_no_dropout_refuted",
    "LLab.NormFc.C89_dropout_refuted"
   ],
   "note": "Forward value proved without dropout. Refuted for the gradient: without dropout the normalisation's result in temp is overwritten by activation'\u00b7error (model.c 3836-3888), so the gradient is that of the layer without normalisation (proved as C89_gradient_partial); with dropout the forward pass hands over the un-normalised result (model.c 1452-1457) while the backward pass goes through the normalisation."
  },
  {
   "property": "C90",
   "status": "proved",
   "theorems": [
    "LLab.Generation.C90_generation_defined"
   ],
   "note": ""
  },
  {
   "property": "C91",
   "status": "proved",
   "theorems": [
    "LLab.Generation.C91_best_survives",
    "LLab.Generation.C91_best_fitness_monotone"
   ],
   "note": ""
  },
  {
   "property": "C92",
   "status": "proved",
   "theorems": [
    "LLab.Generation.C92_population_size"
   ],
   "note": ""
  },
  {
   "property": "C93",
   "status": "partial",
   "theorems": [
    "LLab.Generation.C93_best_so_far",
    "LLab.Generation.C93_stagnation",
    "LLab.Generation.C93_improvement",
    "LLab.Generation.C93_saved",
    "LLab.Generation.C93_improvement_refuted"
   ],
   "note": "Record, counter, rate and files proved over all histories. Refuted: an improvement from -5 to -2 counts as stagnation, because the record starts at -1."
  },
  {
   "property": "C94",
   "status": "partial",
   "theorems": [
    "LLab.Generation.C94_normalised_partial",
    "LLab.Generation.C94_normalised_refuted"
   ],
   "note": "Order, upper bound and the case of a worst first genome proved. Refuted in general: the value subtracted is the first genome's fitness."
  },
  {
   "property": "C95",
   "status": "partial",
   "theorems": [
    "LLab.Generation.C95_retired_refuted"
   ],
   "note": "Refuted by a reachable state with eleven species. The lower bound of C92 shows that every species reproduces."
  },
  {
   "property": "C96",
   "status": "partial",
   "theorems": [
    "LLab.Generation.C96_weakest_removed_partial",
    "LLab.Generation.C96_set_max_population_refuted",
    "LLab.Generation.C96_weakest_removed_refuted"
   ],
   "note": "The number removed is right. Refuted: fitness values are cut to integers before sorting; set_max_population sets a field that no generation reads."
  },
  {
   "property": "C97",
   "status": "proved",
   "theorems": [
    "LLab.GroupNorm.C97_channel_norm"
   ],
   "note": ""
  },
  {
   "property": "C98",
   "status": "partial",
   "theorems": [
    "LLab.GroupNorm.C98_group_norm_partial",
    "LLab.GroupNorm.C98_group_norm_refuted",
    "LLab.GroupNorm.C98_unused_refuted"
   ],
   "note": "Proved for one group or one-cell channels with every channel used. Refuted with two channels of two cells (the second group starts at cell 1) and with an unused channel."
  },
  {
   "property": "C99",
   "status": "proved",
   "theorems": [
    "LLab.Aco.C99_graph",
    "LLab.Aco.C99_network_of_trail",
    "LLab.Aco.C99_ant",
    "LLab.Aco.C99_ant_by_edges",
    "LLab.Aco.C99_ant_by_nodes"
   ],
   "note": ""
  },
  {
   "property": "C100",
   "status": "partial",
   "theorems": [
    "LLab.Aco.C100_best_model_partial",
    "LLab.Aco.C100_best_model_refuted"
   ],
   "note": "Sizes, activations and the first weight of each layer proved; all other weights are zero because get_best_model builds with ACO_OPERATION_TAKE while the graph uses ACO_OPERATION_INDEX_COPY (refuted)."
  },
  {
   "property": "C101",
   "status": "partial",
   "theorems": [
    "LLab.Aco.C101_proportional",
    "LLab.Aco.C101_zero_draw_refuted"
   ],
   "note": "Proved for draws in (0,1]; for the draw 0 the first edge in sort order is taken even without pheromone (refuted)."
  },
  {
   "property": "C102",
   "status": "proved",
   "theorems": [
    "LLab.Aco.C102_collected"
   ],
   "note": ""
  },
  {
   "property": "C103",
   "status": "proved",
   "theorems": [
    "LLab.Aco.C103_update",
    "LLab.Aco.C103_update_nodes",
    "LLab.Aco.C103_bounds",
    "LLab.Aco.C103_best_bounds"
   ],
   "note": ""
  },
  {
   "property": "C104",
   "status": "partial",
   "theorems": [
    "LLab.Aco.C104_best_trail",
    "LLab.Aco.C104_report_partial",
    "LLab.Aco.C104_report_refuted"
   ],
   "note": "Best trail proved; set_pheromone_to_index accepts the index number_of_ants (off by one), refuted."
  },
  {
   "property": "C105",
   "status": "partial",
   "theorems": [
    "LLab.Aco.C105_taus_partial",
    "LLab.Aco.C105_taus_refuted",
    "LLab.Aco.C105_negative_refuted"
   ],
   "note": "Proved for an average of at least two edges per node; the integer division makes it one (division by zero) or zero (negative tau_min) for small widths, and p = 1 is accepted (refuted)."
  },
  {
   "property": "C106",
   "status": "partial",
   "theorems": [
    "LLab.Aco.C106_stagnation_partial",
    "LLab.Aco.C106_recompute",
    "LLab.Aco.C106_negative_refuted"
   ],
   "note": "Proved within the bounds; the first update_taus can lower tau_max below existing pheromones, then the measure is negative (refuted)."
  },
  {
   "property": "C107",
   "status": "partial",
   "theorems": [
    "LLab.Aco.C107_subnodes_partial",
    "LLab.Aco.C107_subnodes_refuted"
   ],
   "note": "Percentages 0 and 1 proved; otherwise trail positions are mixed with node positions and a flag stays set (refuted)."
  },
  {
   "property": "C108",
   "status": "partial",
   "theorems": [
    "LLab.Aco.C108_leaders",
    "LLab.Aco.C108_depth_refuted",
    "LLab.Aco.C108_depth_partial",
    "LLab.Aco.C108_pso"
   ],
   "note": "Proved for the node version; the edge version handles 4*depth-3 weights instead of all and is refuted (out of bounds or NULL leader)."
  },
  {
   "property": "C109",
   "status": "proved",
   "theorems": [
    "LLab.Aco.C109_personal_best",
    "LLab.Aco.C109_inertia",
    "LLab.Aco.C109_constants"
   ],
   "note": ""
  },
  {
   "property": "C110",
   "status": "partial",
   "theorems": [
    "LLab.Aco.C110_masses_partial",
    "LLab.Aco.C110_masses_refuted"
   ],
   "note": "Masses only; refuted when all candidates have equal pheromone, as right after init_aco."
  },
  {
   "property": "C111",
   "status": "partial",
   "theorems": [
    "LLab.Chain.C111_vae_partial",
    "LLab.Chain.C111_optimum_refuted",
    "LLab.Chain.C111_twice_refuted"
   ],
   "note": "Decoder gradient proved; the encoder's accumulated value is proved to be the gradient of twice the loss plus a stated prior term. That it is the loss plus a multiple of the divergence is refuted."
  },
  {
   "property": "C112",
   "status": "partial",
   "theorems": [
    "LLab.Chain.C112_free_partial",
    "LLab.Chain.C112_free_refuted"
   ],
   "note": "All blocks but z released once; z leaks and NULL is dereferenced (missing semicolon after return)."
  },
  {
   "property": "C113",
   "status": "proved",
   "theorems": [
    "LLab.NeatThreads.C113_each_once",
    "LLab.NeatThreads.C113_null",
    "LLab.NeatThreads.C113_selected"
   ],
   "note": ""
  },
  {
   "property": "C114",
   "status": "partial",
   "theorems": [
    "LLab.Random.C114_encoding_partial",
    "LLab.Random.C114_paper_refuted"
   ],
   "note": "All but the agreement with the cited paper, which is refuted; distinct rows for positions up to 3*10^8/dimension."
  },
  {
   "property": "C115",
   "status": "partial",
   "theorems": [
    "LLab.Random.C115_ranges",
    "LLab.Random.C115_normal",
    "LLab.Random.C115_layers",
    "LLab.Random.C115_beta_partial",
    "LLab.Random.C115_beta_refuted"
   ],
   "note": "All ranges proved; random_beta with both draws zero is refuted (0/0)."
  },
  {
   "property": "C116",
   "status": "partial",
   "theorems": [
    "LLab.NeatFF.C116_trees_partial",
    "LLab.NeatFF.C116_disabled",
    "LLab.NeatFF.C116_range",
    "LLab.NeatFF.C116_skip_refuted"
   ],
   "note": "Proved for genomes in which every hidden node hands its value on along one enabled connection (inputs may be shared) and none is dead; range and independence of disabled weights for every genome. Refuted with a skip connection: the evaluation leaves out one contribution, which one depends on the order of the connections."
  },
  {
   "property": "C117",
   "status": "partial",
   "theorems": [
    "LLab.Attention.C117_multi_head_backward_partial",
    "LLab.Attention.C117_split_refuted"
   ],
   "note": "Proved for equal key and value embedding sizes. For different sizes C117_split_refuted shows a non-zero derivative for which the backward pass adds nothing."
  },
  {
   "property": "C118",
   "status": "partial",
   "theorems": [
    "LLab.Transf.C118_encoder_gradient_partial",
    "LLab.Transf.C118_clobber_refuted"
   ],
   "note": "Proved for networks that leave the error array as it was. A convolution with an activation and no pooling works in that array (model.c 5536), and the residual connection then adds the wrong error: C118_clobber_refuted."
  },
  {
   "property": "C119",
   "status": "partial",
   "theorems": [
    "LLab.Transf.C119_copy",
    "LLab.Transf.C119_rounds_partial",
    "LLab.Transf.C119_make",
    "LLab.Transf.C119_tokens_refuted",
    "LLab.Transf.C119_reset_partial",
    "LLab.Transf.C119_forget_partial",
    "LLab.Transf.C119_reset_refuted",
    "LLab.Transf.C119_keep_derivatives_refuted",
    "LLab.Transf.C119_copy_without_parameters_refuted"
   ],
   "note": "Construction, copy, and reset when the second residual connection comes with the first are proved. reset_* dereference a null buffer with the second connection alone; the derivative-keeping reset loses the derivatives of the scales; the copy without parameters always runs past its arrays; the constructor accepts inputs that do not split into tokens."
  },
  {
   "property": "C120",
   "status": "partial",
   "theorems": [
    "LLab.PolicyError.C120_policy_error",
    "LLab.PolicyError.C120_entropy_refuted",
    "LLab.PolicyError.C120_entropy_falls_refuted",
    "LLab.PolicyError.C120_one_action_refuted"
   ],
   "note": "The error is the gradient of the stated loss (C120_policy_error), for any number of actions from 2 on. Refuted: the entropy term is a penalty, not a bonus (descent lowers the entropy, strictly unless uniform in the example); with one action q[1] is read out of range."
  },
  {
   "property": "C121",
   "status": "partial",
   "theorems": [
    "LLab.PolicyError.C121_inverse_q_error",
    "LLab.PolicyError.C121_chi_square_refuted"
   ],
   "note": "The error is the gradient of inverseLoss in every direction. Refuted: the regulariser 1/(4 a d^2) is not that of the chi-square divergence named in the code comment, d^2/(4 a)."
  },
  {
   "property": "C122",
   "status": "partial",
   "theorems": [
    "LLab.PolicyTrain.C122_passage_partial",
    "LLab.PolicyTrain.C122_history_partial",
    "LLab.PolicyTrain.C122_decay_refuted",
    "LLab.PolicyTrain.C122_clipping_refuted",
    "LLab.PolicyTrain.C122_zero_threads_refuted",
    "LLab.PolicyTrain.C122_policies_partial",
    "LLab.PolicyTrain.C122_policies_threads_refuted",
    "LLab.PolicyTrain.C122_policies_range_refuted"
   ],
   "note": "Proved for every thread count and schedule, for agents without rate schedule and clipping. Refuted: any rate schedule divides by zero in the first passage; the clipping threshold is never assigned by the constructor; zero threads are accepted and never end; get_policies with several threads returns the inputs or accesses models out of range, and with more outputs than inputs writes out of range."
  },
  {
   "property": "C123",
   "status": "partial",
   "theorems": [
    "LLab.IqTrain.C123_epoch_partial",
    "LLab.IqTrain.C123_own_batch_refuted",
    "LLab.IqTrain.C123_training_partial"
   ],
   "note": "Epochs and trainings are exactly the iteration of accumulate for every thread count. Refuted: 'each update uses the derivatives of its batch': the derivatives are never cleared. Clipping and rate schedule are not in the model of train_iqn."
  },
  {
   "property": "C124",
   "status": "partial",
   "theorems": [
    "LLab.Transf.C124_forward",
    "LLab.Transf.C124_only_decoder",
    "LLab.Transf.C124_only_encoder_refuted",
    "LLab.Transf.C124_shared_decoder_refuted"
   ],
   "note": "The layers are abstract: any functions with a forward pass that computes them (C118 supplies the encoders). C124_only_encoder_refuted: RUN_ONLY_ENCODER runs the decoders and no encoder, for every transformer. C124_shared_decoder_refuted: transf_ff_opt passes t->td[i] twice (line 617), so the decoders of the second transformer are never read."
  },
  {
   "property": "C125",
   "status": "partial",
   "theorems": [
    "LLab.Transf.C125_backward",
    "LLab.Transf.C125_only_encoder_refuted",
    "LLab.Transf.C125_encoder_stack_partial"
   ],
   "note": "C125_backward: any layers whose backward pass is a gradient, any connections. C125_encoder_stack_partial: with the encoders of C118, any height, no decoder (the decoder's own backward pass is undefined, see DESIGN). C125_only_encoder_refuted: RUN_ONLY_ENCODER back-propagates nothing."
  },
  {
   "property": "C126",
   "status": "partial",
   "theorems": [
    "LLab.Transf.C126_cross_gradient_partial"
   ],
   "note": "Proved for equal key and value sizes (C32 refutes the rest) and for networks that leave the caller's error array alone where the residual connection needs it, as in C118."
  },
  {
   "property": "C127",
   "status": "partial",
   "theorems": [
    "LLab.Transf.C127_forward_partial",
    "LLab.Transf.C127_heads_refuted",
    "LLab.Transf.C127_backward_refuted",
    "LLab.Transf.C127_single_norm_refuted",
    "LLab.Transf.C127_transformer_forward_partial",
    "LLab.Transf.C127_transformer_backward_refuted"
   ],
   "note": "Forward pass proved for one head, also for whole transformers. Refuted: with two or more heads the forward pass of every decoder is undefined (buffers have room for one head); the backward pass is undefined for every decoder and every transformer with a decoder (fcls never assigned); a decoder with only the first normalisation cannot be built."
  },
  {
   "property": "C128",
   "status": "partial",
   "theorems": [
    "LLab.Save.C128_encoder_partial",
    "LLab.Save.C128_decoder_partial",
    "LLab.Save.C128_encoders_partial",
    "LLab.Save.C128_constructors",
    "LLab.Save.C128_decoders_refuted",
    "LLab.Save.C128_one_decoder_refuted",
    "LLab.Save.C128_connection_refuted"
   ],
   "note": "Encoders, decoders and stacks of encoders only: proved up to k_percentage (refuted in C45) and the optimiser moments. Refuted: with two or more decoders saving always exits; with one decoder and two or more encoders loading what was saved is undefined; with one of each the loaded connection is the start of an address."
  },
  {
   "property": "C129",
   "status": "partial",
   "theorems": [
    "LLab.RainbowTrain.C129_batch_partial",
    "LLab.RainbowTrain.C129_enough_threads_partial",
    "LLab.RainbowTrain.C129_discount_refuted",
    "LLab.RainbowTrain.C129_diversity_partial",
    "LLab.RainbowTrain.C129_diversity_refuted",
    "LLab.RainbowTrain.C129_distance_refuted",
    "LLab.RainbowTrain.C129_distance_one_thread_partial",
    "LLab.RainbowTrain.C129_weights_partial",
    "LLab.RainbowTrain.C129_weights_refuted",
    "LLab.RainbowTrain.C129_passage_partial",
    "LLab.RainbowTrain.C129_target"
   ],
   "note": "For every number of threads and schedule a passage makes one clean pass per sample and records its error, but the discount of sample t is that of sample t mod threads, and the diversity error uses state t mod threads (with enough threads both are right). Importance weights are in (0,1] but are computed from the slot in the buffer instead of the rank drawn. The distance that moves alpha can be q times the value of the last thread. History of the target network proved for all threads and schedules. Sampling is C59/C60, returns C61. The networks, clipping, update and copy are parameters."
  },
  {
   "property": "C130",
   "status": "partial",
   "theorems": [
    "LLab.MultiCoreR.C130_own_models",
    "LLab.MultiCoreR.C130_shared_model_partial",
    "LLab.MultiCoreR.C130_shared_model_refuted"
   ],
   "note": "Drivers with one model per instance: proved for all threads and schedules. Backward driver on a shared model: right with one thread, contributions can be lost with two or more (the shared derivatives are not protected)."
  },
  {
   "property": "C131",
   "status": "partial",
   "theorems": [
    "LLab.Parse.C131_csv_rows_partial",
    "LLab.Parse.C131_csv_single_partial",
    "LLab.Parse.C131_long_field_refuted",
    "LLab.Parse.C131_no_final_separator_refuted",
    "LLab.Parse.C131_char_rows_partial",
    "LLab.Parse.C131_char_single_partial",
    "LLab.Parse.C131_line_end_refuted",
    "LLab.Parse.C131_digits_partial",
    "LLab.Parse.C131_digits_refuted"
   ],
   "note": "Proved for files in which every value is followed by a separator and is shorter than 256 characters. Refuted: a longer field writes outside of the buffer, a last value without separator is dropped without a report, a line end in a single-instance character file is stored as a value outside of the arrays, a line end between the records of a digit file shifts the second record, a class not below the number of outputs writes outside of its array."
  },
  {
   "property": "C132",
   "status": "partial",
   "theorems": [
    "LLab.Parse.C132_parse_partial",
    "LLab.Parse.C132_wrong_header_refuted",
    "LLab.Parse.C132_missing_separator_refuted",
    "LLab.Parse.C132_crlf_refuted"
   ],
   "note": "Proved for well-formed descriptions with at most 1024 convolutional layers. Refuted: a description whose header does not name exactly the kinds of layers present, one whose line lacks its last separator, and one with CR LF line ends are not reported: the parser uses values that were never written (none in the model)."
  },
  {
   "property": "C133",
   "status": "partial",
   "theorems": [
    "LLab.Parse.C133_sections_partial",
    "LLab.Parse.C133_name_prefix_refuted",
    "LLab.Parse.C133_models_partial",
    "LLab.Parse.C133_first_name"
   ],
   "note": "Proved for the five sections with the exact names. Refuted: only the start of a token is compared, so a name followed by more characters is accepted and its first characters become part of the section before it."
  },
  {
   "property": "C134",
   "status": "partial",
   "theorems": [
    "LLab.TrainSave.C134_file_partial",
    "LLab.TrainSave.C134_models",
    "LLab.TrainSave.C134_words_lost_refuted",
    "LLab.TrainSave.C134_empty_arrays_refuted",
    "LLab.TrainSave.C134_overlap_refuted"
   ],
   "note": "Proved: which file holds what, and that the main file determines the counters, the character arrays and the first n_int_size / n_float_size bytes of the numeric arrays. Refuted: the numeric arrays are written with sizeof(char), so all cells beyond the first quarter are lost; a size of 0 makes the save exit; a training saved at a number within the range of another one overwrites its models."
  },
  {
   "property": "C135",
   "status": "proved",
   "theorems": [
    "LLab.CNet.C135_gradient",
    "LLab.CNet.C135_step"
   ],
   "note": "Networks without normalisation and residual blocks, FULLY_FEED_FORWARD, all kernels used, equal row and column padding; away from kinks of rectifiers and ties of max pooling; pooling windows disjoint (C30 refutes the others); accumulators as reset_model leaves them"
  },
  {
   "property": "C136",
   "status": "partial",
   "theorems": [
    "LLab.CNet.C136_forward",
    "LLab.CNet.C136_gradient_partial",
    "LLab.CNet.C136_clobbered_refuted",
    "LLab.CNet.C136_adjacent_refuted",
    "LLab.CNet.C136_single_refuted"
   ],
   "note": "Partial: the gradient is right for Tame networks. The code is wrong otherwise: (1) a last convolution with an activation and no pooling multiplies the residual error in place (C136_clobbered_refuted); (2) the residual error of a block is added to the error of a preceding block after the derivative of that block's output activation was applied (C136_adjacent_refuted); (3) a block of one convolution before a non-block layer is treated as a plain convolution: the layer after it is processed with the convolution's output and the output activation is skipped (C136_single_refuted)."
  },
  {
   "property": "C137",
   "status": "partial",
   "theorems": [
    "LLab.VNode.C137_forward",
    "LLab.VNode.C137_gradient_partial",
    "LLab.VNode.C137_two_inputs",
    "LLab.VNode.C137_two_inputs_refuted",
    "LLab.VNode.C137_getMax_partial",
    "LLab.VNode.C137_getMax_refuted",
    "LLab.VNode.C137_dropout",
    "LLab.VNode.C137_dropout_test",
    "LLab.VNode.C137_dropout_refuted",
    "LLab.VNode.C137_softmax_refuted",
    "LLab.VNode.C137_load",
    "LLab.VNode.C137_load_refuted",
    "LLab.VNode.C137_copy",
    "LLab.VNode.C137_paste",
    "LLab.VNode.C137_free",
    "LLab.VNode.C137_free_refuted"
   ],
   "note": "The derivatives are proved without dropout, from a cleared error array, away from zero divisors and rectifiers at zero. Refuted: the backward pass of dropout nodes returns the old error array; soft-max errors add up over passes; GET_MAX with all inputs at most -1 is undefined; with two inputs every action that is not arithmetic turns into a concatenation; the numbers of a node are lost when it is loaded; RESIZE nodes cannot be freed."
  },
  {
   "property": "C138",
   "status": "partial",
   "theorems": [
    "LLab.Search.C138_counts",
    "LLab.Search.C138_bounds",
    "LLab.Search.C138_rewards",
    "LLab.Search.C138_total",
    "LLab.Search.C138_policy",
    "LLab.Search.C138_value",
    "LLab.Search.C138_single_refuted",
    "LLab.Search.C138_difference_refuted",
    "LLab.Search.C138_mean_refuted",
    "LLab.Search.C138_support_refuted"
   ],
   "note": "Counts, bounds, rewards, policy and value proved for every history. Refuted: the value of a node is not a mean over its visits (it stays when the tree grows below it), the difference of the bounds never changes, after one simulation the bounds are equal and the normalisation divides by zero, the number read from a distribution adds the offset once per entry. The networks and the choice of the edge are parameters."
  },
  {
   "property": "C139",
   "status": "proved",
   "theorems": [
    "LLab.Batch.C139_decrease",
    "LLab.Batch.C139_runs",
    "LLab.Batch.C139_step",
    "LLab.Batch.C139_schedule_free",
    "LLab.Batch.C139_history"
   ],
   "note": "Whole training rounds: back propagation of every sample on its copy, threads in any interleaving, sum, optimiser and resets. Proved for every architecture of plain fully connected layers, every history and every schedule; strict decrease of the batch loss for small learning rates. Noise, normalisation, edge-popup and regularisation are outside this composition (their parts are C39-C44, C71 and others)."
  },
  {
   "property": "C140",
   "status": "partial",
   "theorems": [
    "LLab.Wiring.C140_transformer",
    "LLab.Wiring.C140_decoder_partial",
    "LLab.Wiring.C140_encoder_partial",
    "LLab.Wiring.C140_encoder_index_refuted",
    "LLab.Wiring.C140_range",
    "LLab.Wiring.C140_offset_refuted",
    "LLab.Wiring.C140_rmodel_partial",
    "LLab.Wiring.C140_rmodel_down_refuted",
    "LLab.Wiring.C140_built",
    "LLab.Wiring.C140_built_refuted",
    "LLab.Wiring.C140_feed_partial",
    "LLab.Wiring.C140_model_model_refuted",
    "LLab.Wiring.C140_concat_partial",
    "LLab.Wiring.C140_concat_refuted",
    "LLab.Wiring.C140_errors",
    "LLab.Wiring.C140_fanout",
    "LLab.Wiring.C140_backward_partial",
    "LLab.Wiring.C140_unplaced_refuted",
    "LLab.Wiring.C140_backward_refuted"
   ],
   "note": "Proved: transformers get what they are wired to, flat sources feed models and concatenations, building stores what it was given for encoders and transformers, errors of any number of readers add up to the gradient of the whole and go back to the place read (models, normalisations). Refuted by the code: index arrays of decoders and recurrent models are not stored, an offset copies past the end of the source, recurrent models use one index array for both, encoders ignore the index for most sources, model to model with an offset exits, concatenation of a normalisation or vector reads the other side, encoder/decoder/transformer errors carry no position, vectors, transformers and concatenations have no backward pass. Not modelled: the _opt variants, recurrent and temporal backward branches."
  },
  {
   "property": "C141",
   "status": "partial",
   "theorems": [
    "LLab.ConvPopup.C141_forward",
    "LLab.ConvPopup.C141_weights",
    "LLab.ConvPopup.C141_inputs",
    "LLab.ConvPopup.C141_scores",
    "LLab.ConvPopup.C141_bias_refuted"
   ],
   "note": "Forward, input, weight and score gradients proved; refuted for the biases (the forward pass ignores them, the backward pass trains them)."
  },
  {
   "property": "C142",
   "status": "partial",
   "theorems": [
    "LLab.TConvPopup.C142_forward",
    "LLab.TConvPopup.C142_weights",
    "LLab.TConvPopup.C142_inputs",
    "LLab.TConvPopup.C142_scores",
    "LLab.TConvPopup.C142_bias_refuted"
   ],
   "note": "Proved without padding incl. biases, and with padding for everything except biases; refuted for the biases with padding."
  },
  {
   "property": "C143",
   "status": "partial",
   "theorems": [
    "LLab.LSTMPopup.C143_forward_partial",
    "LLab.LSTMPopup.C143_uninitialised_refuted",
    "LLab.LSTMPopup.C143_scores_partial",
    "LLab.LSTMPopup.C143_recurrent_only_refuted",
    "LLab.LSTMPopup.C143_next_step_partial",
    "LLab.LSTMPopup.C143_layer_above_partial",
    "LLab.LSTMPopup.C143_all_weights_refuted",
    "LLab.LSTMPopup.C143_cell_state_refuted"
   ],
   "note": "Forward equations with restricted weights if every gate is active; score errors of flag 0 are the derivatives if the input-weight flags are set; flags 1 and 2 when the start positions of the two directions coincide. Refuted: a gate with both flags 0 reads uninitialised memory; a unit active only through recurrent weights gets no score errors; with k_percentage = 1 nothing flows back from above or from the next step; the cell-state error of the next step is never passed on. Flag 3 is modelled, its result is only stated for k = 1."
  },
  {
   "property": "C144",
   "status": "partial",
   "theorems": [
    "LLab.LSTM.C144_stack_gradient_partial",
    "LLab.LSTM.C144_residual_refuted",
    "LLab.LSTM.C144_popup_cell_refuted"
   ],
   "note": "Proved for any number of layers of any sizes in full-feed-forward mode without residual connections (C144_stack_gradient_partial: both passes run and every parameter of every layer gets the derivative). With a residual connection the layer below gets, in every step but the last of the window, also the error the upper layer gets from its next step (C144_residual_refuted). An edge-popup layer above the first gets the cell state of the start of the window in every step (C144_popup_cell_refuted)."
  },
  {
   "property": "C145",
   "status": "partial",
   "theorems": [
    "LLab.Ez.C145_heads_partial",
    "LLab.Ez.C145_single_forward",
    "LLab.Ez.C145_single_body_refuted",
    "LLab.Ez.C145_single_refuted",
    "LLab.Ez.C145_one_thread_refuted"
   ],
   "note": "Batch versions proved for all networks, losses and thread counts (separate errors for the heads cannot be passed to the code). The version for one sample never touches the body (refuted universally and with a concrete gradient 2); a model made for one thread has no copies and the batch version is undefined."
  },
  {
   "property": "C146",
   "status": "partial",
   "theorems": [
    "LLab.EzReward.C146_window_partial",
    "LLab.EzReward.C146_window_bp_partial",
    "LLab.EzReward.C146_history",
    "LLab.EzReward.C146_window_refuted",
    "LLab.EzReward.C146_window_bp_refuted",
    "LLab.EzReward.C146_free_refuted",
    "LLab.EzReward.C146_opt_reads",
    "LLab.EzReward.C146_opt_partial",
    "LLab.EzReward.C146_opt_bp_partial",
    "LLab.EzReward.C146_opt_outside_refuted",
    "LLab.EzReward.C146_opt_overlap_refuted"
   ],
   "note": "Proved while the window of the stack is the model's window, for one window and for batches of 1 or of lstm_window samples; after the reset for one step the window stays 1 (history theorem): later steps keep old predictions and the backward pass is undefined; batches of another size read overlapping windows or outside the copies; the backward pass frees the wrong number of arrays."
  },
  {
   "property": "C147",
   "status": "partial",
   "theorems": [
    "LLab.Save.C147_save_partial",
    "LLab.Save.C147_overwrite_refuted",
    "LLab.Save.C147_directory_refuted"
   ],
   "note": "Round trip proved for a number not used before. Refuted: a second save under the same number (load returns the first model) and save_efficientzero_model_given_directory (the directory file holds only the header, so load exits)."
  },
  {
   "property": "C148",
   "status": "partial",
   "theorems": [
    "LLab.EzAll.C148_init",
    "LLab.EzAll.C148_make_ff",
    "LLab.EzAll.C148_reset_batch_partial",
    "LLab.EzAll.C148_reset_batch_refuted",
    "LLab.EzAll.C148_reset_batch_ff_partial",
    "LLab.EzAll.C148_reset_batch_ff_refuted",
    "LLab.EzAll.C148_reset_partial",
    "LLab.EzAll.C148_reset_refuted",
    "LLab.EzAll.C148_reset_ff_partial",
    "LLab.EzAll.C148_reset_ff_refuted",
    "LLab.EzAll.C148_edge_partial",
    "LLab.EzAll.C148_edge_refuted",
    "LLab.EzAll.C148_beta",
    "LLab.EzAll.C148_copy",
    "LLab.EzAll.C148_copy_parts",
    "LLab.EzAll.C148_paste",
    "LLab.EzAll.C148_free"
   ],
   "note": "Proved: construction, inference preparation, beta setters, copy, paste, release. Refuted for every model: reset_efficientzeromodel leaves the reward and temporal networks; reset_efficientzeromodel_only_for_ff does not reset the dynamics network; the resets of the copies read NULL for one thread, and the only_for_ff one for every model without projections; edge-popup training skips p1, p2 and, for one thread, the reward copies."
  },
  {
   "property": "C149",
   "status": "partial",
   "theorems": [
    "LLab.Flat.C149_params",
    "LLab.Flat.C149_weights",
    "LLab.Flat.C149_scores_partial",
    "LLab.Flat.C149_scores_refuted"
   ],
   "note": "Parameters and weights round-trip. Scores round-trip only when every recurrent layer was made for edge-popup; otherwise the copy dereferences NULL (C149_scores_refuted)."
  },
  {
   "property": "C150",
   "status": "partial",
   "theorems": [
    "LLab.Diversity.C150_l1",
    "LLab.Diversity.C150_l1_qr",
    "LLab.Diversity.C150_l1_cells",
    "LLab.Diversity.C150_l1_equal",
    "LLab.Diversity.C150_l1_plain_partial",
    "LLab.Diversity.C150_l1_plain_refuted",
    "LLab.Diversity.C150_kl",
    "LLab.Diversity.C150_sup_partial",
    "LLab.Diversity.C150_sup_qr_partial",
    "LLab.Diversity.C150_sup_refuted",
    "LLab.Diversity.C150_sup_equal_refuted",
    "LLab.Diversity.C150_kl_plain_partial",
    "LLab.Diversity.C150_kl_plain_refuted",
    "LLab.Diversity.C150_kl_plain_value_refuted"
   ],
   "note": "Proved for the L1 losses (categorical and quantile) and the newer KL loss, with the limit. The L1 gradient assumes no action of equal probability (where the distance is not differentiable); equal policies are covered by C150_l1_equal. L-infinity: gradient of the bare distance proved, alpha/weight/clip are ignored and equal policies give 0/0 (refuted). Older KL: exact value and error proved; it is the gradient only if action 0 is the greatest, and the value can be negative (refuted). Older L1 ends the program for a negative clip."
  },
  {
   "property": "C151",
   "status": "partial",
   "theorems": [
    "LLab.Consensus.C151_agreed",
    "LLab.Consensus.C151_agreed_float",
    "LLab.Consensus.C151_pair_partial",
    "LLab.Consensus.C151_increasing_partial",
    "LLab.Consensus.C151_sorted_refuted",
    "LLab.Consensus.C151_three_refuted",
    "LLab.Consensus.C151_mean_refuted",
    "LLab.Consensus.C151_merge_sort_refuted"
   ],
   "note": "Agreement of the networks, permutation per layer and stepped scores are proved for all inputs. The order by decreasing mean holds for layers of two and for strictly increasing totals; it is refuted for decreasing layers of four and low-high-middle layers of three (the exchange loops compare original positions). The divisor of the mean is the layer size, and merge_sort_for_probabilities writes outside its table for every n >= 2."
  },
  {
   "property": "C152",
   "status": "partial",
   "theorems": [
    "LLab.ScoreNorm.C152_layer_partial",
    "LLab.ScoreNorm.C152_internal_partial",
    "LLab.ScoreNorm.C152_global_partial",
    "LLab.ScoreNorm.C152_global_refuted",
    "LLab.ScoreNorm.C152_internal_refuted",
    "LLab.ScoreNorm.C152_equal_refuted",
    "LLab.ScoreNorm.C152_large_refuted"
   ],
   "note": "Proved for layers that have scores, whose scores are not all equal and lie on both sides of the starting values of the scan. Refuted: equal scores divide 0 by 0, scores all above 999999999 never reach 0, a layer trained by gradient descent or (in the global version) a pooling layer is read through a null pointer."
  },
  {
   "property": "C153",
   "status": "partial",
   "theorems": [
    "LLab.GroupNorm.C153_gamma_beta_partial",
    "LLab.GroupNorm.C153_no_influence_refuted",
    "LLab.GroupNorm.C153_input_error_refuted",
    "LLab.GroupNorm.C153_group_partial",
    "LLab.GroupNorm.C153_group_refuted"
   ],
   "note": "Partial: the errors of scale and shift are the derivatives. Refuted: the input error leaves out cells whose own output error is zero, and the second group is read at the wrong offset unless channels have one cell."
  },
  {
   "property": "C154",
   "status": "partial",
   "theorems": [
    "LLab.Replay.Efficient.C154_ranked",
    "LLab.Replay.Efficient.C154_reward",
    "LLab.Replay.Efficient.C154_uniform",
    "LLab.Replay.Efficient.C154_create_partial",
    "LLab.Replay.Efficient.C154_gamma_refuted"
   ],
   "note": "Buffer contents and sampling structures proved for every history in all three modes; construction accepts exactly the documented parameters. Refuted: the gamma argument is checked but unused, the stored discount is lambda_value to the power n_step_rewards."
  },
  {
   "property": "C155",
   "status": "partial",
   "theorems": [
    "LLab.FclLife.C155_construct",
    "LLab.FclLife.C155_free",
    "LLab.FclLife.C155_no_leak",
    "LLab.FclLife.C155_copy_partial",
    "LLab.FclLife.C155_independent",
    "LLab.FclLife.C155_copy_only_dropout_refuted",
    "LLab.FclLife.C155_copy_noise_refuted",
    "LLab.FclLife.C155_paste",
    "LLab.FclLife.C155_paste_other_size",
    "LLab.FclLife.C155_reset",
    "LLab.FclLife.C155_reset_popup_training",
    "LLab.FclLife.C155_only_ff",
    "LLab.FclLife.C155_reset_only_ff_refuted",
    "LLab.FclLife.C155_reset_for_edge_popup_refuted",
    "LLab.FclLife.C155_inference_training",
    "LLab.FclLife.C155_arrays"
   ],
   "note": "Life of a fully connected layer over a heap of addresses, for all flags, sizes and memories without layer normalisation. Construction, freeing, no leak, independence, pasting, resetting and stripping are proved in full; copying is proved except for the noise and dropout-only layers (refuted). Also refuted: reset_fcl after make_the_fcl_only_for_ff, and reset_fcl_for_edge_popup keeps the bias gradient."
  },
  {
   "property": "C156",
   "status": "partial",
   "theorems": [
    "LLab.BnLife.C156_construct",
    "LLab.BnLife.C156_free",
    "LLab.BnLife.C156_no_leak",
    "LLab.BnLife.C156_copy",
    "LLab.BnLife.C156_paste_partial",
    "LLab.BnLife.C156_paste_refuted",
    "LLab.BnLife.C156_reset",
    "LLab.BnLife.C156_strip",
    "LLab.BnLife.C156_free_only_ff_refuted"
   ],
   "note": "Everything is proved in full for all sizes; pasting needs equal widths (paste_bn does not compare them: refuted), and free_the_bn_only_for_ff on an unstripped layer leaks (refuted)."
  },
  {
   "property": "C157",
   "status": "partial",
   "theorems": [
    "LLab.ConvLife.C157_construct",
    "LLab.ConvLife.C157_arrays",
    "LLab.ConvLife.C157_ranking_refuted",
    "LLab.ConvLife.C157_free",
    "LLab.ConvLife.C157_no_leak",
    "LLab.ConvLife.C157_copy",
    "LLab.ConvLife.C157_paste_partial",
    "LLab.ConvLife.C157_paste_refuted",
    "LLab.ConvLife.C157_reset_ff",
    "LLab.ConvLife.C157_reset",
    "LLab.ConvLife.C157_reset_popup_refuted",
    "LLab.ConvLife.C157_strip_partial",
    "LLab.ConvLife.C157_strip_refuted"
   ],
   "note": "Proved for all flags and sizes: construction, no leak, freeing, copying, pasting, resetting, resetting for inference. Refuted: the ranking of a layer trained by gradient descent and run by edge-popup starts as all zeros; pasting on a layer whose groups are narrower writes out of bounds; reset_cl_for_edge_popup writes through a null pointer on an inference-only layer; make_the_cl_only_for_ff frees score gradients as matrices. Stripping and pasting are proved for the other cases. Stride and padding arithmetic of the constructor is in Verif/Save/Cl.lean."
  },
  {
   "property": "C158",
   "status": "partial",
   "theorems": [
    "LLab.ModelLife.C158_free",
    "LLab.ModelLife.C158_network",
    "LLab.ModelLife.C158_copy_partial",
    "LLab.ModelLife.C158_independent",
    "LLab.ModelLife.C158_copy_refuted",
    "LLab.ModelLife.C158_set_error_partial",
    "LLab.ModelLife.C158_set_error_alias_refuted",
    "LLab.ModelLife.C158_set_error_stale_refuted",
    "LLab.ModelLife.C158_set_error_unweighted"
   ],
   "note": "C158_network, C158_free, C158_independent and C158_set_error_unweighted are complete; C158_copy_partial excludes layers that are only dropout (C158_copy_refuted), C158_set_error_partial needs weights that are not those of the model (C158_set_error_alias_refuted) and given weights (C158_set_error_stale_refuted)."
  },
  {
   "property": "C159",
   "status": "partial",
   "theorems": [
    "LLab.ModelLife.C159_vae_partial",
    "LLab.ModelLife.C159_vae_free_partial",
    "LLab.ModelLife.C159_vae_free_refuted",
    "LLab.ModelLife.C159_vae_leak_refuted",
    "LLab.ModelLife.C159_dqn",
    "LLab.ModelLife.C159_dqn_copy_partial",
    "LLab.ModelLife.C159_dqn_free",
    "LLab.ModelLife.C159_dqn_independent",
    "LLab.ModelLife.C159_dqn_copy_refuted"
   ],
   "note": "Duelling networks: C159_dqn, C159_dqn_free and C159_dqn_independent are complete, copying excludes layers that are only for dropout (C159_dqn_copy_refuted). Auto-encoders: free_vae_model never releases z because of a missing semicolon (C159_vae_free_refuted, C159_vae_leak_refuted)."
  },
  {
   "property": "C160",
   "status": "partial",
   "theorems": [
    "LLab.ModelLife.C160_paste_partial",
    "LLab.ModelLife.C160_copy_back",
    "LLab.ModelLife.C160_short_refuted",
    "LLab.ModelLife.C160_rates_refuted",
    "LLab.ModelLife.C160_vae",
    "LLab.ModelLife.C160_dqn"
   ],
   "note": "Partial: paste_model is undefined for targets with fewer layers (C160_short_refuted) and, by C157, for group normalisation of different width; it keeps the target's powers of the rates next to the source's moments (C160_rates_refuted). NULL arguments are not modelled."
  },
  {
   "property": "C161",
   "status": "partial",
   "theorems": [
    "LLab.ModelLife.C161_model_partial",
    "LLab.ModelLife.C161_copy_ready",
    "LLab.ModelLife.C161_stripped_refuted",
    "LLab.ModelLife.C161_vae_partial",
    "LLab.ModelLife.C161_dqn_partial"
   ],
   "note": "Partial: models whose fully connected layers do not train scores; a stripped layer makes reset_model write through a null pointer (C161_stripped_refuted)."
  },
  {
   "property": "C162",
   "status": "partial",
   "theorems": [
    "LLab.LstmLife.C162_construct_partial",
    "LLab.LstmLife.C162_popup_forward_refuted",
    "LLab.LstmLife.C162_free",
    "LLab.LstmLife.C162_accepts",
    "LLab.LstmLife.C162_no_leak_partial",
    "LLab.LstmLife.C162_copy_partial",
    "LLab.LstmLife.C162_copy_refuted",
    "LLab.LstmLife.C162_paste_partial",
    "LLab.LstmLife.C162_paste_refuted",
    "LLab.LstmLife.C162_reset_ff",
    "LLab.LstmLife.C162_reset_partial",
    "LLab.LstmLife.C162_active_refuted",
    "LLab.LstmLife.C162_strip",
    "LLab.LstmLife.C162_stripped_refuted",
    "LLab.LstmLife.C162_paste_stripped_refuted"
   ],
   "note": "Refuted parts: copy_lstm drops d1_beta of the group normalisations (C162_copy_refuted); with edge-popup in the forward pass only the rows of scores and rankings are never allocated (C162_popup_forward_refuted); paste_lstm compares no sizes and tests only the source (C162_paste_refuted, C162_paste_stripped_refuted); reset_lstm of a stripped layer writes through null (C162_stripped_refuted); get_used_outputs_lstm never switches an output off (C162_active_refuted). Sorting and the outputs named by the kept scores are parameters."
  },
  {
   "property": "C163",
   "status": "partial",
   "theorems": [
    "LLab.RmodelLife.C163_construct",
    "LLab.RmodelLife.C163_free",
    "LLab.RmodelLife.C163_copy_partial",
    "LLab.RmodelLife.C163_independent",
    "LLab.RmodelLife.C163_copy_refuted",
    "LLab.RmodelLife.C163_paste_partial",
    "LLab.RmodelLife.C163_paste_short_refuted",
    "LLab.RmodelLife.C163_rates_refuted",
    "LLab.RmodelLife.C163_reset_partial",
    "LLab.RmodelLife.C163_reset_ff",
    "LLab.RmodelLife.C163_strip",
    "LLab.RmodelLife.C163_stripped_refuted"
   ],
   "note": "Refuted parts: copy_rmodel loses d1_beta of the groups (C163_copy_refuted), paste_rmodel reads shorter targets out of bounds (C163_paste_short_refuted) and does not paste the rates (C163_rates_refuted), reset_rmodel of a stripped network writes through null (C163_stripped_refuted). Layers with edge-popup in the forward pass only are excluded, see C162."
  },
  {
   "property": "C164",
   "status": "partial",
   "theorems": [
    "LLab.Aco.Fa.C164_step_partial",
    "LLab.Aco.Fa.C164_brightest",
    "LLab.Aco.Fa.C164_choice",
    "LLab.Aco.Fa.C164_attraction",
    "LLab.Aco.Fa.C164_small_refuted",
    "LLab.Aco.Fa.C164_dimmest_refuted"
   ],
   "note": "The step is proved as it is, with the order the library's sort gives. That the movers are the dimmest is refuted by four candidates, and for pheromones of equal whole part in general."
  },
  {
   "property": "C165",
   "status": "partial",
   "theorems": [
    "LLab.Neat.Life.C165_free",
    "LLab.Neat.Life.C165_free_refuted",
    "LLab.Neat.Life.C165_copy_partial",
    "LLab.Neat.Life.C165_independent",
    "LLab.Neat.Life.C165_bias_refuted"
   ],
   "note": "Proved for every well-formed genome, except that bias_flag is not copied, so activate_bias on a copy reads an unwritten field, and that free_genome with too small a count runs outside an array; both refuted."
  },
  {
   "property": "C166",
   "status": "proved",
   "theorems": [
    "LLab.Aco.Woa.C166_step",
    "LLab.Aco.Woa.C166_exploit",
    "LLab.Aco.Woa.C166_distance"
   ],
   "note": "All clauses are proved for the candidates of one weight in exact arithmetic; best_global_params non-NULL."
  },
  {
   "property": "C167",
   "status": "partial",
   "theorems": [
    "LLab.Aco.Gsa.C167_moves",
    "LLab.Aco.Gsa.C167_runs",
    "LLab.Aco.Gsa.C167_speed",
    "LLab.Aco.Gsa.C167_attract",
    "LLab.Aco.Gsa.C167_rest_partial",
    "LLab.Aco.Gsa.C167_rest_refuted",
    "LLab.Aco.Gsa.C167_leader_refuted",
    "LLab.Aco.Gsa.C167_largest_stays",
    "LLab.Aco.Schedules.C167_growth_refuted"
   ],
   "note": "Proved: the steps run, where each candidate goes, bounded speed, attraction, rest of the swarm variant. Refuted: rest of the plain variant (with the default omega every value is multiplied by e at the end), leadership of the brightest in the swarm variant. Exact arithmetic; pow and exp are parameters."
  },
  {
   "property": "C168",
   "status": "proved",
   "theorems": [
    "LLab.BatchNorm.C168_forward_interleaved",
    "LLab.BatchNorm.C168_forward",
    "LLab.BatchNorm.C168_backward",
    "LLab.BatchNorm.C168_backward_interleaved"
   ],
   "note": "All clauses, over the reals."
  },
  {
   "property": "C169",
   "status": "partial",
   "theorems": [
    "LLab.Aco.Schedules.C169_gravity",
    "LLab.Aco.Schedules.C169_step_partial",
    "LLab.Aco.Schedules.C169_step_refuted",
    "LLab.Aco.Schedules.C169_alpha",
    "LLab.Aco.Schedules.C169_exploit",
    "LLab.Aco.Schedules.C169_weight_partial",
    "LLab.Aco.Schedules.C169_weight_refuted",
    "LLab.Aco.Schedules.C169_pulls_refuted",
    "LLab.Aco.Schedules.C169_lambda_refuted",
    "LLab.Aco.Schedules.C169_lambda_partial"
   ],
   "note": "Proved: gravity, alpha, no search in the second half, bounds and monotonicity of the firefly step and the whale weight. Refuted: fading of the firefly step, sign of the whale weight, own pull, value of lambda in the last quarter."
  },
  {
   "property": "C170",
   "status": "partial",
   "theorems": [
    "LLab.Search.Life.C170_runs",
    "LLab.Search.Life.C170_no_leak",
    "LLab.Search.Life.C170_intact",
    "LLab.Search.Life.C170_full",
    "LLab.Search.Life.C170_add_partial",
    "LLab.Search.Life.C170_added_refuted",
    "LLab.Search.Life.C170_slot_refuted"
   ],
   "note": "Proved: runs, no leak, blocks of others intact, full nodes. Refuted: edges added by the user (leak and overrun), use of free cells. realloc always moves; policy with at least one output, reward network with at least one layer."
  },
  {
   "property": "C171",
   "status": "partial",
   "theorems": [
    "LLab.RootNoise.C171_loop",
    "LLab.RootNoise.C171_sum_partial",
    "LLab.RootNoise.C171_mix",
    "LLab.RootNoise.C171_alpha_refuted",
    "LLab.RootNoise.C171_gamma_refuted",
    "LLab.RootNoise.C171_probability_refuted",
    "LLab.RootNoise.C171_weights_refuted",
    "LLab.RootNoise.C171_exists_refuted"
   ],
   "note": "Proved: the rejection loop takes the first pair of draws in the disc, a sample that exists has one entry for each action and adds up to one, and the mixture with the prior keeps the sum. Refuted: the concentration cancels (the same draws give the same sample for all of its values but zero), the variates are negative for half of the draws, the sample is (2, -1) for some draws, so that actions get negative weights, and it does not exist if the variates add up to zero or a pair of draws is at the centre."
  },
  {
   "property": "C172",
   "status": "proved",
   "theorems": [
    "LLab.FactNoise.C172_root",
    "LLab.FactNoise.C172_noise",
    "LLab.FactNoise.C172_rank",
    "LLab.FactNoise.C172_empty"
   ],
   "note": "Proved for all sizes with at least one input; without inputs the noise of the biases is left as it is (C172_empty)."
  },
  {
   "property": "C173",
   "status": "partial",
   "theorems": [
    "LLab.Stats.C173_mean",
    "LLab.Stats.C173_variance_partial",
    "LLab.Stats.C173_std_refuted",
    "LLab.Stats.C173_product",
    "LLab.Stats.C173_assoc",
    "LLab.Stats.C173_product_refuted"
   ],
   "note": "Proved: the mean lies within the bounds of the entries and is the least-squares point; std is the mean of the squared differences and ignores the offset; mat_mul adds the product to the third matrix and products of three matrices agree. Refuted: std takes no root, so it is the deviation only if that is zero or one and grows with the square of the scale; the third matrix holds the product only if it was zero."
  },
  {
   "property": "C174",
   "status": "proved",
   "theorems": [
    "LLab.Neat.Adjust.C174_order",
    "LLab.Neat.Adjust.C174_numbers",
    "LLab.Neat.Adjust.C174_canonical"
   ],
   "note": "Proved for all genomes with live nodes and connections; the canonical form needs distinct numbers."
  },
  {
   "property": "C175",
   "status": "partial",
   "theorems": [
    "LLab.Aco.NodeLife.C175_edges",
    "LLab.Aco.NodeLife.C175_no_leak_partial",
    "LLab.Aco.NodeLife.C175_leak_refuted"
   ],
   "note": "Proved for all sequences of added edges; freeing leaves no block of the node if it has no weights or no biases. Refuted: a node with both loses the velocity of its weights (overwritten by that of the biases), one block or two."
  },
  {
   "property": "C176",
   "status": "partial",
   "theorems": [
    "LLab.Neat.GenomeFile.C176_roundtrip_partial",
    "LLab.Neat.GenomeFile.C176_reachable",
    "LLab.Neat.GenomeFile.C176_counter_refuted",
    "LLab.Neat.GenomeFile.C176_kinds_refuted",
    "LLab.Neat.GenomeFile.C176_cut_refuted"
   ],
   "note": "Both loaders are proved to bring back the genome, and the complete one the counters, also for every genome of every reachable population. Refuted: a counter smaller than a connection's number makes the loader write outside its array; neither loader notices a file of the other kind; a file cut at any cell is read past its end without a check of fread, so fields stay uninitialised. Cells are typed, so reading a float as an int counts as undefined rather than as some number."
  },
  {
   "property": "C177",
   "status": "partial",
   "theorems": [
    "LLab.RL.DdpgLife.C177_checks_partial",
    "LLab.RL.DdpgLife.C177_null",
    "LLab.RL.DdpgLife.C177_residual_refuted",
    "LLab.RL.DdpgLife.C177_made",
    "LLab.RL.DdpgLife.C177_free_partial",
    "LLab.RL.DdpgLife.C177_leak_refuted"
   ],
   "note": "Proved: the checks for networks whose rows of layers are all used, what is made, and that freeing never goes wrong and frees everything but seven blocks. Refuted: free_ddpg always leaves the seven arrays of output pointers behind; a residual last layer followed by an unused row is not noticed. A network counts as one block, and the numbers kept in the learner are not modelled."
  },
  {
   "property": "C178",
   "status": "proved",
   "theorems": [
    "LLab.Aco.AntSystem.C178_update",
    "LLab.Aco.AntSystem.C178_total",
    "LLab.Aco.AntSystem.C178_order"
   ],
   "note": "Over any commutative ring, so without the rounding of doubles. The list of all edges has no edge twice and has every edge that is passed; flags are down before, and proved down after."
  },
  {
   "property": "C179",
   "status": "partial",
   "theorems": [
    "LLab.Transf.TransfLife.C179_copy_partial",
    "LLab.Transf.TransfLife.C179_free_partial",
    "LLab.Transf.TransfLife.C179_encoders_refuted",
    "LLab.Transf.TransfLife.C179_null_refuted"
   ],
   "note": "Proved for transformers with at least one encoder and one decoder and a full matrix. Refuted: the copy of a transformer of encoders alone has a null matrix, which free_transf reads, so it can never be freed; the same for any transformer made with a null matrix. An encoder or decoder counts as one block."
  },
  {
   "property": "C180",
   "status": "partial",
   "theorems": [
    "LLab.Transf.TransfUpdate.C180_parts",
    "LLab.Transf.TransfUpdate.C180_powers_partial",
    "LLab.Transf.TransfUpdate.C180_train_partial",
    "LLab.Transf.TransfUpdate.C180_adam_refuted",
    "LLab.Transf.TransfUpdate.C180_first_refuted",
    "LLab.Transf.TransfUpdate.C180_stuck_refuted"
   ],
   "note": "Proved: every algorithm updates every part in its turn; with every algorithm but Adam the powers are as claimed, also over any number of updates. Refuted for Adam: every encoder, also that of a decoder, divides the powers by its betas; so at the first update the norms of the first encoder and the networks that follow get powers that are 1, for which the correction divides by zero; with a single encoder the powers never change. Null networks and rounding are not modelled."
  },
  {
   "property": "C181",
   "status": "proved",
   "theorems": [
    "LLab.Transf.LayerLife.C181_made",
    "LLab.Transf.LayerLife.C181_encoder_copy",
    "LLab.Transf.LayerLife.C181_encoder_free",
    "LLab.Transf.LayerLife.C181_decoder_copy",
    "LLab.Transf.LayerLife.C181_decoder_free",
    "LLab.Transf.LayerLife.C181_inside"
   ],
   "note": "Proved for everything the constructors return (C181_made); for decoders given as many normalisation layers as their flags use. A network or normalisation layer is one block with contents. The versions without learning parameters and the contents of the buffers are not modelled. That a decoder with a normalisation after the first attention only cannot be built is C127_single_norm_refuted."
  },
  {
   "property": "C182",
   "status": "partial",
   "theorems": [
    "LLab.SumLstm.C182_sum_partial",
    "LLab.SumLstm.C182_order",
    "LLab.SumLstm.C182_parts",
    "LLab.SumLstm.C182_biases_refuted"
   ],
   "note": "Proved for all models without a layer of frozen biases; the order and the parts for all. Refuted with frozen biases: the gradients of the weights and recurrent weights of such layers are never summed. Group normalisation is summed rightly here, other than in convolutional layers (C39). Additions are exact; the shapes are those of the first model."
  }
 ]
}