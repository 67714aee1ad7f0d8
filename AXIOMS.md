# Axioms used by each theorem in MANIFEST.json

Output of `#print axioms`, grouped.

## none (5)

* LLab.EzAll.C148_beta
* LLab.EzReward.C146_free_refuted
* LLab.TrainSave.C134_empty_arrays_refuted
* LLab.Utils.C55_convert_data_never_converts
* LLab.Utils.C55_little_endian_partial

## propext (15)

* LLab.Attention.C32_merge_refuted
* LLab.Chain.C112_free_partial
* LLab.Chain.C112_free_refuted
* LLab.Ddpg.C81_partial
* LLab.Ddpg.C81_refuted
* LLab.FclLife.C155_free
* LLab.RL.DdpgLife.C177_null
* LLab.Save.C45_vector_partial
* LLab.Save.C45_vector_refuted
* LLab.Scores.C56_only_first_refuted
* LLab.Search.Life.C170_added_refuted
* LLab.Search.Life.C170_slot_refuted
* LLab.Species.C49_delete
* LLab.Transf.TransfLife.C179_null_refuted
* LLab.Utils.C03_int_vector_refuted

## Quot.sound (1)

* LLab.EzAll.C148_copy

## propext, Quot.sound (98)

* LLab.Aco.AntSystem.C178_order
* LLab.Aco.AntSystem.C178_total
* LLab.Aco.AntSystem.C178_update
* LLab.Aco.C103_bounds
* LLab.Aco.C104_best_trail
* LLab.Aco.C104_report_refuted
* LLab.Aco.C109_inertia
* LLab.Aco.C109_personal_best
* LLab.Aco.C110_masses_refuted
* LLab.BnLife.C156_paste_refuted
* LLab.ConvLife.C157_reset_popup_refuted
* LLab.Cycles.C51_refuted
* LLab.Ddpg.C52_overflow_refuted
* LLab.Ddpg.C52_terminal_partial
* LLab.Dict.C08_dictionary
* LLab.Dict.C08_dictionary_fixed_length
* LLab.EzAll.C148_copy_parts
* LLab.EzAll.C148_edge_partial
* LLab.EzAll.C148_init
* LLab.EzAll.C148_make_ff
* LLab.EzAll.C148_paste
* LLab.EzAll.C148_reset_batch_ff_partial
* LLab.EzAll.C148_reset_batch_ff_refuted
* LLab.EzAll.C148_reset_batch_partial
* LLab.EzAll.C148_reset_batch_refuted
* LLab.EzAll.C148_reset_ff_partial
* LLab.EzAll.C148_reset_ff_refuted
* LLab.EzAll.C148_reset_partial
* LLab.EzAll.C148_reset_refuted
* LLab.EzReward.C146_history
* LLab.EzReward.C146_window_bp_refuted
* LLab.FclLife.C155_arrays
* LLab.FclLife.C155_construct
* LLab.FclLife.C155_copy_only_dropout_refuted
* LLab.FclLife.C155_inference_training
* LLab.FclLife.C155_no_leak
* LLab.FclLife.C155_reset_only_ff_refuted
* LLab.Files.C09_effect
* LLab.Files.C09_exclusive
* LLab.Files.C09_history
* LLab.Files.C09_release_restores
* LLab.Flat.C149_params
* LLab.Flat.C149_scores_partial
* LLab.Flat.C149_scores_refuted
* LLab.Flat.C149_weights
* LLab.Flat.C44_dueling
* LLab.Flat.C44_params
* LLab.Flat.C44_rmodel
* LLab.Flat.C44_scores
* LLab.Flat.C44_weights
* LLab.LstmLife.C162_accepts
* LLab.LstmLife.C162_paste_refuted
* LLab.LstmLife.C162_paste_stripped_refuted
* LLab.LstmLife.C162_strip
* LLab.LstmLife.C162_stripped_refuted
* LLab.ModelLife.C158_copy_refuted
* LLab.ModelLife.C159_dqn_copy_refuted
* LLab.ModelLife.C160_rates_refuted
* LLab.ModelLife.C161_copy_ready
* LLab.ModelLife.C161_stripped_refuted
* LLab.Neat.Adjust.C174_numbers
* LLab.Neat.C50_self_partial
* LLab.Neat.GenomeFile.C176_counter_refuted
* LLab.Neat.GenomeFile.C176_kinds_refuted
* LLab.Neat.Life.C165_free_refuted
* LLab.Network.C46_count_refuted
* LLab.Network.C79_interleaved_refuted
* LLab.Network.C79_size_refuted
* LLab.Network.C82_rebuild_partial
* LLab.Network.C82_rebuild_refuted
* LLab.Parse.C131_digits_partial
* LLab.Parse.C131_digits_refuted
* LLab.Parse.C131_line_end_refuted
* LLab.Parse.C131_long_field_refuted
* LLab.Replay.C10_slots_distinct
* LLab.Replay.C58_write_back_refuted
* LLab.Save.C128_decoders_refuted
* LLab.Save.C45_bn
* LLab.Save.C45_l2
* LLab.Save.C83_duplicate_refuted
* LLab.ScoreNorm.C152_global_refuted
* LLab.ScoreNorm.C152_internal_refuted
* LLab.Scores.C56_vector_refuted
* LLab.Search.Life.C170_add_partial
* LLab.Search.Life.C170_full
* LLab.Sort.C02_sort_already_sorted_partial
* LLab.Species.C49_create
* LLab.SumLstm.C182_parts
* LLab.TConv.C67_sizes
* LLab.TrainSave.C134_models
* LLab.TrainSave.C134_overlap_refuted
* LLab.TrainSave.C134_words_lost_refuted
* LLab.Transf.TransfUpdate.C180_parts
* LLab.Transf.TransfUpdate.C180_powers_partial
* LLab.Transf.TransfUpdate.C180_train_partial
* LLab.Utils.C06_argmax
* LLab.Utils.C06_argmax_failure
* LLab.Utils.C55_reverse_ptr_partial

## propext, Classical.choice, Quot.sound (705)

* LLab.Aco.C100_best_model_partial
* LLab.Aco.C100_best_model_refuted
* LLab.Aco.C101_proportional
* LLab.Aco.C101_zero_draw_refuted
* LLab.Aco.C102_collected
* LLab.Aco.C103_best_bounds
* LLab.Aco.C103_update
* LLab.Aco.C103_update_nodes
* LLab.Aco.C104_report_partial
* LLab.Aco.C105_negative_refuted
* LLab.Aco.C105_taus_partial
* LLab.Aco.C105_taus_refuted
* LLab.Aco.C106_negative_refuted
* LLab.Aco.C106_recompute
* LLab.Aco.C106_stagnation_partial
* LLab.Aco.C107_subnodes_partial
* LLab.Aco.C107_subnodes_refuted
* LLab.Aco.C108_depth_partial
* LLab.Aco.C108_depth_refuted
* LLab.Aco.C108_leaders
* LLab.Aco.C108_pso
* LLab.Aco.C109_constants
* LLab.Aco.C110_masses_partial
* LLab.Aco.C99_ant
* LLab.Aco.C99_ant_by_edges
* LLab.Aco.C99_ant_by_nodes
* LLab.Aco.C99_graph
* LLab.Aco.C99_network_of_trail
* LLab.Aco.Fa.C164_attraction
* LLab.Aco.Fa.C164_brightest
* LLab.Aco.Fa.C164_choice
* LLab.Aco.Fa.C164_dimmest_refuted
* LLab.Aco.Fa.C164_small_refuted
* LLab.Aco.Fa.C164_step_partial
* LLab.Aco.Gsa.C167_attract
* LLab.Aco.Gsa.C167_largest_stays
* LLab.Aco.Gsa.C167_leader_refuted
* LLab.Aco.Gsa.C167_moves
* LLab.Aco.Gsa.C167_rest_partial
* LLab.Aco.Gsa.C167_rest_refuted
* LLab.Aco.Gsa.C167_runs
* LLab.Aco.Gsa.C167_speed
* LLab.Aco.NodeLife.C175_edges
* LLab.Aco.NodeLife.C175_leak_refuted
* LLab.Aco.NodeLife.C175_no_leak_partial
* LLab.Aco.Schedules.C167_growth_refuted
* LLab.Aco.Schedules.C169_alpha
* LLab.Aco.Schedules.C169_exploit
* LLab.Aco.Schedules.C169_gravity
* LLab.Aco.Schedules.C169_lambda_partial
* LLab.Aco.Schedules.C169_lambda_refuted
* LLab.Aco.Schedules.C169_pulls_refuted
* LLab.Aco.Schedules.C169_step_partial
* LLab.Aco.Schedules.C169_step_refuted
* LLab.Aco.Schedules.C169_weight_partial
* LLab.Aco.Schedules.C169_weight_refuted
* LLab.Aco.Woa.C166_distance
* LLab.Aco.Woa.C166_exploit
* LLab.Aco.Woa.C166_step
* LLab.Act.C20_elu
* LLab.Act.C20_leaky_relu
* LLab.Act.C20_relu
* LLab.Act.C20_sigmoid
* LLab.Act.C20_sigmoid_given
* LLab.Act.C20_tanh
* LLab.Act.C20_values
* LLab.Agc.C38_agc_partial
* LLab.Agc.C38_agc_refuted
* LLab.Agc.C38_kernels_partial
* LLab.Attention.C117_multi_head_backward_partial
* LLab.Attention.C117_split_refuted
* LLab.Attention.C31_attention
* LLab.Attention.C31_causal
* LLab.Attention.C31_convex
* LLab.Attention.C31_prefix
* LLab.Attention.C32_merge_partial
* LLab.Attention.C32_multi_head_partial
* LLab.Attention.C32_split_partial
* LLab.Attention.C68_attention_backward
* LLab.Batch.C139_decrease
* LLab.Batch.C139_history
* LLab.Batch.C139_runs
* LLab.Batch.C139_schedule_free
* LLab.Batch.C139_step
* LLab.BatchNorm.C168_backward
* LLab.BatchNorm.C168_backward_interleaved
* LLab.BatchNorm.C168_forward
* LLab.BatchNorm.C168_forward_interleaved
* LLab.BatchNorm.C33_batch_norm
* LLab.BatchNorm.C34_gamma_beta_partial
* LLab.BatchNorm.C34_input_error_refuted
* LLab.BatchNorm.C69_final_statistics_partial
* LLab.BatchNorm.C69_final_statistics_refuted
* LLab.BnLife.C156_construct
* LLab.BnLife.C156_copy
* LLab.BnLife.C156_free
* LLab.BnLife.C156_free_only_ff_refuted
* LLab.BnLife.C156_no_leak
* LLab.BnLife.C156_paste_partial
* LLab.BnLife.C156_reset
* LLab.BnLife.C156_strip
* LLab.CNet.C135_gradient
* LLab.CNet.C135_step
* LLab.CNet.C136_adjacent_refuted
* LLab.CNet.C136_clobbered_refuted
* LLab.CNet.C136_forward
* LLab.CNet.C136_gradient_partial
* LLab.CNet.C136_single_refuted
* LLab.Categorical.C16_error
* LLab.Categorical.C16_mass_and_mean
* LLab.Categorical.C16_projection
* LLab.Categorical.C16_terminal
* LLab.Categorical.C74_bootstrap_partial
* LLab.Categorical.C74_no_reset_refuted
* LLab.Categorical.C74_variants_refuted
* LLab.Chain.C111_optimum_refuted
* LLab.Chain.C111_twice_refuted
* LLab.Chain.C111_vae_partial
* LLab.Chain.C84_model_gradient
* LLab.Chain.C85_huber_partial
* LLab.Chain.C85_huber_refuted
* LLab.Chain.C85_step
* LLab.Chain.C86_mean_refuted
* LLab.Chain.C86_no_activation_refuted
* LLab.Chain.C86_out_of_bounds_refuted
* LLab.Chain.C86_test_partial
* LLab.Chain.C86_train
* LLab.Clip.C22_clip
* LLab.Clip.C22_copy_clipped
* LLab.ClipGrad.C37_freeze_biases_refuted
* LLab.ClipGrad.C37_general_large_partial
* LLab.ClipGrad.C37_general_partial
* LLab.ClipGrad.C37_general_refuted
* LLab.ClipGrad.C37_joint_partial
* LLab.ClipGrad.C37_layer_norm_refuted
* LLab.ClipGrad.C37_rmodel_bounds_refuted
* LLab.ClipGrad.C37_rmodel_refuted
* LLab.Consensus.C151_agreed
* LLab.Consensus.C151_agreed_float
* LLab.Consensus.C151_increasing_partial
* LLab.Consensus.C151_mean_refuted
* LLab.Consensus.C151_merge_sort_refuted
* LLab.Consensus.C151_pair_partial
* LLab.Consensus.C151_sorted_refuted
* LLab.Consensus.C151_three_refuted
* LLab.Conv.C26_feed_forward
* LLab.Conv.C26_sizes
* LLab.Conv.C27_back_prop
* LLab.ConvLife.C157_arrays
* LLab.ConvLife.C157_construct
* LLab.ConvLife.C157_copy
* LLab.ConvLife.C157_free
* LLab.ConvLife.C157_no_leak
* LLab.ConvLife.C157_paste_partial
* LLab.ConvLife.C157_paste_refuted
* LLab.ConvLife.C157_ranking_refuted
* LLab.ConvLife.C157_reset
* LLab.ConvLife.C157_reset_ff
* LLab.ConvLife.C157_strip_partial
* LLab.ConvLife.C157_strip_refuted
* LLab.ConvPopup.C141_bias_refuted
* LLab.ConvPopup.C141_forward
* LLab.ConvPopup.C141_inputs
* LLab.ConvPopup.C141_scores
* LLab.ConvPopup.C141_weights
* LLab.Cycles.C51_levelled_partial
* LLab.Ddpg.C52_refuted
* LLab.Diversity.C150_kl
* LLab.Diversity.C150_kl_plain_partial
* LLab.Diversity.C150_kl_plain_refuted
* LLab.Diversity.C150_kl_plain_value_refuted
* LLab.Diversity.C150_l1
* LLab.Diversity.C150_l1_cells
* LLab.Diversity.C150_l1_equal
* LLab.Diversity.C150_l1_plain_partial
* LLab.Diversity.C150_l1_plain_refuted
* LLab.Diversity.C150_l1_qr
* LLab.Diversity.C150_sup_equal_refuted
* LLab.Diversity.C150_sup_partial
* LLab.Diversity.C150_sup_qr_partial
* LLab.Diversity.C150_sup_refuted
* LLab.Dueling.C17_distribution
* LLab.Dueling.C17_head
* LLab.Dueling.C17_offset
* LLab.Dueling.C73_advantage_refuted
* LLab.Dueling.C73_value_gradient_partial
* LLab.EdgePopup.C25_backward
* LLab.EdgePopup.C25_forward
* LLab.EdgePopup.C25_scores
* LLab.EdgePopup.C25_zeroing
* LLab.EdgePopup.C66_fractional_refuted
* LLab.EdgePopup.C66_used_outputs_partial
* LLab.Ez.C145_heads_partial
* LLab.Ez.C145_one_thread_refuted
* LLab.Ez.C145_single_body_refuted
* LLab.Ez.C145_single_forward
* LLab.Ez.C145_single_refuted
* LLab.EzAll.C148_edge_refuted
* LLab.EzAll.C148_free
* LLab.EzReward.C146_opt_bp_partial
* LLab.EzReward.C146_opt_outside_refuted
* LLab.EzReward.C146_opt_overlap_refuted
* LLab.EzReward.C146_opt_partial
* LLab.EzReward.C146_opt_reads
* LLab.EzReward.C146_window_bp_partial
* LLab.EzReward.C146_window_partial
* LLab.EzReward.C146_window_refuted
* LLab.FC.C23_feed_forward
* LLab.FC.C24_back_prop
* LLab.FC.C24_batch
* LLab.FC.C65_accumulation_refuted
* LLab.FC.C65_backward_partial
* LLab.FC.C65_forward
* LLab.FC.C65_no_bias_refuted
* LLab.FactNoise.C172_empty
* LLab.FactNoise.C172_noise
* LLab.FactNoise.C172_rank
* LLab.FactNoise.C172_root
* LLab.FclLife.C155_copy_noise_refuted
* LLab.FclLife.C155_copy_partial
* LLab.FclLife.C155_independent
* LLab.FclLife.C155_only_ff
* LLab.FclLife.C155_paste
* LLab.FclLife.C155_paste_other_size
* LLab.FclLife.C155_reset
* LLab.FclLife.C155_reset_for_edge_popup_refuted
* LLab.FclLife.C155_reset_popup_training
* LLab.Generation.C90_generation_defined
* LLab.Generation.C91_best_fitness_monotone
* LLab.Generation.C91_best_survives
* LLab.Generation.C92_population_size
* LLab.Generation.C93_best_so_far
* LLab.Generation.C93_improvement
* LLab.Generation.C93_improvement_refuted
* LLab.Generation.C93_saved
* LLab.Generation.C93_stagnation
* LLab.Generation.C94_normalised_partial
* LLab.Generation.C94_normalised_refuted
* LLab.Generation.C95_retired_refuted
* LLab.Generation.C96_set_max_population_refuted
* LLab.Generation.C96_weakest_removed_partial
* LLab.Generation.C96_weakest_removed_refuted
* LLab.GroupNorm.C153_gamma_beta_partial
* LLab.GroupNorm.C153_group_partial
* LLab.GroupNorm.C153_group_refuted
* LLab.GroupNorm.C153_input_error_refuted
* LLab.GroupNorm.C153_no_influence_refuted
* LLab.GroupNorm.C97_channel_norm
* LLab.GroupNorm.C98_group_norm_partial
* LLab.GroupNorm.C98_group_norm_refuted
* LLab.GroupNorm.C98_unused_refuted
* LLab.IqTrain.C123_epoch_partial
* LLab.IqTrain.C123_own_batch_refuted
* LLab.IqTrain.C123_training_partial
* LLab.L2Norm.C35_scaled_l2_forward
* LLab.L2Norm.C35_scaled_l2_gradient
* LLab.LRN.C87_forward
* LLab.LRN.C87_forward_tensor
* LLab.LRN.C88_gradient_partial
* LLab.LRN.C88_refuted
* LLab.LSTM.C144_popup_cell_refuted
* LLab.LSTM.C144_residual_refuted
* LLab.LSTM.C144_stack_gradient_partial
* LLab.LSTM.C36_lstm_bounded
* LLab.LSTM.C70_lstm_forward
* LLab.LSTM.C71_bptt_gradient_partial
* LLab.LSTM.C71_window_one_refuted
* LLab.LSTM.C72_input_error_refuted
* LLab.LSTMPopup.C143_all_weights_refuted
* LLab.LSTMPopup.C143_cell_state_refuted
* LLab.LSTMPopup.C143_forward_partial
* LLab.LSTMPopup.C143_layer_above_partial
* LLab.LSTMPopup.C143_next_step_partial
* LLab.LSTMPopup.C143_recurrent_only_refuted
* LLab.LSTMPopup.C143_scores_partial
* LLab.LSTMPopup.C143_uninitialised_refuted
* LLab.Loss.C21_contrastive_partial
* LLab.Loss.C21_contrastive_refuted
* LLab.Loss.C21_cross_entropy
* LLab.Loss.C21_cross_entropy_softmax
* LLab.Loss.C21_entropy
* LLab.Loss.C21_focal
* LLab.Loss.C21_huber_partial
* LLab.Loss.C21_huber_refuted
* LLab.Loss.C21_kl
* LLab.Loss.C21_modified_huber
* LLab.Loss.C21_mse
* LLab.LstmLife.C162_active_refuted
* LLab.LstmLife.C162_construct_partial
* LLab.LstmLife.C162_copy_partial
* LLab.LstmLife.C162_copy_refuted
* LLab.LstmLife.C162_free
* LLab.LstmLife.C162_no_leak_partial
* LLab.LstmLife.C162_paste_partial
* LLab.LstmLife.C162_popup_forward_refuted
* LLab.LstmLife.C162_reset_ff
* LLab.LstmLife.C162_reset_partial
* LLab.Mcts.C57_probability_partial
* LLab.Mcts.C57_selection_partial
* LLab.Mcts.C57_selection_refuted
* LLab.Mcts.C57_statistics_refuted
* LLab.Mcts.C57_value
* LLab.Mcts.C80_ucb_partial
* LLab.Mcts.C80_ucb_refuted
* LLab.ModelLife.C158_copy_partial
* LLab.ModelLife.C158_free
* LLab.ModelLife.C158_independent
* LLab.ModelLife.C158_network
* LLab.ModelLife.C158_set_error_alias_refuted
* LLab.ModelLife.C158_set_error_partial
* LLab.ModelLife.C158_set_error_stale_refuted
* LLab.ModelLife.C158_set_error_unweighted
* LLab.ModelLife.C159_dqn
* LLab.ModelLife.C159_dqn_copy_partial
* LLab.ModelLife.C159_dqn_free
* LLab.ModelLife.C159_dqn_independent
* LLab.ModelLife.C159_vae_free_partial
* LLab.ModelLife.C159_vae_free_refuted
* LLab.ModelLife.C159_vae_leak_refuted
* LLab.ModelLife.C159_vae_partial
* LLab.ModelLife.C160_copy_back
* LLab.ModelLife.C160_dqn
* LLab.ModelLife.C160_paste_partial
* LLab.ModelLife.C160_short_refuted
* LLab.ModelLife.C160_vae
* LLab.ModelLife.C161_dqn_partial
* LLab.ModelLife.C161_model_partial
* LLab.ModelLife.C161_vae_partial
* LLab.MultiCore.C40_at_most_threads
* LLab.MultiCore.C40_each_once
* LLab.MultiCore.C40_loss_partial
* LLab.MultiCore.C40_loss_refuted
* LLab.MultiCore.C40_zero_threads_partial
* LLab.MultiCoreR.C130_own_models
* LLab.MultiCoreR.C130_shared_model_partial
* LLab.MultiCoreR.C130_shared_model_refuted
* LLab.Neat.Adjust.C174_canonical
* LLab.Neat.Adjust.C174_order
* LLab.Neat.C47_defined
* LLab.Neat.C47_hidden
* LLab.Neat.C47_innovation
* LLab.Neat.C47_wellformed
* LLab.Neat.C48_child
* LLab.Neat.C50_nonmatching_partial
* LLab.Neat.C50_refuted
* LLab.Neat.C50_symmetric_partial
* LLab.Neat.C50_value_partial
* LLab.Neat.C54_reachable
* LLab.Neat.C54_roundtrip
* LLab.Neat.GenomeFile.C176_cut_refuted
* LLab.Neat.GenomeFile.C176_reachable
* LLab.Neat.GenomeFile.C176_roundtrip_partial
* LLab.Neat.Life.C165_bias_refuted
* LLab.Neat.Life.C165_copy_partial
* LLab.Neat.Life.C165_free
* LLab.Neat.Life.C165_independent
* LLab.NeatFF.C116_disabled
* LLab.NeatFF.C116_range
* LLab.NeatFF.C116_skip_refuted
* LLab.NeatFF.C116_trees_partial
* LLab.NeatThreads.C113_each_once
* LLab.NeatThreads.C113_null
* LLab.NeatThreads.C113_selected
* LLab.Network.C46_network_partial
* LLab.Network.C79_size_partial
* LLab.Noise.C53_bounds
* LLab.Noise.C53_history
* LLab.Noise.C78_reset_partial
* LLab.Noise.C78_reset_refuted
* LLab.NormFc.C89_dropout_refuted
* LLab.NormFc.C89_forward
* LLab.NormFc.C89_gradient_partial
* LLab.NormFc.C89_no_dropout_refuted
* LLab.Optim.C41_adam_constant
* LLab.Optim.C41_adam_moments
* LLab.Optim.C41_adam_step_bound
* LLab.Optim.C41_adamod
* LLab.Optim.C41_diff_grad
* LLab.Optim.C41_nesterov_lookahead
* LLab.Optim.C41_nesterov_zero
* LLab.Optim.C41_radam
* LLab.Optim.C41_second_moment_nonneg
* LLab.Parse.C131_char_rows_partial
* LLab.Parse.C131_char_single_partial
* LLab.Parse.C131_csv_rows_partial
* LLab.Parse.C131_csv_single_partial
* LLab.Parse.C131_no_final_separator_refuted
* LLab.Parse.C132_crlf_refuted
* LLab.Parse.C132_missing_separator_refuted
* LLab.Parse.C132_parse_partial
* LLab.Parse.C132_wrong_header_refuted
* LLab.Parse.C133_first_name
* LLab.Parse.C133_models_partial
* LLab.Parse.C133_name_prefix_refuted
* LLab.Parse.C133_sections_partial
* LLab.PolicyError.C120_entropy_falls_refuted
* LLab.PolicyError.C120_entropy_refuted
* LLab.PolicyError.C120_one_action_refuted
* LLab.PolicyError.C120_policy_error
* LLab.PolicyError.C121_chi_square_refuted
* LLab.PolicyError.C121_inverse_q_error
* LLab.PolicyTrain.C122_clipping_refuted
* LLab.PolicyTrain.C122_decay_refuted
* LLab.PolicyTrain.C122_history_partial
* LLab.PolicyTrain.C122_passage_partial
* LLab.PolicyTrain.C122_policies_partial
* LLab.PolicyTrain.C122_policies_range_refuted
* LLab.PolicyTrain.C122_policies_threads_refuted
* LLab.PolicyTrain.C122_zero_threads_refuted
* LLab.Pool.C29_max_pooling_partial
* LLab.Pool.C29_max_pooling_refuted
* LLab.Pool.C29_sizes
* LLab.Pool.C30_average_forward
* LLab.Pool.C30_average_gradient_partial
* LLab.Pool.C30_average_overlap_refuted
* LLab.Pool.C30_max_conservation_partial
* LLab.Pool.C30_max_gradient_partial
* LLab.Pool.C30_max_overlap_refuted
* LLab.Quantile.C75_mid_partial
* LLab.Quantile.C75_opt_partial
* LLab.Quantile.C75_plain_bounds_refuted
* LLab.Quantile.C75_plain_row_refuted
* LLab.Quantile.C76_advantage_partial
* LLab.Quantile.C76_advantage_refuted
* LLab.Quantile.C76_value_gradient
* LLab.RL.DdpgLife.C177_checks_partial
* LLab.RL.DdpgLife.C177_free_partial
* LLab.RL.DdpgLife.C177_leak_refuted
* LLab.RL.DdpgLife.C177_made
* LLab.RL.DdpgLife.C177_residual_refuted
* LLab.RainbowTrain.C129_batch_partial
* LLab.RainbowTrain.C129_discount_refuted
* LLab.RainbowTrain.C129_distance_one_thread_partial
* LLab.RainbowTrain.C129_distance_refuted
* LLab.RainbowTrain.C129_diversity_partial
* LLab.RainbowTrain.C129_diversity_refuted
* LLab.RainbowTrain.C129_enough_threads_partial
* LLab.RainbowTrain.C129_passage_partial
* LLab.RainbowTrain.C129_target
* LLab.RainbowTrain.C129_weights_partial
* LLab.RainbowTrain.C129_weights_refuted
* LLab.Random.C114_encoding_partial
* LLab.Random.C114_paper_refuted
* LLab.Random.C115_beta_partial
* LLab.Random.C115_beta_refuted
* LLab.Random.C115_layers
* LLab.Random.C115_normal
* LLab.Random.C115_ranges
* LLab.Regularize.C77_cl_partial
* LLab.Regularize.C77_cl_scores_refuted
* LLab.Regularize.C77_fcl_partial
* LLab.Regularize.C77_freeze_biases_refuted
* LLab.Regularize.C77_lstm_partial
* LLab.Replay.C10_ring
* LLab.Replay.C11_heap
* LLab.Replay.C11_root_is_max
* LLab.Replay.C12_cumulative_tree
* LLab.Replay.C12_ranked_insertions
* LLab.Replay.C13_ranked_in_range
* LLab.Replay.C13_rewards_refuted
* LLab.Replay.C14_epsilon
* LLab.Replay.C14_reaches_minimum
* LLab.Replay.C58_write_back_single_partial
* LLab.Replay.C59_proportional
* LLab.Replay.C59_rewards_proportional
* LLab.Replay.C59_zero_draw_refuted
* LLab.Replay.C60_reward_classes
* LLab.Replay.C61_n_step
* LLab.Replay.Efficient.C154_create_partial
* LLab.Replay.Efficient.C154_gamma_refuted
* LLab.Replay.Efficient.C154_ranked
* LLab.Replay.Efficient.C154_reward
* LLab.Replay.Efficient.C154_uniform
* LLab.RmodelLife.C163_construct
* LLab.RmodelLife.C163_copy_partial
* LLab.RmodelLife.C163_copy_refuted
* LLab.RmodelLife.C163_free
* LLab.RmodelLife.C163_independent
* LLab.RmodelLife.C163_paste_partial
* LLab.RmodelLife.C163_paste_short_refuted
* LLab.RmodelLife.C163_rates_refuted
* LLab.RmodelLife.C163_reset_ff
* LLab.RmodelLife.C163_reset_partial
* LLab.RmodelLife.C163_strip
* LLab.RmodelLife.C163_stripped_refuted
* LLab.RootNoise.C171_alpha_refuted
* LLab.RootNoise.C171_exists_refuted
* LLab.RootNoise.C171_gamma_refuted
* LLab.RootNoise.C171_loop
* LLab.RootNoise.C171_mix
* LLab.RootNoise.C171_probability_refuted
* LLab.RootNoise.C171_sum_partial
* LLab.RootNoise.C171_weights_refuted
* LLab.SampleSoftmax.C62_distribution_refuted
* LLab.SampleSoftmax.C62_in_range_partial
* LLab.SampleSoftmax.C62_single_action_refuted
* LLab.Save.C128_connection_refuted
* LLab.Save.C128_constructors
* LLab.Save.C128_decoder_partial
* LLab.Save.C128_encoder_partial
* LLab.Save.C128_encoders_partial
* LLab.Save.C128_one_decoder_refuted
* LLab.Save.C147_directory_refuted
* LLab.Save.C147_overwrite_refuted
* LLab.Save.C147_save_partial
* LLab.Save.C45_cl
* LLab.Save.C45_fcl_partial
* LLab.Save.C45_k_percentage_refuted
* LLab.Save.C45_lstm_partial
* LLab.Save.C45_lstm_refuted
* LLab.Save.C45_rl
* LLab.Save.C45_sequence
* LLab.Save.C45_twice_refuted
* LLab.Save.C82_directory_refuted
* LLab.Save.C82_model_partial
* LLab.Save.C82_rmodel_partial
* LLab.Save.C83_rnetwork_partial
* LLab.Schedule.C15_annealing_refuted
* LLab.Schedule.C15_epoch_zero_refuted
* LLab.Schedule.C15_limits_partial
* LLab.Schedule.C15_minimum_refuted
* LLab.Schedule.C15_not_before_period_partial
* LLab.Schedule.C15_period_refuted
* LLab.Schedule.C15_values_partial
* LLab.ScoreNorm.C152_equal_refuted
* LLab.ScoreNorm.C152_global_partial
* LLab.ScoreNorm.C152_internal_partial
* LLab.ScoreNorm.C152_large_refuted
* LLab.ScoreNorm.C152_layer_partial
* LLab.Scores.C56_compare_partial
* LLab.Search.C138_bounds
* LLab.Search.C138_counts
* LLab.Search.C138_difference_refuted
* LLab.Search.C138_mean_refuted
* LLab.Search.C138_policy
* LLab.Search.C138_rewards
* LLab.Search.C138_single_refuted
* LLab.Search.C138_support_refuted
* LLab.Search.C138_total
* LLab.Search.C138_value
* LLab.Search.Life.C170_intact
* LLab.Search.Life.C170_no_leak
* LLab.Search.Life.C170_runs
* LLab.SlowPaste.C43_bn
* LLab.SlowPaste.C43_cl_partial
* LLab.SlowPaste.C43_cl_score_state_refuted
* LLab.SlowPaste.C43_fcl
* LLab.SlowPaste.C43_fcl_mismatch
* LLab.SlowPaste.C43_l2
* LLab.SlowPaste.C43_lstm
* LLab.SlowPaste.C43_lstm_ranking_refuted
* LLab.Softmax.C18_masked
* LLab.Softmax.C18_overflow_refuted
* LLab.Softmax.C18_shift
* LLab.Softmax.C18_softmax
* LLab.Softmax.C19_masked_gradient
* LLab.Softmax.C19_softmax_gradient
* LLab.Sort.C01_quick_sort
* LLab.Sort.C02_sort_partial
* LLab.Sort.C02_sort_refuted
* LLab.Sort.C02_sort_witnesses
* LLab.Species.C49_put
* LLab.Stats.C173_assoc
* LLab.Stats.C173_mean
* LLab.Stats.C173_product
* LLab.Stats.C173_product_refuted
* LLab.Stats.C173_std_refuted
* LLab.Stats.C173_variance_partial
* LLab.SumLstm.C182_biases_refuted
* LLab.SumLstm.C182_order
* LLab.SumLstm.C182_sum_partial
* LLab.SumTree.C39_group_norm_refuted
* LLab.SumTree.C39_layer_norm_refuted
* LLab.SumTree.C39_model_partial
* LLab.SumTree.C39_multithread
* LLab.SumTree.C39_noisy_refuted
* LLab.SumTree.C39_race_free
* LLab.SumTree.C39_residual_scores_refuted
* LLab.TConv.C28_adjoint
* LLab.TConv.C67_backward
* LLab.TConv.C67_forward
* LLab.TConvPopup.C142_bias_refuted
* LLab.TConvPopup.C142_forward
* LLab.TConvPopup.C142_inputs
* LLab.TConvPopup.C142_scores
* LLab.TConvPopup.C142_weights
* LLab.TV.C63_gradient_refuted
* LLab.TV.C63_loss_partial
* LLab.TV.C63_loss_refuted
* LLab.TrainSave.C134_file_partial
* LLab.Transf.C118_clobber_refuted
* LLab.Transf.C118_encoder_gradient_partial
* LLab.Transf.C119_copy
* LLab.Transf.C119_copy_without_parameters_refuted
* LLab.Transf.C119_forget_partial
* LLab.Transf.C119_keep_derivatives_refuted
* LLab.Transf.C119_make
* LLab.Transf.C119_reset_partial
* LLab.Transf.C119_reset_refuted
* LLab.Transf.C119_rounds_partial
* LLab.Transf.C119_tokens_refuted
* LLab.Transf.C124_forward
* LLab.Transf.C124_only_decoder
* LLab.Transf.C124_only_encoder_refuted
* LLab.Transf.C124_shared_decoder_refuted
* LLab.Transf.C125_backward
* LLab.Transf.C125_encoder_stack_partial
* LLab.Transf.C125_only_encoder_refuted
* LLab.Transf.C126_cross_gradient_partial
* LLab.Transf.C127_backward_refuted
* LLab.Transf.C127_forward_partial
* LLab.Transf.C127_heads_refuted
* LLab.Transf.C127_single_norm_refuted
* LLab.Transf.C127_transformer_backward_refuted
* LLab.Transf.C127_transformer_forward_partial
* LLab.Transf.LayerLife.C181_decoder_copy
* LLab.Transf.LayerLife.C181_decoder_free
* LLab.Transf.LayerLife.C181_encoder_copy
* LLab.Transf.LayerLife.C181_encoder_free
* LLab.Transf.LayerLife.C181_inside
* LLab.Transf.LayerLife.C181_made
* LLab.Transf.TransfLife.C179_copy_partial
* LLab.Transf.TransfLife.C179_encoders_refuted
* LLab.Transf.TransfLife.C179_free_partial
* LLab.Transf.TransfUpdate.C180_adam_refuted
* LLab.Transf.TransfUpdate.C180_first_refuted
* LLab.Transf.TransfUpdate.C180_stuck_refuted
* LLab.Update.C42_cl_history
* LLab.Update.C42_cl_once
* LLab.Update.C42_cl_partial
* LLab.Update.C42_fcl
* LLab.Update.C42_fcl_history
* LLab.Update.C42_freeze_biases
* LLab.Update.C42_frozen
* LLab.Update.C42_group_norm_refuted
* LLab.Update.C42_layer_norm_batch_refuted
* LLab.Update.C42_lstm
* LLab.Update.C42_lstm_freeze_biases_refuted
* LLab.Update.C42_lstm_frozen
* LLab.Update.C42_lstm_history
* LLab.Update.C42_lstm_scores_partial
* LLab.Update.C42_lstm_scores_refuted
* LLab.Update.C42_model_partial
* LLab.Update.C42_rmodel_norm_partial
* LLab.Update.C42_rmodel_radam_refuted
* LLab.Update.C77_update
* LLab.Utils.C03_shuffle_five_partial
* LLab.Utils.C03_shuffle_four_partial
* LLab.Utils.C03_shuffle_one
* LLab.Utils.C03_shuffle_two
* LLab.Utils.C03_shuffle_until_length
* LLab.Utils.C04_every_ordering_reachable
* LLab.Utils.C04_large_arrays_refuted
* LLab.Utils.C05_file_names_distinct
* LLab.Utils.C05_itoa_canonical
* LLab.Utils.C05_itoa_injective
* LLab.Utils.C05_itoa_int_min
* LLab.Utils.C05_itoa_round_trip
* LLab.Utils.C07_accuracy_full
* LLab.Utils.C07_confusion_counts
* LLab.Utils.C07_confusion_total
* LLab.Utils.C07_metrics_range
* LLab.Utils.C55_convert_data_refuted
* LLab.VNode.C137_copy
* LLab.VNode.C137_dropout
* LLab.VNode.C137_dropout_refuted
* LLab.VNode.C137_dropout_test
* LLab.VNode.C137_forward
* LLab.VNode.C137_free
* LLab.VNode.C137_free_refuted
* LLab.VNode.C137_getMax_partial
* LLab.VNode.C137_getMax_refuted
* LLab.VNode.C137_gradient_partial
* LLab.VNode.C137_load
* LLab.VNode.C137_load_refuted
* LLab.VNode.C137_paste
* LLab.VNode.C137_softmax_refuted
* LLab.VNode.C137_two_inputs
* LLab.VNode.C137_two_inputs_refuted
* LLab.Vec.C64_additional_mul_value
* LLab.Vec.C64_dot
* LLab.Vec.C64_elementwise
* LLab.Vec.C64_map
* LLab.Vec.C64_mat_mul
* LLab.Vec.C64_prob_average
* LLab.Vec.C64_std_refuted
* LLab.Wiring.C140_backward_partial
* LLab.Wiring.C140_backward_refuted
* LLab.Wiring.C140_built
* LLab.Wiring.C140_built_refuted
* LLab.Wiring.C140_concat_partial
* LLab.Wiring.C140_concat_refuted
* LLab.Wiring.C140_decoder_partial
* LLab.Wiring.C140_encoder_index_refuted
* LLab.Wiring.C140_encoder_partial
* LLab.Wiring.C140_errors
* LLab.Wiring.C140_fanout
* LLab.Wiring.C140_feed_partial
* LLab.Wiring.C140_model_model_refuted
* LLab.Wiring.C140_offset_refuted
* LLab.Wiring.C140_range
* LLab.Wiring.C140_rmodel_down_refuted
* LLab.Wiring.C140_rmodel_partial
* LLab.Wiring.C140_transformer
* LLab.Wiring.C140_unplaced_refuted
