# Axioms of the theorems in MANIFEST.json

Output of `#print axioms` for every theorem named in the manifest, grouped by the set of axioms.
All are axioms of Lean itself; none is declared in this project.

## `Classical.choice`, `Quot.sound`, `propext` (905 theorems)

`C01_viterbi_exact`, `C02_tree_unique_partial`, `C02_tree_states_partial`, `C02_violated_ties`, `C03_chain_test_characterised`, `C03_chain_only_partial`, `C03_violated_parallel_edges`, `C03_violated_no_edges`, `C03_violated_self_loop`, `C04_is_forest`, `C04_is_forest_unspecified`, `C04_no_edges_rejected`, `C05_no_edges_partial`, `C05_violated_two`, `C05_violated_three_or_more`, `C06_initial`, `C06_update_first`, `C06_update_second`, `C06_all_iterations`, `C06_decoding`, `C07_labellings_feasible`, `C07_upper_bound`, `C08_integral_is_MAP`, `C09_sizes`, `C09_local_polytope`, `C10_unary_optimal`, `C10_optimal_without_interaction`, `C10_bad_shape`, `C100_risks_agree`, `C100_oneslack`, `C100_frankwolfe`, `C101_converges_partial`, `C101_enough_passes_partial`, `C101_parallel`, `C101_violated_parallel`, `C101_violated_early_stop`, `C102_fit_succeeds`, `C103_polytope_tight`, `C103_rounding_exact`, `C103_lp_value`, `C103_lp_binary`, `C103_graphcrf`, `C103_violated_three_states`, `C104_autarky`, `C104_persistency`, `C104_lp`, `C104_graphcrf`, `C105_objective`, `C105_oneslack`, `C105_nslack`, `C105_frankwolfe`, `C106_weights`, `C106_predictions`, `C107_minimiser`, `C107_subgradient`, `C107_multiclass`, `C107_chain`, `C108_objective`, `C108_find_constraint_partial`, `C108_objective_primal_partial`, `C108_batch_slack_partial`, `C108_violated_oneslack`, `C108_violated_final`, `C109_perceptron`, `C11_exhaustive`, `C11_exhaustive_loss_augmented`, `C11_graphcrf`, `C110_oneslack`, `C110_nslack`, `C110_frankwolfe`, `C110_subgradient`, `C111_relaxed`, `C111_exact`, `C111_chain`, `C112_representer`, `C112_perceptron`, `C112_relation`, `C112_constant_feature`, `C112_multiclass`, `C112_graph`, `C112_edge_symmetry`, `C112_edge_symmetry_perceptron`, `C113_relaxed`, `C113_exact`, `C113_chain`, `C114_relaxed`, `C114_exact`, `C114_chain`, `C115_grid_score`, `C115_grid_predict`, `C115_directional_score`, `C115_grid_relaxed`, `C115_grid_exact`, `C115_directional_relaxed`, `C115_directional_exact`, `C116_subgradient`, `C116_latent`, `C116_one_slack`, `C116_n_slack`, `C117_graph_joint`, `C117_graph_inference`, `C117_edge`, `C117_edge_latent`, `C117_batch_and_jobs`, `C117_ad3_no_states`, `C117_max_product_bool`, `C117_latent_slice`, `C118_lazy_edge_feature`, `C118_lazy_latent_graph`, `C118_lazy_latent_node`, `C118_lazy_multiclass`, `C119_one_slack`, `C119_n_slack`, `C12_energy_per_edge`, `C12_energy_shared`, `C12_bad_shapes`, `C12_bad_labels`, `C120_subgradient`, `C120_subgradient_empty`, `C120_subgradient_latent`, `C121_soft`, `C121_latent`, `C121_one_slack`, `C121_n_slack`, `C122_subgradient_partial`, `C122_one_slack_partial`, `C122_violated_converged`, `C122_violated_momentum`, `C122_violated_averaging`, `C123_n_slack_final`, `C123_subgradient_latent`, `C123_one_slack_partial`, `C123_one_slack_raises`, `C123_one_slack_resume_partial`, `C123_one_slack_crash_partial`, `C123_one_slack_file`, `C123_subgradient`, `C123_subgradient_resume_partial`, `C123_n_slack_partial`, `C123_latent`, `C123_latent_file`, `C123_frank_wolfe`, `C123_violated_latent`, `C123_violated_n_slack`, `C124_training_loss`, `C124_margin`, `C124_separable`, `C125_graph_crf`, `C125_honoured`, `C126_one_slack`, `C126_n_slack`, `C126_later`, `C126_violated_refit`, `C127_violated_C_attribute`, `C127_violated_C_fit`, `C128_problem`, `C128_ad3`, `C128_chain`, `C128_one_slack`, `C128_n_slack`, `C129_latent`, `C129_latent_best`, `C129_loss_augmented`, `C129_directional_latent`, `C129_directional_best`, `C129_directional_loss_augmented`, `C129_inference`, `C129_directional_inference`, `C129_labels`, `C129_loss`, `C129_continuous_loss`, `C129_init`, `C13_graphcrf_energy`, `C13_wrong_size_rejected`, `C130_graph`, `C130_edge`, `C130_grid`, `C130_directional`, `C131_grid`, `C131_directional`, `C131_grid_problem`, `C131_directional_problem`, `C132_typed`, `exact_typed_exists`, `C133_accepts`, `C133_features`, `C133_returns`, `C133_states_partial`, `C133_violated_without_hidden`, `C133_stacked`, `C134_latent_node_problem`, `C134_latent_node_one_slack`, `C134_latent_node_n_slack`, `C134_one_slack`, `C134_n_slack`, `C135_edge_latent_node_problem`, `C135_edge_latent_node_one_slack`, `C135_edge_latent_node_n_slack`, `C135_one_slack`, `C135_n_slack`, `C136_latent_graph`, `C136_latent_grid`, `C136_latent_directional`, `C136_latent_node`, `C136_edge_latent_node`, `C137_node_losses`, `C137_edge_node_losses`, `C137_continuous_loss`, `C137_other_mass`, `C137_graph_loss_augmented`, `C137_image_loss`, `C137_grid_loss_augmented`, `C137_grid_inference`, `C137_directional_loss_augmented`, `C137_directional_inference`, `C137_node_continuous_loss`, `C137_node_augment`, `C138_ordered`, `C138_one_slack`, `C138_one_slack_warm_partial`, `C138_violated_one_slack_warm`, `C138_n_slack`, `C138_n_slack_warm_partial`, `C138_violated_n_slack_warm`, `C138_subgradient`, `C138_subgradient_warm_partial`, `C138_violated_subgradient_warm`, `C138_latent`, `C138_latent_warm`, `C138_frank_wolfe`, `C139_untrained`, `C139_one_slack`, `C139_violated_interrupt`, `C139_n_slack`, `C139_subgradient_partial`, `C139_latent_partial`, `C139_violated_no_pass`, `C139_frank_wolfe`, `C139_violated_perceptron`, `C139_loss_one_slack_partial`, `C139_loss_n_slack_partial`, `C139_loss_subgradient_partial`, `C139_loss_latent_partial`, `C139_violated_loss`, `C14_chain_inference_exact`, `C14_chain_loss_augmented_exact`, `C140_predicts`, `C140_predicts_by_type`, `C140_score`, `C140_score_by_type`, `C140_relaxed`, `C141_curve`, `C141_online_partial`, `C141_batch_partial`, `C141_start_of_epoch_partial`, `C141_violated_last_epoch`, `C141_violated_before_averaging`, `C142_no_interrupt`, `C142_descent`, `C142_returns`, `C142_curves_partial`, `C142_violated_timestamp`, `C142_start_of_iteration`, `C142_resume_partial`, `C143_no_interrupt`, `C143_violated_first_iteration`, `C143_returns_partial`, `C143_start_of_iteration`, `C143_visits`, `C143_certificate`, `C144_no_interrupt`, `C144_returns`, `C144_descent`, `C144_objective_partial`, `C144_curves_partial`, `C144_violated_timestamp`, `C144_start_of_iteration`, `C145_warm_start_partial`, `C145_interrupt_partial`, `C145_violated_momentum_averaging`, `C146_crammer_singer`, `C146_crammer_singer_model`, `C146_loss_augment`, `C146_loss_augment_model`, `C146_viterbi`, `C146_multi_class_partial`, `C146_violated_multi_class`, `C146_crf_partial`, `C146_multi_label_partial`, `C146_violated_single_label`, `C146_violated_crf`, `C147_frank_wolfe`, `C147_subgradient`, `C147_perceptron`, `C147_one_slack`, `C148_graph`, `C148_loss`, `C148_decoding`, `C148_edge_features`, `C148_states`, `C148_states_loss`, `C148_states_edge_features`, `C148_directed_flip`, `C149_joint_feature`, `C149_directional_joint_feature`, `C149_inference_partial`, `C149_loss_augmented_partial`, `C149_right`, `C149_violated_loss_augmented`, `C149_directional_inference_partial`, `C149_directional_loss_augmented_partial`, `C149_violated_directional_loss_augmented`, `C149_directional_right`, `C149_loss_augmented_right`, `C15_edge_feature_energy_partial`, `C15_violated_symmetric`, `C15_violated_antisymmetric`, `C15_directional_energy`, `C150_perceptron`, `C150_subgradient`, `C150_frank_wolfe_partial`, `C150_one_slack`, `C150_any_exact_solver`, `C150_objective`, `C150_multi_class`, `C150_multi_class_inference`, `C150_binary`, `C150_binary_inference`, `C150_violated_line_search`, `C150_n_slack_partial`, `C150_n_slack_any_exact_solver`, `C150_violated_n_slack`, `C151_edge_feature_partial`, `C151_directional_partial`, `C151_unstructured_partial`, `C151_logger`, `C152_image`, `C152_images`, `C152_images_reject`, `C153_inference`, `C153_shapes`, `C153_lower_bound`, `C154_graph`, `C154_lines`, `C155_reported_partial`, `C155_states`, `C155_edge_feature_reported`, `C155_multilabel`, `C155_violated_graph`, `C155_violated_signs`, `C155_violated_edge_feature`, `C155_violated_no_labelling`, `C155_violated_multilabel`, `C156_stable`, `C156_replaced`, `C156_left_out`, `C156_hinge`, `C157_lipschitz`, `C157_monotone`, `C157_small`, `C158_rates`, `C158_mistakes`, `C158_loss_curve`, `C158_against_svm`, `C158_batch_converges`, `C159_subgradient`, `C159_latent_ssvm`, `C159_one_state`, `C159_chains`, `C159_init`, `C159_one_state_ssvm`, `C16_energy_of_symmetric_weights`, `C16_joint_feature_blocks`, `C16_learned_weights`, `C16_contradictory_declarations_rejected`, `C160_objective`, `C160_near`, `C160_trained`, `C160_same_weights`, `C160_predictions`, `C161_objective`, `C161_linear`, `C161_near`, `C161_trained`, `C161_same_weights`, `C161_predictions`, `C162_window`, `C162_colours`, `C162_prepare`, `C162_single_pixel`, `C162_data`, `C162_trains`, `C163_present`, `C163_even`, `C163_change`, `C163_count`, `C163_augment`, `C163_ten`, `C163_short`, `C163_index`, `C163_violated_odd`, `C163_violated_short`, `C164_one_slack`, `C164_n_slack`, `C164_opposite`, `C164_risks_agree`, `C164_trained`, `C165_picture`, `C165_pictures`, `C165_convert`, `C165_convert_all`, `C165_accepted`, `C165_swap`, `C165_swap_back`, `C165_swap_all`, `C165_weights`, `C165_model`, `C165_same_score`, `C165_same_loss`, `C165_best`, `C165_violated_circle`, `C165_violated_sizes`, `C165_violated_constraints`, `C166_cache`, `C166_returns`, `C166_trains`, `C166_latent`, `C39_appended`, `C40_reused_partial`, `C87_reused_iterations`, `C87_reused_converges`, `C166_violated_labels`, `C167_feature`, `C167_edge_features`, `C167_loss`, `C167_decoding`, `C167_unary`, `C167_hinge`, `C167_risk`, `C167_one_slack`, `C167_connected`, `C168_max_product_partial`, `C168_loopy_partial`, `C168_unary`, `C168_best`, `C168_relaxed`, `C168_lp`, `C168_graph_partial`, `C168_multiclass`, `C168_binary`, `C168_loss_augmented_partial`, `C168_violated_loopy`, `C169_single`, `C169_room`, `C169_single_typed`, `C169_snake_or_nothing`, `C169_at_most_one`, `C169_truth`, `C169_order_matters`, `C17_multilabel_energy`, `C170_node_energy`, `C170_node_inference`, `C170_node_loss_augmented`, `C170_node_small`, `C170_node_inference_small`, `C170_edge_node_energy`, `C170_edge_node_inference`, `C170_edge_node_loss_augmented`, `C170_edge_node_small`, `C171_potentials`, `C171_scores`, `C171_features`, `C171_inference`, `C171_objective`, `C171_near`, `C171_same_weights`, `C172_part_partial`, `C172_in_place`, `C172_nothing`, `C172_no_pixels`, `C172_violated_first_row`, `C172_violated_first_column`, `C172_again`, `C172_snakes`, `C172_present`, `C172_lists`, `C173_objective`, `C173_near`, `C173_split`, `C173_same_weights`, `C173_predictions`, `C173_centred`, `C173_sum_zero`, `C174_added`, `C174_left_out`, `C174_minimiser`, `C174_leave_one_out`, `C174_trained`, `C175_tree`, `C175_best`, `C175_prediction_partial`, `C175_independent_tree`, `C175_violated_independent`, `C176_images`, `C176_different`, `C176_present`, `C176_stuck`, `C176_every`, `C176_violated_labels`, `C176_violated_endless`, `C177_potentials`, `C177_scores`, `C177_inference`, `C177_hinge`, `C178_pages`, `C178_violated_wide`, `C178_violated_straight`, `C178_mistakes`, `C179_potentials`, `C179_scores`, `C179_converse`, `C179_inference`, `C179_hinge`, `C179_norm`, `C18_inference`, `C18_inference_rescale`, `C18_loss_augmented`, `C18_negative_weight_counterexample`, `C180_perceptron`, `C180_subgradient`, `C180_frank_wolfe`, `C180_one_slack`, `C180_n_slack`, `C180_objective`, `C180_multi_class`, `C180_binary`, `C180_graph`, `C180_unary_method`, `C180_max_product_method`, `C181_together`, `C181_kept`, `C182_perceptron`, `C182_subgradient`, `C182_frank_wolfe`, `C182_one_slack`, `C182_n_slack`, `C182_multi_class`, `C182_graph`, `C183_joint_feature`, `C183_inference`, `C183_loss_augmented`, `C183_loss`, `C183_latent`, `C183_no_nodes`, `C184_joint_feature`, `C184_inference`, `C184_loss_augmented`, `C184_latent`, `C185_edge_features`, `C185_max_product_method`, `C185_copies`, `C185_node_features`, `C185_node_copies`, `C186_order`, `C186_parts`, `C186_copies`, `C186_better`, `C186_latent`, `C186_violated_lengths`, `C187_method`, `C187_sizes`, `C187_exact`, `C187_learner`, `C188_risk`, `C188_weights`, `C188_score`, `C188_without_rescale`, `C189_score`, `C189_risk`, `C189_weights`, `C189_prediction`, `C19_inference`, `C19_loss_augmented_partial`, `C19_violated_at_margin`, `C190_score`, `C190_loss`, `C190_risk`, `C190_weights`, `C190_prediction`, `C190_directed`, `C191_score`, `C191_risk`, `C191_weights`, `C191_prediction`, `C20_latent_node_energy`, `C20_edge_latent_node_energy_partial`, `C20_violated_symmetric`, `C20_violated_no_edges`, `C21_typed_energy`, `C21_typed_relaxed`, `C21_typed_blocks`, `C22_graphcrf_size`, `C22_graphcrf_inference_accepts`, `C22_edge_feature_size`, `C22_edge_feature_inference_accepts`, `C22_directional_size_partial`, `C22_violated_directional_8`, `C22_multilabel_size_partial`, `C22_violated_multilabel`, `C23_graphcrf_linear`, `C23_graphcrf_onehot`, `C23_graphcrf_relaxed_score`, `C23_edge_feature_linear`, `C23_edge_feature_onehot`, `C23_multilabel_affine`, `C23_multilabel_onehot`, `C24_augmented_energy`, `C24_unit_weights`, `C24_latent_graph`, `C24_latent_node`, `C24_latent_node_loss`, `C24_violated_latent_node_illegal`, `C25_batch_joint_feature`, `C25_binary_joint_feature`, `C25_binary_inference`, `C25_binary_loss_augmented`, `C25_binary_joint_feature_unchecked`, `C25_multiclass_joint_feature`, `C25_multiclass_inference`, `C25_multiclass_loss_augmented`, `C25_multiclass_loss`, `C26_loss_bounds`, `C26_loss_bounds_unweighted`, `C26_loss_metric`, `C26_label_without_weight`, `C27_onehot`, `C27_affine`, `C27_range`, `C27_latent_graph_onehot`, `C27_latent_node_onehot`, `C28_score`, `C28_hamming`, `C28_multiclass`, `C29_slack`, `C29_given_candidate`, `C30_variants_agree`, `C30_objective`, `C30_bounds`, `C30_convex`, `C31_grid_edges`, `C32_expand_symmetric`, `C32_compress_expand`, `C32_expand_compress`, `C32_adjoint`, `C33_state_map`, `C34_latent_graph_consistent`, `C34_latent_graph_succeeds`, `C34_latent_graph_optimal_partial`, `C34_violated_optimal`, `C34_latent_node_consistent`, `C34_edge_latent_node_consistent`, `C34_edge_latent_node_succeeds`, `C34_violated_latent_node_raises`, `C35_kmeans_init`, `C35_latent_node_init`, `C36_unflatten_flatten`, `C36_flatten_unflatten`, `C36_unflatten_sizes`, `C36_no_collision`, `C37_check_labels`, `C37_initialize_one`, `C38_decode`, `C38_inference`, `C39_fit`, `C40_partial`, `C40_no_pruning`, `C40_reused_no_pruning`, `C40_violated_pruning`, `C41_partial`, `C41_violated`, `C42_partial`, `C42_violated`, `C42_violated_assertion`, `C43_no_duplicates`, `C43_bookkeeping`, `C43_active_kept`, `C43_terminates`, `C44_lower_bound`, `C44_partial`, `C44_violated_zero_loss`, `C44_violated_tol`, `C45_block_sums`, `C46_bc_step`, `C46_batch_step`, `C46_dual_curve`, `C47_gap`, `C47_fit`, `C47_violated_refit`, `C48_fit`, `C49_frankwolfe`, `C50_minibatches`, `C50_n_slack`, `C51_perceptron`, `C51_one_slack`, `C51_n_slack`, `C51_violated_subgradient`, `C52_mistake_bound`, `C52_mistakes_on_run`, `C52_converges`, `C53_online_partial`, `C53_batch_partial`, `C53_violated_early_stop`, `C54_early_stop`, `C55_schedule_plain`, `C55_schedule_template`, `C55_distinct_files`, `C55_zero_period`, `C55_violated_final`, `C55_violated_training`, `C56_load_last`, `C56_violated_load_template`, `C57_run`, `C57_step`, `C57_descent`, `C57_fixed_point`, `C57_constraints`, `C57_classical`, `C58_latent_ssvm`, `C58_latent_node`, `C58_graph_loss`, `C58_violated`, `C59_objective_partial`, `C59_fit_partial`, `C59_better_of_two`, `C59_violated`, `C60_override`, `C60_unknown`, `C60_energy_partial`, `C60_violated_energy`, `C60_routes_lp`, `C60_routes_unary`, `C60_routes_max_product`, `C60_routes_ad3`, `C60_routes_ogm`, `C60_ogm_unknown_alg`, `C60_chain_crf`, `C60_crf_ad3`, `C60_crf_ad3_augmented`, `C60_refused`, `C60_ignored`, `C60_lp_options`, `C61_one_slack`, `C61_n_slack`, `C62_sizes`, `C62_rejects`, `C62_labels_valid_partial`, `C62_accepts`, `C62_violated_gap`, `C62_multilabel_sizes`, `C63_default_hamming`, `C63_wrong_length`, `C63_multilabel_partial`, `C63_violated_single_label`, `C64_small_couplings_partial`, `C64_violated`, `C65_fit_succeeds_partial`, `C65_violated_no_checks`, `C66_online_stop`, `C66_violated_minibatch`, `C67_returns_partial`, `C67_returns_iff_partial`, `C67_soft_iff_partial`, `C67_nslack_returns_partial`, `C67_nslack_returns_iff_partial`, `C67_violated_nothing_to_learn`, `C67_violated_converged`, `C67_violated_n_slack`, `C68_auto_partial`, `C68_violated`, `C69_gap_partial`, `C69_violated`, `C70_returns_partial`, `C70_own_partial`, `C70_violated_fresh`, `C70_violated_other`, `C71_violated`, `C72_total_partial`, `C72_violated`, `C73_partial`, `C73_violated`, `C74_relaxed`, `C74_augmented_energy`, `C74_loss_augmented`, `C74_inference`, `C74_continuous_loss`, `C74_losses_agree`, `C75_violated`, `C75_flag_of_backend`, `C76_joint_feature`, `C76_potentials`, `C77_get_installed`, `C77_unknown`, `C77_default`, `C78_rejected`, `C78_honoured`, `C78_violated_ignored`, `C79_near_optimal`, `C79_exact_on_grid`, `C79_violated_exact`, `C80_subgradient_partial`, `C80_one_slack_partial`, `C80_n_slack_partial`, `C80_violated_frank_wolfe`, `C80_violated_perceptron`, `C81_fit`, `C82_objective_partial`, `C82_violated_graph`, `C83_violated_jobs`, `C84_messages`, `C84_sparse_optimal`, `C84_loopy`, `C84_forest_sparse`, `C84_triangle_sparse`, `C85_fit`, `C86_pass`, `C86_fit`, `C87_iterations`, `C87_converges`, `C88_prediction`, `C88_oneslack`, `C88_oneslack_returns`, `C88_frankwolfe`, `C88_perceptron`, `C89_edge_feature`, `C89_edge_feature_joint`, `C89_edge_feature_construct`, `C89_latent_graph`, `C89_latent_graph_twice`, `C89_violated_latent_directional`, `C89_latent_node`, `C89_violated_edge_latent_indices`, `C89_multiclass`, `C89_directional`, `C89_latent_grid_construct`, `C90_weights_partial`, `C90_hyperplane_partial`, `C90_violated_one_class`, `C90_violated_bounded`, `C91_relaxed_oneslack`, `C91_relaxed_frankwolfe`, `C91_exact_oneslack`, `C92_total_partial`, `C92_discrete_partial`, `C92_comparison`, `C92_violated_cached_relaxed`, `C92_violated_cached_relaxed_fit`, `C93_near_optimal`, `C93_stops`, `C93_converges`, `C93_chain`, `C93_graph`, `C93_given`, `C93_resumed`, `C94_violated_relaxed`, `C94_violated_graph`, `C94_violated_training`, `C95_easy`, `C95_hole`, `C95_crosses`, `C95_xs`, `C95_easy_explicit`, `C95_crosses_explicit`, `C95_crosses_latent`, `C95_simple`, `C95_simple_reach`, `C96_easy`, `C96_hole`, `C96_xs`, `C96_easy_explicit`, `C96_crosses_latent`, `C96_crosses`, `C96_explicit`, `C96_violated_crosses_small`, `C96_violated_crosses_medium`, `C96_violated_explicit_small`, `C96_violated_explicit_medium`, `C97_hole`, `ringCells_nodup`, `C97_crosses`, `C97_two_crosses`, `C97_bars_same`, `C97_bars_partial`, `C98_blocks`, `C98_checker`, `C98_big_checker`, `C98_blocks_multinomial`, `C98_checker_multinomial`, `C98_multinomial_error`, `C98_big_checker_extended`, `C99_polytope_tight`, `C99_support`, `C99_lp_forest`, `C99_lp_unique_partial`, `C99_violated_ties`, `C99_cycle_not_tight`

## `Quot.sound`, `propext` (49 theorems)

`C117_no_samples`, `C118_construct_edge_feature`, `C118_construct_latent_graph`, `C118_construct_latent_node`, `C118_construct_multiclass`, `C118_violated_uniform`, `C125_without`, `C125_each_partial`, `C125_classifiers`, `C125_grid`, `C125_violated_length`, `C125_violated_jobs`, `C127_start`, `C127_violated_C`, `C149_violated_edges`, `C151_edge_feature_iff`, `C151_unstructured_iff`, `C151_unstructured_text`, `C151_crf`, `C151_violated_fresh`, `C151_violated_latent`, `C152_rejects`, `C162_offsets`, `C162_empty`, `C169_converted`, `C169_several_types`, `C171_size`, `C172_sizes`, `C176_empty`, `C178_endless`, `C181_empty`, `C25_predict`, `C25_binary_loss`, `C31_direction_lists`, `C36_violated_none`, `C37_violated_initialize`, `C56_transparent_partial`, `C62_violated_first_only`, `C62_multilabel_accepts`, `C63_wrong_length_construct`, `C63_twice`, `C63_violated_uniform`, `C63_violated_ml_construct`, `C89_violated_edge_latent_features`, `C89_directional_construct`, `C89_latent_grid_unknown`, `C94_labellings_partial`, `C96_crosses_error`, `C97_violated_bars`

## `propext` (12 theorems)

`C127_weights`, `C127_predict`, `C147_constraint_equal`, `C165_no_constraints`, `C183_size`, `C184_size`, `C31_bad_neighborhood`, `C36_no_labels`, `C36_violated_surplus`, `C56_violated_cache_lost`, `C56_violated_previous_lost`, `C89_binary`

## no axioms (3 theorems)

`C127_attributes`, `C25_batch_comprehension`, `C56_cannot_open`
