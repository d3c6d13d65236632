{
 "claims": [
  {
   "property": "C01",
   "status": "proved",
   "theorems": [
    "Verif.Props.C01_viterbi_exact"
   ],
   "note": "exact arithmetic; -inf potentials allowed"
  },
  {
   "property": "C02",
   "status": "partial",
   "theorems": [
    "Verif.Props.C02_tree_unique_partial",
    "Verif.Props.C02_tree_states_partial",
    "Verif.Props.C02_violated_ties"
   ],
   "note": "false as stated: on ties the returned labelling can be suboptimal (C02_violated_ties); proved whenever the optimum is unique"
  },
  {
   "property": "C03",
   "status": "partial",
   "theorems": [
    "Verif.Props.C03_chain_test_characterised",
    "Verif.Props.C03_chain_only_partial",
    "Verif.Props.C03_violated_parallel_edges",
    "Verif.Props.C03_violated_no_edges",
    "Verif.Props.C03_violated_self_loop"
   ],
   "note": "false as stated: broadcasting in is_chain accepts non-chains; exact characterisation proved"
  },
  {
   "property": "C04",
   "status": "proved",
   "theorems": [
    "Verif.Props.C04_is_forest",
    "Verif.Props.C04_is_forest_unspecified",
    "Verif.Props.C04_no_edges_rejected"
   ],
   "note": ""
  },
  {
   "property": "C05",
   "status": "partial",
   "theorems": [
    "Verif.Props.C05_no_edges_partial",
    "Verif.Props.C05_violated_two",
    "Verif.Props.C05_violated_three_or_more"
   ],
   "note": "false as stated for two or more vertices; characterised"
  },
  {
   "property": "C06",
   "status": "proved",
   "theorems": [
    "Verif.Props.C06_initial",
    "Verif.Props.C06_update_first",
    "Verif.Props.C06_update_second",
    "Verif.Props.C06_all_iterations",
    "Verif.Props.C06_decoding"
   ],
   "note": ""
  },
  {
   "property": "C07",
   "status": "proved",
   "theorems": [
    "Verif.Props.C07_labellings_feasible",
    "Verif.Props.C07_upper_bound"
   ],
   "note": ""
  },
  {
   "property": "C08",
   "status": "proved",
   "theorems": [
    "Verif.Props.C08_integral_is_MAP"
   ],
   "note": ""
  },
  {
   "property": "C09",
   "status": "proved",
   "theorems": [
    "Verif.Props.C09_sizes",
    "Verif.Props.C09_local_polytope"
   ],
   "note": ""
  },
  {
   "property": "C10",
   "status": "proved",
   "theorems": [
    "Verif.Props.C10_unary_optimal",
    "Verif.Props.C10_optimal_without_interaction",
    "Verif.Props.C10_bad_shape"
   ],
   "note": ""
  },
  {
   "property": "C100",
   "status": "proved",
   "theorems": [
    "Verif.Props.C100_risks_agree",
    "Verif.Props.C100_oneslack",
    "Verif.Props.C100_frankwolfe"
   ],
   "note": "exact arithmetic; contracts of the solvers are hypotheses"
  },
  {
   "property": "C101",
   "status": "partial",
   "theorems": [
    "Verif.Props.C101_converges_partial",
    "Verif.Props.C101_enough_passes_partial",
    "Verif.Props.C101_parallel",
    "Verif.Props.C101_violated_parallel",
    "Verif.Props.C101_violated_early_stop"
   ],
   "note": "proved for one job, batches of equal size and no early stopping; with several jobs the limit is the minimum of another risk (proved, with an example), with break_on_no_constraints training can stop anywhere (example)"
  },
  {
   "property": "C102",
   "status": "proved",
   "theorems": [
    "Verif.Props.C102_fit_succeeds"
   ],
   "note": "mini-batches for models with the default batch methods"
  },
  {
   "property": "C103",
   "status": "proved",
   "theorems": [
    "Verif.Props.C103_polytope_tight",
    "Verif.Props.C103_rounding_exact",
    "Verif.Props.C103_lp_value",
    "Verif.Props.C103_lp_binary",
    "Verif.Props.C103_graphcrf",
    "Verif.Props.C103_violated_three_states"
   ],
   "note": "optimality of the solver is a hypothesis; the last theorem shows that rounding needs two states"
  },
  {
   "property": "C104",
   "status": "proved",
   "theorems": [
    "Verif.Props.C104_autarky",
    "Verif.Props.C104_persistency",
    "Verif.Props.C104_lp",
    "Verif.Props.C104_graphcrf"
   ],
   "note": "optimality of the solver is a hypothesis"
  },
  {
   "property": "C105",
   "status": "proved",
   "theorems": [
    "Verif.Props.C105_objective",
    "Verif.Props.C105_oneslack",
    "Verif.Props.C105_nslack",
    "Verif.Props.C105_frankwolfe"
   ],
   "note": "exactness of the QP solver is a hypothesis"
  },
  {
   "property": "C106",
   "status": "proved",
   "theorems": [
    "Verif.Props.C106_weights",
    "Verif.Props.C106_predictions"
   ],
   "note": "Trained lists the settings of the three learners; exact loss-augmented inference and QP solver are hypotheses"
  },
  {
   "property": "C107",
   "status": "proved",
   "theorems": [
    "Verif.Props.C107_minimiser",
    "Verif.Props.C107_subgradient",
    "Verif.Props.C107_multiclass",
    "Verif.Props.C107_chain"
   ],
   "note": "one job; batches of equal size"
  },
  {
   "property": "C108",
   "status": "partial",
   "theorems": [
    "Verif.Props.C108_objective",
    "Verif.Props.C108_find_constraint_partial",
    "Verif.Props.C108_objective_primal_partial",
    "Verif.Props.C108_batch_slack_partial",
    "Verif.Props.C108_violated_oneslack",
    "Verif.Props.C108_violated_final"
   ],
   "note": "off the margin everything holds; what happens on the margin is characterised and violates the claim"
  },
  {
   "property": "C109",
   "status": "proved",
   "theorems": [
    "Verif.Props.C109_perceptron"
   ],
   "note": ""
  },
  {
   "property": "C11",
   "status": "proved",
   "theorems": [
    "Verif.Props.C11_exhaustive",
    "Verif.Props.C11_exhaustive_loss_augmented",
    "Verif.Props.C11_graphcrf"
   ],
   "note": ""
  },
  {
   "property": "C110",
   "status": "proved",
   "theorems": [
    "Verif.Props.C110_oneslack",
    "Verif.Props.C110_nslack",
    "Verif.Props.C110_frankwolfe",
    "Verif.Props.C110_subgradient"
   ],
   "note": "the conditions on the constructor parameters are part of the definitions OneSlackTrains, NSlackTrains, FrankWolfeTrains, SubgradientTrains"
  },
  {
   "property": "C111",
   "status": "proved",
   "theorems": [
    "Verif.Props.C111_relaxed",
    "Verif.Props.C111_exact",
    "Verif.Props.C111_chain"
   ],
   "note": "inference methods are assumed to solve what they are documented to solve; for max-product on chains this is C01/C02"
  },
  {
   "property": "C112",
   "status": "proved",
   "theorems": [
    "Verif.Props.C112_representer",
    "Verif.Props.C112_perceptron",
    "Verif.Props.C112_relation",
    "Verif.Props.C112_constant_feature",
    "Verif.Props.C112_multiclass",
    "Verif.Props.C112_graph",
    "Verif.Props.C112_edge_symmetry",
    "Verif.Props.C112_edge_symmetry_perceptron"
   ],
   "note": "for models without rescaled joint features; FrankWolfeSSVM and SubgradientSSVM start without weights from an earlier fit"
  },
  {
   "property": "C113",
   "status": "proved",
   "theorems": [
    "Verif.Props.C113_relaxed",
    "Verif.Props.C113_exact",
    "Verif.Props.C113_chain"
   ],
   "note": "SubgradientSSVM may continue from earlier weights if these respect the declared symmetries"
  },
  {
   "property": "C114",
   "status": "proved",
   "theorems": [
    "Verif.Props.C114_relaxed",
    "Verif.Props.C114_exact",
    "Verif.Props.C114_chain"
   ],
   "note": "class weights are indexed by the states 0 and 1, so at least two entries are needed (a MultiLabelClf has one entry per label)"
  },
  {
   "property": "C115",
   "status": "proved",
   "theorems": [
    "Verif.Props.C115_grid_score",
    "Verif.Props.C115_grid_predict",
    "Verif.Props.C115_directional_score",
    "Verif.Props.C115_grid_relaxed",
    "Verif.Props.C115_grid_exact",
    "Verif.Props.C115_directional_relaxed",
    "Verif.Props.C115_directional_exact"
   ],
   "note": "DirectionalGridCRF only with the 4-neighbourhood (the 8-neighbourhood fails, see C22)"
  },
  {
   "property": "C116",
   "status": "proved",
   "theorems": [
    "Verif.Props.C116_subgradient",
    "Verif.Props.C116_latent",
    "Verif.Props.C116_one_slack",
    "Verif.Props.C116_n_slack"
   ],
   "note": "without interrupts and without switch_to; one-slack from scratch, n-slack without given constraints"
  },
  {
   "property": "C117",
   "status": "proved",
   "theorems": [
    "Verif.Props.C117_graph_joint",
    "Verif.Props.C117_graph_inference",
    "Verif.Props.C117_edge",
    "Verif.Props.C117_edge_latent",
    "Verif.Props.C117_no_samples",
    "Verif.Props.C117_batch_and_jobs",
    "Verif.Props.C117_ad3_no_states",
    "Verif.Props.C117_max_product_bool",
    "Verif.Props.C117_latent_slice"
   ],
   "note": "labels and node numbers are natural numbers: negative indices are not modelled"
  },
  {
   "property": "C118",
   "status": "partial",
   "theorems": [
    "Verif.Props.C118_construct_edge_feature",
    "Verif.Props.C118_lazy_edge_feature",
    "Verif.Props.C118_construct_latent_graph",
    "Verif.Props.C118_lazy_latent_graph",
    "Verif.Props.C118_construct_latent_node",
    "Verif.Props.C118_lazy_latent_node",
    "Verif.Props.C118_construct_multiclass",
    "Verif.Props.C118_lazy_multiclass",
    "Verif.Props.C118_violated_uniform"
   ],
   "note": "proved but for the attribute uniform_class_weight, which differs (C118_violated_uniform)"
  },
  {
   "property": "C119",
   "status": "proved",
   "theorems": [
    "Verif.Props.C119_one_slack",
    "Verif.Props.C119_n_slack"
   ],
   "note": "With inference_cache the model must not rescale C (rescale_C=False), because cached constraints are otherwise scaled wrongly (C39)."
  },
  {
   "property": "C12",
   "status": "proved",
   "theorems": [
    "Verif.Props.C12_energy_per_edge",
    "Verif.Props.C12_energy_shared",
    "Verif.Props.C12_bad_shapes",
    "Verif.Props.C12_bad_labels"
   ],
   "note": ""
  },
  {
   "property": "C120",
   "status": "proved",
   "theorems": [
    "Verif.Props.C120_subgradient",
    "Verif.Props.C120_subgradient_empty",
    "Verif.Props.C120_subgradient_latent"
   ],
   "note": ""
  },
  {
   "property": "C121",
   "status": "proved",
   "theorems": [
    "Verif.Props.C121_soft",
    "Verif.Props.C121_latent",
    "Verif.Props.C121_one_slack",
    "Verif.Props.C121_n_slack"
   ],
   "note": "exact arithmetic, exact QP solver (shown to exist); inactive_window=0; NSlackSSVM: outputs without loss are the completions of the label"
  },
  {
   "property": "C122",
   "status": "partial",
   "theorems": [
    "Verif.Props.C122_subgradient_partial",
    "Verif.Props.C122_one_slack_partial",
    "Verif.Props.C122_violated_converged",
    "Verif.Props.C122_violated_momentum",
    "Verif.Props.C122_violated_averaging"
   ],
   "note": "SubgradientSSVM: exact for every split without momentum and averaging (both break it). OneSlackSSVM: exact for every split without inference cache and switch_to, as long as the first part did not end by itself; a warm start of a converged learner raises UnboundLocalError. The other learners have no warm start of this kind."
  },
  {
   "property": "C123",
   "status": "partial",
   "theorems": [
    "Verif.Props.C123_n_slack_final",
    "Verif.Props.C123_subgradient_latent",
    "Verif.Props.C123_one_slack_partial",
    "Verif.Props.C123_one_slack_raises",
    "Verif.Props.C123_one_slack_resume_partial",
    "Verif.Props.C123_one_slack_crash_partial",
    "Verif.Props.C123_one_slack_file",
    "Verif.Props.C123_subgradient",
    "Verif.Props.C123_subgradient_resume_partial",
    "Verif.Props.C123_n_slack_partial",
    "Verif.Props.C123_latent",
    "Verif.Props.C123_latent_file",
    "Verif.Props.C123_frank_wolfe",
    "Verif.Props.C123_violated_latent",
    "Verif.Props.C123_violated_n_slack"
   ],
   "note": "Order and number of the calls for OneSlackSSVM, NSlackSSVM (both without switch_to), SubgradientSSVM, FrankWolfeSSVM, LatentSSVM; resuming from a checkpoint after a crash for OneSlackSSVM and SubgradientSSVM under the conditions of C122. LatentSSVM makes no final call, so the file need not hold the trained learner; the checkpoints of a first NSlackSSVM training have no constraints_."
  },
  {
   "property": "C124",
   "status": "proved",
   "theorems": [
    "Verif.Props.C124_training_loss",
    "Verif.Props.C124_margin",
    "Verif.Props.C124_separable"
   ],
   "note": "Weights come from `Trained` of C106: a run of one of the three learners whose iteration bound suffices for its tolerance. Exact arithmetic and exact QP solver as in C106."
  },
  {
   "property": "C125",
   "status": "partial",
   "theorems": [
    "Verif.Props.C125_without",
    "Verif.Props.C125_each_partial",
    "Verif.Props.C125_graph_crf",
    "Verif.Props.C125_honoured",
    "Verif.Props.C125_classifiers",
    "Verif.Props.C125_grid",
    "Verif.Props.C125_violated_length",
    "Verif.Props.C125_violated_jobs"
   ],
   "note": "zip drops the samples for which there are no constraints, so there may be fewer predictions than samples (C125_violated_length). Falsy constraints for a grid model raise TypeError with n_jobs=1 and are ignored with other n_jobs (C125_violated_jobs). The rest is proved; if several parallel tasks raise, which exception is seen is not modelled."
  },
  {
   "property": "C126",
   "status": "partial",
   "theorems": [
    "Verif.Props.C126_one_slack",
    "Verif.Props.C126_n_slack",
    "Verif.Props.C126_later",
    "Verif.Props.C126_violated_refit"
   ],
   "note": "Proved except for repeatability: the method is not restored, so later trainings are those of a model with method t and no switch_to (C126_later) and may give other weights (C126_violated_refit)."
  },
  {
   "property": "C127",
   "status": "partial",
   "theorems": [
    "Verif.Props.C127_start",
    "Verif.Props.C127_attributes",
    "Verif.Props.C127_weights",
    "Verif.Props.C127_predict",
    "Verif.Props.C127_violated_C",
    "Verif.Props.C127_violated_C_attribute",
    "Verif.Props.C127_violated_C_fit"
   ],
   "note": "Proved for model, w, n_jobs, verbose and for prediction. False for C as stated: the setter stores the value in base_ssvm.w; the C127_violated_ theorems say exactly what happens instead (C unchanged, prediction raises, training as if nothing had been assigned)."
  },
  {
   "property": "C128",
   "status": "proved",
   "theorems": [
    "Verif.Props.C128_problem",
    "Verif.Props.C128_ad3",
    "Verif.Props.C128_chain",
    "Verif.Props.C128_one_slack",
    "Verif.Props.C128_n_slack"
   ],
   "note": "LatentSSVM on LatentGraphCRF, instantiating C121 with the model code of LatentGraphCRF: C128_problem says in terms of graphs which problem is solved, C128_ad3 and C128_chain discharge the hypothesis on inference, the other two are the claim for the two base learners. The condition on the size of the features is what makes the constant 100 of `latent` large enough for all weights that training can reach; without it `latent` can raise (C34)."
  },
  {
   "property": "C129",
   "status": "proved",
   "theorems": [
    "Verif.Props.C129_latent",
    "Verif.Props.C129_latent_best",
    "Verif.Props.C129_loss_augmented",
    "Verif.Props.C129_directional_latent",
    "Verif.Props.C129_directional_best",
    "Verif.Props.C129_directional_loss_augmented",
    "Verif.Props.C129_inference",
    "Verif.Props.C129_directional_inference",
    "Verif.Props.C129_labels",
    "Verif.Props.C129_loss",
    "Verif.Props.C129_continuous_loss",
    "Verif.Props.C129_init"
   ],
   "note": "Both classes; the scores are those of Spec/Grid (sums over pixels and pairs of neighbouring pixels). The neighbourhood of 8 is broken for the directional class (C89_violated_latent_directional), so its theorems are about 4."
  },
  {
   "property": "C13",
   "status": "proved",
   "theorems": [
    "Verif.Props.C13_graphcrf_energy",
    "Verif.Props.C13_wrong_size_rejected"
   ],
   "note": ""
  },
  {
   "property": "C130",
   "status": "proved",
   "theorems": [
    "Verif.Props.C130_graph",
    "Verif.Props.C130_edge",
    "Verif.Props.C130_grid",
    "Verif.Props.C130_directional"
   ],
   "note": "The condition on the inference method is met by an exact AD3 on all graphs and by max-product on chains (C128_ad3, C128_chain, ad3_decodes_edges; see the examples)."
  },
  {
   "property": "C131",
   "status": "proved",
   "theorems": [
    "Verif.Props.C131_grid",
    "Verif.Props.C131_directional",
    "Verif.Props.C131_grid_problem",
    "Verif.Props.C131_directional_problem"
   ],
   "note": "The condition on the inference method is met by an exact AD3 (see the example)."
  },
  {
   "property": "C132",
   "status": "proved",
   "theorems": [
    "Verif.Props.C132_typed",
    "Verif.Props.exact_typed_exists"
   ],
   "note": "n-slack needs a node whose label weighs at least 1e-5 (the code drops smaller slacks). Relaxed solutions of AD3 are excluded by the hypothesis on the solver; exact_typed_exists shows it can be met."
  },
  {
   "property": "C133",
   "status": "partial",
   "theorems": [
    "Verif.Props.C133_accepts",
    "Verif.Props.C133_features",
    "Verif.Props.C133_returns",
    "Verif.Props.C133_states_partial",
    "Verif.Props.C133_violated_without_hidden",
    "Verif.Props.C133_stacked"
   ],
   "note": "Holds for samples with hidden nodes. For n_hidden = 0 the slice [-n_hidden:] is the whole matrix, and every visible node gets a hidden state on top of its label (C133_violated_without_hidden)."
  },
  {
   "property": "C134",
   "status": "proved",
   "theorems": [
    "Verif.Props.C134_latent_node_problem",
    "Verif.Props.C134_latent_node_one_slack",
    "Verif.Props.C134_latent_node_n_slack",
    "Verif.Props.C134_one_slack",
    "Verif.Props.C134_n_slack"
   ],
   "note": "LatentSSVM on LatentNodeCRF: C134_latent_node_problem says in terms of graphs with hidden nodes which problem is solved, the next two are the claim for the two base learners. C134_one_slack and C134_n_slack are general: loss-augmented inference need only be exact for weights in a ball that training provably never leaves."
  },
  {
   "property": "C135",
   "status": "proved",
   "theorems": [
    "Verif.Props.C135_edge_latent_node_problem",
    "Verif.Props.C135_edge_latent_node_one_slack",
    "Verif.Props.C135_edge_latent_node_n_slack",
    "Verif.Props.C135_one_slack",
    "Verif.Props.C135_n_slack"
   ],
   "note": "LatentSSVM on EdgeFeatureLatentNodeCRF: C135_edge_latent_node_problem says in terms of graphs with hidden nodes and edge features which problem is solved, the next two are the claim for the two base learners. C135_one_slack and C135_n_slack are general: inference need only be exact for weights in a ball and in a linear space that contains all joint features."
  },
  {
   "property": "C136",
   "status": "proved",
   "theorems": [
    "Verif.Props.C136_latent_graph",
    "Verif.Props.C136_latent_grid",
    "Verif.Props.C136_latent_directional",
    "Verif.Props.C136_latent_node",
    "Verif.Props.C136_edge_latent_node"
   ],
   "note": "One theorem per class, each about predict_latent, predict and score. Best completions are stated with the scores of graphs and images of Spec; OwnsState says which label a state belongs to."
  },
  {
   "property": "C137",
   "status": "proved",
   "theorems": [
    "Verif.Props.C137_node_losses",
    "Verif.Props.C137_edge_node_losses",
    "Verif.Props.C137_continuous_loss",
    "Verif.Props.C137_other_mass",
    "Verif.Props.C137_graph_loss_augmented",
    "Verif.Props.C137_image_loss",
    "Verif.Props.C137_grid_loss_augmented",
    "Verif.Props.C137_grid_inference",
    "Verif.Props.C137_directional_loss_augmented",
    "Verif.Props.C137_directional_inference",
    "Verif.Props.C137_node_continuous_loss",
    "Verif.Props.C137_node_augment"
   ],
   "note": "otherMass and pixelMass of Spec are the mass on states of wrong labels; IsRelaxedImage are images of states and points of the local polytope of an image. The directional class is covered with 4-neighbourhoods."
  },
  {
   "property": "C138",
   "status": "partial",
   "theorems": [
    "Verif.Props.C138_ordered",
    "Verif.Props.C138_one_slack",
    "Verif.Props.C138_one_slack_warm_partial",
    "Verif.Props.C138_violated_one_slack_warm",
    "Verif.Props.C138_n_slack",
    "Verif.Props.C138_n_slack_warm_partial",
    "Verif.Props.C138_violated_n_slack_warm",
    "Verif.Props.C138_subgradient",
    "Verif.Props.C138_subgradient_warm_partial",
    "Verif.Props.C138_violated_subgradient_warm",
    "Verif.Props.C138_latent",
    "Verif.Props.C138_latent_warm",
    "Verif.Props.C138_frank_wolfe"
   ],
   "note": "Everything is proved for a first fit, and for continued training of SubgradientLatentSSVM. The last sentence is false for the others: OneSlackSSVM and NSlackSSVM count the pause between the calls as training; SubgradientSSVM makes all earlier entries negative and adds the time of day to the new ones. The _partial theorems say exactly what is stored."
  },
  {
   "property": "C139",
   "status": "partial",
   "theorems": [
    "Verif.Props.C139_untrained",
    "Verif.Props.C139_one_slack",
    "Verif.Props.C139_violated_interrupt",
    "Verif.Props.C139_n_slack",
    "Verif.Props.C139_subgradient_partial",
    "Verif.Props.C139_latent_partial",
    "Verif.Props.C139_violated_no_pass",
    "Verif.Props.C139_frank_wolfe",
    "Verif.Props.C139_violated_perceptron",
    "Verif.Props.C139_loss_one_slack_partial",
    "Verif.Props.C139_loss_n_slack_partial",
    "Verif.Props.C139_loss_subgradient_partial",
    "Verif.Props.C139_loss_latent_partial",
    "Verif.Props.C139_violated_loss"
   ],
   "note": "Proved for one-slack, n-slack and Frank-Wolfe learners. Missing because false: a structured perceptron has no objective_curve_ (AttributeError); a subgradient learner without a complete pass raises IndexError; after an interrupt of the one-slack QP the curves differ in length (ValueError); losses are drawn at their index, on an axis labelled as time, whenever show_loss_every divides the number of iterations, so always for show_loss_every=1."
  },
  {
   "property": "C14",
   "status": "proved",
   "theorems": [
    "Verif.Props.C14_chain_inference_exact",
    "Verif.Props.C14_chain_loss_augmented_exact"
   ],
   "note": ""
  },
  {
   "property": "C140",
   "status": "proved",
   "theorems": [
    "Verif.Props.C140_predicts",
    "Verif.Props.C140_predicts_by_type",
    "Verif.Props.C140_score",
    "Verif.Props.C140_score_by_type",
    "Verif.Props.C140_relaxed"
   ],
   "note": "AD3 is a parameter that is assumed to solve its problems (such a solver exists). The by-type statements need node features for all types (None raises in unflattenY, C36)."
  },
  {
   "property": "C141",
   "status": "partial",
   "theorems": [
    "Verif.Props.C141_curve",
    "Verif.Props.C141_online_partial",
    "Verif.Props.C141_batch_partial",
    "Verif.Props.C141_start_of_epoch_partial",
    "Verif.Props.C141_violated_last_epoch",
    "Verif.Props.C141_violated_before_averaging"
   ],
   "note": "Holds without averaging and once averaging has begun. The code violates it otherwise: with average=-1 an interrupt during the first prediction of an epoch (in batch mode, during any) leaves zero weights, as does an interrupt before averaging begins. Interrupts arrive while inference runs."
  },
  {
   "property": "C142",
   "status": "partial",
   "theorems": [
    "Verif.Props.C142_no_interrupt",
    "Verif.Props.C142_descent",
    "Verif.Props.C142_returns",
    "Verif.Props.C142_curves_partial",
    "Verif.Props.C142_violated_timestamp",
    "Verif.Props.C142_start_of_iteration",
    "Verif.Props.C142_resume_partial"
   ],
   "note": "All but the count of timestamps is proved; the code violates it for interrupts while the objective is computed (one timestamp too many). Resumption under the conditions of C122. Interrupts arrive while inference runs; an interrupt of the final objective after the loop is not caught by the code and not modelled."
  },
  {
   "property": "C143",
   "status": "partial",
   "theorems": [
    "Verif.Props.C143_no_interrupt",
    "Verif.Props.C143_violated_first_iteration",
    "Verif.Props.C143_returns_partial",
    "Verif.Props.C143_start_of_iteration",
    "Verif.Props.C143_visits",
    "Verif.Props.C143_certificate"
   ],
   "note": "Proved for interrupts after the first iteration. The code violates it in the first iteration, where fit fails with IndexError. Interrupts arrive while inference runs."
  },
  {
   "property": "C144",
   "status": "partial",
   "theorems": [
    "Verif.Props.C144_no_interrupt",
    "Verif.Props.C144_returns",
    "Verif.Props.C144_descent",
    "Verif.Props.C144_objective_partial",
    "Verif.Props.C144_curves_partial",
    "Verif.Props.C144_violated_timestamp",
    "Verif.Props.C144_start_of_iteration"
   ],
   "note": "The objective needs the loss of a label to agree with that of its completions (C82). The code violates the claim on timestamps for interrupts while a step is prepared: there is one too many (C144_violated_timestamp)."
  },
  {
   "property": "C145",
   "status": "partial",
   "theorems": [
    "Verif.Props.C145_warm_start_partial",
    "Verif.Props.C145_interrupt_partial",
    "Verif.Props.C145_violated_momentum_averaging"
   ],
   "note": "Proved without momentum and averaging, with show_loss_every dividing a. The code violates it with momentum or averaging. The objective curve has one entry more, the final objective of the first training."
  },
  {
   "property": "C146",
   "status": "partial",
   "theorems": [
    "Verif.Props.C146_crammer_singer",
    "Verif.Props.C146_crammer_singer_model",
    "Verif.Props.C146_loss_augment",
    "Verif.Props.C146_loss_augment_model",
    "Verif.Props.C146_viterbi",
    "Verif.Props.C146_multi_class_partial",
    "Verif.Props.C146_violated_multi_class",
    "Verif.Props.C146_crf_partial",
    "Verif.Props.C146_multi_label_partial",
    "Verif.Props.C146_violated_single_label",
    "Verif.Props.C146_violated_crf"
   ],
   "note": "The functions are characterised completely. Their callers are safe exactly if the labels are 0, ..., k-1 (MultiClassClf, GraphCRF, ChainCRF) or there are two labels (MultiLabelClf); initialize does not check this, so labels 1 and 2, or a single label, lead outside the arrays. For viterbi called by inference_max_product see C03_violated_no_edges."
  },
  {
   "property": "C147",
   "status": "proved",
   "theorems": [
    "Verif.Props.C147_frank_wolfe",
    "Verif.Props.C147_subgradient",
    "Verif.Props.C147_perceptron",
    "Verif.Props.C147_one_slack",
    "Verif.Props.C147_constraint_equal"
   ],
   "note": "Exact equality of the runs, in exact arithmetic. The comparison of outputs used by the cache may raise one kind of exception (C147_constraint_equal: it does)."
  },
  {
   "property": "C148",
   "status": "proved",
   "theorems": [
    "Verif.Props.C148_graph",
    "Verif.Props.C148_loss",
    "Verif.Props.C148_decoding",
    "Verif.Props.C148_edge_features",
    "Verif.Props.C148_states",
    "Verif.Props.C148_states_loss",
    "Verif.Props.C148_states_edge_features",
    "Verif.Props.C148_directed_flip"
   ],
   "note": "Whole result including exceptions. C148_directed_flip shows that turning edges round is not allowed in directed models. Label arrays; tuples of marginals are not covered."
  },
  {
   "property": "C149",
   "status": "partial",
   "theorems": [
    "Verif.Props.C149_joint_feature",
    "Verif.Props.C149_directional_joint_feature",
    "Verif.Props.C149_inference_partial",
    "Verif.Props.C149_loss_augmented_partial",
    "Verif.Props.C149_right",
    "Verif.Props.C149_violated_loss_augmented",
    "Verif.Props.C149_violated_edges",
    "Verif.Props.C149_directional_inference_partial",
    "Verif.Props.C149_directional_loss_augmented_partial",
    "Verif.Props.C149_violated_directional_loss_augmented",
    "Verif.Props.C149_directional_right",
    "Verif.Props.C149_loss_augmented_right"
   ],
   "note": "joint_feature always raises ValueError. inference is refused at the latest when the result is reshaped, if the method returns one label per row. Violated: loss_augmented_inference reads beyond the label array when there are too many features per pixel (divisible case); with too few the inference method gets edges to nodes that do not exist."
  },
  {
   "property": "C15",
   "status": "partial",
   "theorems": [
    "Verif.Props.C15_edge_feature_energy_partial",
    "Verif.Props.C15_violated_symmetric",
    "Verif.Props.C15_violated_antisymmetric",
    "Verif.Props.C15_directional_energy"
   ],
   "note": "false as stated for arbitrary w with (anti)symmetric edge features; proved without them, and for symmetric weights under C16"
  },
  {
   "property": "C150",
   "status": "partial",
   "theorems": [
    "Verif.Props.C150_perceptron",
    "Verif.Props.C150_subgradient",
    "Verif.Props.C150_frank_wolfe_partial",
    "Verif.Props.C150_one_slack",
    "Verif.Props.C150_any_exact_solver",
    "Verif.Props.C150_objective",
    "Verif.Props.C150_multi_class",
    "Verif.Props.C150_multi_class_inference",
    "Verif.Props.C150_binary",
    "Verif.Props.C150_binary_inference",
    "Verif.Props.C150_violated_line_search",
    "Verif.Props.C150_n_slack_partial",
    "Verif.Props.C150_n_slack_any_exact_solver",
    "Verif.Props.C150_violated_n_slack"
   ],
   "note": "FrankWolfeSSVM only without line search, or with line search if a = 1 (batch) or a = b (block-coordinate): the constant 1e-15 has units (C150_violated_line_search). OneSlackSSVM from scratch with inactive_window=0, check_constraints=False, tol <= 1 and a*tol <= 1 (last_slack_ starts at -1), no switch_to. tol is in units of losses for OneSlackSSVM and batch Frank-Wolfe, in units of the objective for block-coordinate Frank-Wolfe. NSlackSSVM with inactive_window=0 and C >= 0, only if losses keep their units (a = 1): the threshold 1e-5 for slacks has units (C150_violated_n_slack)."
  },
  {
   "property": "C151",
   "status": "partial",
   "theorems": [
    "Verif.Props.C151_edge_feature_iff",
    "Verif.Props.C151_unstructured_iff",
    "Verif.Props.C151_unstructured_text",
    "Verif.Props.C151_edge_feature_partial",
    "Verif.Props.C151_directional_partial",
    "Verif.Props.C151_unstructured_partial",
    "Verif.Props.C151_crf",
    "Verif.Props.C151_logger",
    "Verif.Props.C151_violated_fresh",
    "Verif.Props.C151_violated_latent"
   ],
   "note": "Holds for every class that inherits the form of CRF, and for the others exactly if all sizes are known, which is so after initialize; before that printing raises TypeError (C151_violated_fresh, C151_violated_latent)."
  },
  {
   "property": "C152",
   "status": "proved",
   "theorems": [
    "Verif.Props.C152_image",
    "Verif.Props.C152_rejects",
    "Verif.Props.C152_images",
    "Verif.Props.C152_images_reject"
   ],
   "note": "The content of the pickle is arbitrary."
  },
  {
   "property": "C153",
   "status": "proved",
   "theorems": [
    "Verif.Props.C153_inference",
    "Verif.Props.C153_shapes",
    "Verif.Props.C153_lower_bound"
   ],
   "note": ""
  },
  {
   "property": "C154",
   "status": "proved",
   "theorems": [
    "Verif.Props.C154_graph",
    "Verif.Props.C154_lines"
   ],
   "note": "Vertices are natural numbers. matplotlib is not modelled: the theorem is about the positions passed to set_xticks and set_yticks."
  },
  {
   "property": "C155",
   "status": "partial",
   "theorems": [
    "Verif.Props.C155_reported_partial",
    "Verif.Props.C155_states",
    "Verif.Props.C155_edge_feature_reported",
    "Verif.Props.C155_multilabel",
    "Verif.Props.C155_violated_graph",
    "Verif.Props.C155_violated_signs",
    "Verif.Props.C155_violated_edge_feature",
    "Verif.Props.C155_violated_no_labelling",
    "Verif.Props.C155_violated_multilabel"
   ],
   "note": "Labels out of reach raise IndexError, labels that are states give the joint feature of the other models; negative labels are characterised exactly. The edge-feature characterisation is for models without symmetric or antisymmetric features."
  },
  {
   "property": "C156",
   "status": "proved",
   "theorems": [
    "Verif.Props.C156_stable",
    "Verif.Props.C156_replaced",
    "Verif.Props.C156_left_out",
    "Verif.Props.C156_hinge"
   ],
   "note": "SubgradientSSVM is not among the learners of the inductive predicate Trained; for it C107 gives the limit."
  },
  {
   "property": "C157",
   "status": "proved",
   "theorems": [
    "Verif.Props.C157_lipschitz",
    "Verif.Props.C157_monotone",
    "Verif.Props.C157_small"
   ],
   "note": "As for C156."
  },
  {
   "property": "C158",
   "status": "proved",
   "theorems": [
    "Verif.Props.C158_rates",
    "Verif.Props.C158_mistakes",
    "Verif.Props.C158_loss_curve",
    "Verif.Props.C158_against_svm",
    "Verif.Props.C158_batch_converges"
   ],
   "note": "C158_rates states the bound for arbitrary nonnegative rates without square roots."
  },
  {
   "property": "C159",
   "status": "proved",
   "theorems": [
    "Verif.Props.C159_subgradient",
    "Verif.Props.C159_latent_ssvm",
    "Verif.Props.C159_one_state",
    "Verif.Props.C159_chains",
    "Verif.Props.C159_init",
    "Verif.Props.C159_one_state_ssvm"
   ],
   "note": "C159_subgradient and C159_latent_ssvm are for any latent model that behaves like a model without latent states; the others instantiate LatentGraphCRF with one state per label."
  },
  {
   "property": "C16",
   "status": "proved",
   "theorems": [
    "Verif.Props.C16_energy_of_symmetric_weights",
    "Verif.Props.C16_joint_feature_blocks",
    "Verif.Props.C16_learned_weights",
    "Verif.Props.C16_contradictory_declarations_rejected"
   ],
   "note": ""
  },
  {
   "property": "C160",
   "status": "proved",
   "theorems": [
    "Verif.Props.C160_objective",
    "Verif.Props.C160_near",
    "Verif.Props.C160_trained",
    "Verif.Props.C160_same_weights",
    "Verif.Props.C160_predictions"
   ],
   "note": "Trained to accuracy eps is the predicate of C106, which covers OneSlackSSVM, NSlackSSVM and FrankWolfeSSVM."
  },
  {
   "property": "C161",
   "status": "proved",
   "theorems": [
    "Verif.Props.C161_objective",
    "Verif.Props.C161_linear",
    "Verif.Props.C161_near",
    "Verif.Props.C161_trained",
    "Verif.Props.C161_same_weights",
    "Verif.Props.C161_predictions"
   ],
   "note": "Trained to accuracy eps is the predicate of C106 (OneSlackSSVM, NSlackSSVM, FrankWolfeSSVM)."
  },
  {
   "property": "C162",
   "status": "proved",
   "theorems": [
    "Verif.Props.C162_offsets",
    "Verif.Props.C162_window",
    "Verif.Props.C162_empty",
    "Verif.Props.C162_colours",
    "Verif.Props.C162_prepare",
    "Verif.Props.C162_single_pixel",
    "Verif.Props.C162_data",
    "Verif.Props.C162_trains"
   ],
   "note": "label_binarize of scikit-learn is modelled by its documentation."
  },
  {
   "property": "C163",
   "status": "partial",
   "theorems": [
    "Verif.Props.C163_present",
    "Verif.Props.C163_even",
    "Verif.Props.C163_change",
    "Verif.Props.C163_count",
    "Verif.Props.C163_augment",
    "Verif.Props.C163_ten",
    "Verif.Props.C163_short",
    "Verif.Props.C163_index",
    "Verif.Props.C163_violated_odd",
    "Verif.Props.C163_violated_short"
   ],
   "note": "True for nCell=10. For odd nCell a closed path of nCell - 1 cells is taken for a snake. The check in augmentWithNoSnakeImages ignores nCell and looks for ten cells, so below ten nothing is discarded, also not images that still show a snake."
  },
  {
   "property": "C164",
   "status": "proved",
   "theorems": [
    "Verif.Props.C164_one_slack",
    "Verif.Props.C164_n_slack",
    "Verif.Props.C164_opposite",
    "Verif.Props.C164_risks_agree",
    "Verif.Props.C164_trained"
   ],
   "note": "QP solver assumed to return feasible points, lp / ad3 optima of the relaxation."
  },
  {
   "property": "C165",
   "status": "partial",
   "theorems": [
    "Verif.Props.C165_picture",
    "Verif.Props.C165_pictures",
    "Verif.Props.C165_convert",
    "Verif.Props.C165_convert_all",
    "Verif.Props.C165_accepted",
    "Verif.Props.C165_swap",
    "Verif.Props.C165_swap_back",
    "Verif.Props.C165_swap_all",
    "Verif.Props.C165_weights",
    "Verif.Props.C165_model",
    "Verif.Props.C165_same_score",
    "Verif.Props.C165_same_loss",
    "Verif.Props.C165_best",
    "Verif.Props.C165_no_constraints",
    "Verif.Props.C165_violated_circle",
    "Verif.Props.C165_violated_sizes",
    "Verif.Props.C165_violated_constraints"
   ],
   "note": "Proved for permutations that are their own inverse (all permutations of two types). The code violates the rest: for a permutation in a circle labels and arrays go different ways (C165_violated_circle) or ValueError is raised (C165_violated_sizes), and the loop over constraints never ends because it appends to the list it runs over (C165_violated_constraints). Besides, the example itself unpacks the three returned values into two names."
  },
  {
   "property": "C166",
   "status": "partial",
   "theorems": [
    "Verif.Props.C166_cache",
    "Verif.Props.C166_returns",
    "Verif.Props.C166_trains",
    "Verif.Props.C166_latent",
    "Verif.Props.C39_appended",
    "Verif.Props.C40_reused_partial",
    "Verif.Props.C87_reused_iterations",
    "Verif.Props.C87_reused_converges",
    "Verif.Props.C166_violated_labels"
   ],
   "note": "Proved if the admissible outputs cost the same against the old and the new labels, as for the completions of a label in latent models. The code violates the rest: losses in the kept cache belong to the old labels, so that after a change of label training stops with zero weights and an objective above the minimum of the risk (C166_violated_labels)."
  },
  {
   "property": "C167",
   "status": "proved",
   "theorems": [
    "Verif.Props.C167_feature",
    "Verif.Props.C167_edge_features",
    "Verif.Props.C167_loss",
    "Verif.Props.C167_decoding",
    "Verif.Props.C167_unary",
    "Verif.Props.C167_hinge",
    "Verif.Props.C167_risk",
    "Verif.Props.C167_one_slack",
    "Verif.Props.C167_connected"
   ],
   "note": "C167_connected shows that the absence of edges between the parts is needed."
  },
  {
   "property": "C168",
   "status": "partial",
   "theorems": [
    "Verif.Props.C168_max_product_partial",
    "Verif.Props.C168_loopy_partial",
    "Verif.Props.C168_unary",
    "Verif.Props.C168_best",
    "Verif.Props.C168_relaxed",
    "Verif.Props.C168_lp",
    "Verif.Props.C168_graph_partial",
    "Verif.Props.C168_multiclass",
    "Verif.Props.C168_binary",
    "Verif.Props.C168_loss_augmented_partial",
    "Verif.Props.C168_violated_loopy"
   ],
   "note": "Max-product on graphs with cycles violates it (C168_violated_loopy): messages from edge[1] to edge[0] are reduced by the maximum of the old message instead of the new one, so they carry the constants, and the stopping rule compares absolute changes with 1e-5. C168_loopy_partial: without the stopping rule the labels agree after every number of rounds."
  },
  {
   "property": "C169",
   "status": "proved",
   "theorems": [
    "Verif.Props.C169_single",
    "Verif.Props.C169_room",
    "Verif.Props.C169_converted",
    "Verif.Props.C169_several_types",
    "Verif.Props.C169_single_typed",
    "Verif.Props.C169_snake_or_nothing",
    "Verif.Props.C169_at_most_one",
    "Verif.Props.C169_truth",
    "Verif.Props.C169_order_matters"
   ],
   "note": "The operators have the meaning of the AD3 documentation, stated in Spec/Logic.lean (the package itself is not modelled). C169_order_matters: the output of an operator is its last variable, so the constraints of listConstraints mean something else once the types are swapped."
  },
  {
   "property": "C17",
   "status": "proved",
   "theorems": [
    "Verif.Props.C17_multilabel_energy"
   ],
   "note": ""
  },
  {
   "property": "C170",
   "status": "proved",
   "theorems": [
    "Verif.Props.C170_node_energy",
    "Verif.Props.C170_node_inference",
    "Verif.Props.C170_node_loss_augmented",
    "Verif.Props.C170_node_small",
    "Verif.Props.C170_node_inference_small",
    "Verif.Props.C170_edge_node_energy",
    "Verif.Props.C170_edge_node_inference",
    "Verif.Props.C170_edge_node_loss_augmented",
    "Verif.Props.C170_edge_node_small"
   ],
   "note": "Weights without the declared symmetries: see C20_violated_symmetric. Outputs that are labellings need an edge for EdgeFeatureLatentNodeCRF (C20_violated_no_edges), marginals do not."
  },
  {
   "property": "C171",
   "status": "proved",
   "theorems": [
    "Verif.Props.C171_size",
    "Verif.Props.C171_potentials",
    "Verif.Props.C171_scores",
    "Verif.Props.C171_features",
    "Verif.Props.C171_inference",
    "Verif.Props.C171_objective",
    "Verif.Props.C171_near",
    "Verif.Props.C171_same_weights"
   ],
   "note": "For directed=False the scores and predictions agree but the regulariser of the full matrix counts the weights of two different states twice, so learned weights need not."
  },
  {
   "property": "C172",
   "status": "partial",
   "theorems": [
    "Verif.Props.C172_part_partial",
    "Verif.Props.C172_in_place",
    "Verif.Props.C172_sizes",
    "Verif.Props.C172_nothing",
    "Verif.Props.C172_no_pixels",
    "Verif.Props.C172_violated_first_row",
    "Verif.Props.C172_violated_first_column",
    "Verif.Props.C172_again",
    "Verif.Props.C172_snakes",
    "Verif.Props.C172_present",
    "Verif.Props.C172_lists"
   ],
   "note": "The part is as claimed when no cell that stays is in the first row or column; otherwise the code returns an (almost) empty part, which C172_violated_first_row and C172_violated_first_column prove for all such images. That the arrays returned are views of the arguments is not modelled."
  },
  {
   "property": "C173",
   "status": "proved",
   "theorems": [
    "Verif.Props.C173_objective",
    "Verif.Props.C173_near",
    "Verif.Props.C173_split",
    "Verif.Props.C173_same_weights",
    "Verif.Props.C173_predictions",
    "Verif.Props.C173_centred",
    "Verif.Props.C173_sum_zero"
   ],
   "note": "The binary side is stated for any solution of the binary problem, because the cutting-plane learners can stop elsewhere with a BinaryClf (C108)."
  },
  {
   "property": "C174",
   "status": "proved",
   "theorems": [
    "Verif.Props.C174_added",
    "Verif.Props.C174_left_out",
    "Verif.Props.C174_minimiser",
    "Verif.Props.C174_leave_one_out",
    "Verif.Props.C174_trained"
   ],
   "note": "C174_trained is about the learners as modelled (C106); the others are about the regularised risk they minimise."
  },
  {
   "property": "C175",
   "status": "partial",
   "theorems": [
    "Verif.Props.C175_tree",
    "Verif.Props.C175_best",
    "Verif.Props.C175_prediction_partial",
    "Verif.Props.C175_independent_tree",
    "Verif.Props.C175_violated_independent"
   ],
   "note": "Everything about the tree is proved, with scipy's minimum_spanning_tree specified as returning a spanning forest of least weight of the nonzero entries, and mutual information as symmetric and nonnegative. Prediction is optimal if the best set of labels is unique; otherwise each decision is that of some best set (C02). If all labels are independent the tree has no edges and max-product raises."
  },
  {
   "property": "C176",
   "status": "proved",
   "theorems": [
    "Verif.Props.C176_images",
    "Verif.Props.C176_different",
    "Verif.Props.C176_present",
    "Verif.Props.C176_stuck",
    "Verif.Props.C176_every",
    "Verif.Props.C176_violated_labels",
    "Verif.Props.C176_violated_endless",
    "Verif.Props.C176_empty"
   ],
   "note": "genSnakes of the typed snake example, with the random orders of the directions as parameters; that the loop over attempts ends is not claimed (it depends on the draws, and C176_violated_endless shows a case where it cannot). random.shuffle of range(4) is modelled as in Python 2. C176_violated_labels and C176_violated_endless are the limits named in the statement."
  },
  {
   "property": "C177",
   "status": "proved",
   "theorems": [
    "Verif.Props.C177_potentials",
    "Verif.Props.C177_scores",
    "Verif.Props.C177_inference",
    "Verif.Props.C177_hinge"
   ],
   "note": "4-neighbourhood; with 8 neighbours DirectionalGridCRF does not work (C22_violated_directional_8)."
  },
  {
   "property": "C178",
   "status": "partial",
   "theorems": [
    "Verif.Props.C178_pages",
    "Verif.Props.C178_violated_wide",
    "Verif.Props.C178_violated_straight",
    "Verif.Props.C178_endless",
    "Verif.Props.C178_mistakes"
   ],
   "note": "The layout is proved for images that fit their tiles; generated images need not fit (C178_violated_straight), and then the call fails in the last column. The drawing by matplotlib is not modelled."
  },
  {
   "property": "C179",
   "status": "proved",
   "theorems": [
    "Verif.Props.C179_potentials",
    "Verif.Props.C179_scores",
    "Verif.Props.C179_converse",
    "Verif.Props.C179_inference",
    "Verif.Props.C179_hinge",
    "Verif.Props.C179_norm"
   ],
   "note": "At least one edge where the code of EdgeFeatureGraphCRF needs an edge feature (potentials, inference); without edges see C161."
  },
  {
   "property": "C18",
   "status": "proved",
   "theorems": [
    "Verif.Props.C18_inference",
    "Verif.Props.C18_inference_rescale",
    "Verif.Props.C18_loss_augmented",
    "Verif.Props.C18_negative_weight_counterexample"
   ],
   "note": "class weights nonnegative (needed: C18_negative_weight_counterexample)"
  },
  {
   "property": "C180",
   "status": "proved",
   "theorems": [
    "Verif.Props.C180_perceptron",
    "Verif.Props.C180_subgradient",
    "Verif.Props.C180_frank_wolfe",
    "Verif.Props.C180_one_slack",
    "Verif.Props.C180_n_slack",
    "Verif.Props.C180_objective",
    "Verif.Props.C180_multi_class",
    "Verif.Props.C180_binary",
    "Verif.Props.C180_graph",
    "Verif.Props.C180_unary_method",
    "Verif.Props.C180_max_product_method"
   ],
   "note": "OneSlackSSVM and NSlackSSVM with exact solvers of the quadratic programs, from scratch, inactive_window=0 (OneSlackSSVM also check_constraints=False and tol <= 1), no switch_to."
  },
  {
   "property": "C181",
   "status": "proved",
   "theorems": [
    "Verif.Props.C181_together",
    "Verif.Props.C181_kept",
    "Verif.Props.C181_empty"
   ],
   "note": "random.shuffle is a parameter: any permutation of the positions. Lists of one element type."
  },
  {
   "property": "C182",
   "status": "proved",
   "theorems": [
    "Verif.Props.C182_perceptron",
    "Verif.Props.C182_subgradient",
    "Verif.Props.C182_frank_wolfe",
    "Verif.Props.C182_one_slack",
    "Verif.Props.C182_n_slack",
    "Verif.Props.C182_multi_class",
    "Verif.Props.C182_graph"
   ],
   "note": "OneSlackSSVM and NSlackSSVM under the conditions of C180, without negativity_constraint; OneSlackSSVM with class weights that are not negative."
  },
  {
   "property": "C183",
   "status": "proved",
   "theorems": [
    "Verif.Props.C183_size",
    "Verif.Props.C183_joint_feature",
    "Verif.Props.C183_inference",
    "Verif.Props.C183_loss_augmented",
    "Verif.Props.C183_loss",
    "Verif.Props.C183_latent",
    "Verif.Props.C183_no_nodes"
   ],
   "note": "Marginals as output of a relaxation are covered by C183_joint_feature. The inference method may be any function of the entries of the arrays and the edges."
  },
  {
   "property": "C184",
   "status": "proved",
   "theorems": [
    "Verif.Props.C184_size",
    "Verif.Props.C184_joint_feature",
    "Verif.Props.C184_inference",
    "Verif.Props.C184_loss_augmented",
    "Verif.Props.C184_latent",
    "Verif.Props.C183_loss"
   ],
   "note": "On graphs without edges, joint_feature of the EdgeFeatureLatentNodeCRF raises (C20_violated_no_edges). The inference method may be any function of the entries of the unary potentials, the pairwise potentials and the edges."
  },
  {
   "property": "C185",
   "status": "proved",
   "theorems": [
    "Verif.Props.C185_edge_features",
    "Verif.Props.C185_max_product_method",
    "Verif.Props.C185_copies",
    "Verif.Props.C185_node_features",
    "Verif.Props.C185_node_copies"
   ],
   "note": "C185_edge_features states that the two models are related as C180 requires, so C180_perceptron, C180_subgradient, C180_frank_wolfe, C180_one_slack and C180_n_slack apply under their conditions. The method of inference may look at nothing but the entries of the potentials, which is proved for max-product."
  },
  {
   "property": "C186",
   "status": "partial",
   "theorems": [
    "Verif.Props.C186_order",
    "Verif.Props.C186_parts",
    "Verif.Props.C186_copies",
    "Verif.Props.C186_better",
    "Verif.Props.C186_latent",
    "Verif.Props.C186_violated_lengths"
   ],
   "note": "All but the last sentence is proved. The code violates the last one for models that inherit batch_loss: zip ends with the shorter list, so labels without an instance count as predicted without loss (C186_violated_lengths). BinaryClf and MultiClassClf compare arrays in batch_loss; what numpy does there for unequal shapes is not modelled."
  },
  {
   "property": "C187",
   "status": "proved",
   "theorems": [
    "Verif.Props.C187_method",
    "Verif.Props.C187_sizes",
    "Verif.Props.C187_exact",
    "Verif.Props.C187_learner"
   ],
   "note": "For GraphCRF the trial of the installed packages must raise nothing but ImportError (the structure Working of C77); for ChainCRF nothing is assumed about the packages."
  },
  {
   "property": "C188",
   "status": "proved",
   "theorems": [
    "Verif.Props.C188_risk",
    "Verif.Props.C188_weights",
    "Verif.Props.C188_score",
    "Verif.Props.C188_without_rescale"
   ],
   "note": "Trained (C106) collects the conditions under which training is proved to reach its tolerance: exact QP solver, no pruning of constraints, enough iterations."
  },
  {
   "property": "C189",
   "status": "proved",
   "theorems": [
    "Verif.Props.C189_score",
    "Verif.Props.C189_risk",
    "Verif.Props.C189_weights",
    "Verif.Props.C189_prediction"
   ],
   "note": "Trained (C106) collects the conditions under which training is proved to reach its tolerance: exact QP solver, no pruning of constraints, enough iterations. Predictions may differ between equally good label sequences, so the claim is about their scores."
  },
  {
   "property": "C19",
   "status": "partial",
   "theorems": [
    "Verif.Props.C19_inference",
    "Verif.Props.C19_loss_augmented_partial",
    "Verif.Props.C19_violated_at_margin"
   ],
   "note": "false as stated when <w,x> equals the true label (C19_violated_at_margin); proved otherwise"
  },
  {
   "property": "C190",
   "status": "proved",
   "theorems": [
    "Verif.Props.C190_score",
    "Verif.Props.C190_loss",
    "Verif.Props.C190_risk",
    "Verif.Props.C190_weights",
    "Verif.Props.C190_prediction",
    "Verif.Props.C190_directed"
   ],
   "note": "One move is a mirror image or a transposition; Turned closes under sequences of moves. Competing outputs are the labellings of the image, inference is assumed to find a best one (SolvesOver, true of exact AD3). Trained (C106) collects the conditions under which training is proved to reach its tolerance."
  },
  {
   "property": "C191",
   "status": "proved",
   "theorems": [
    "Verif.Props.C191_score",
    "Verif.Props.C191_risk",
    "Verif.Props.C191_weights",
    "Verif.Props.C191_prediction"
   ],
   "note": "Neighborhood 4 (with 8 the model cannot be used, C22). Competing outputs are the labellings of the image, inference is assumed to find a best one (SolvesEdges, true of exact AD3). Trained (C106) collects the conditions under which training is proved to reach its tolerance."
  },
  {
   "property": "C20",
   "status": "partial",
   "theorems": [
    "Verif.Props.C20_latent_node_energy",
    "Verif.Props.C20_edge_latent_node_energy_partial",
    "Verif.Props.C20_violated_symmetric",
    "Verif.Props.C20_violated_no_edges"
   ],
   "note": "full for LatentNodeCRF; for EdgeFeatureLatentNodeCRF with at least one edge and weights respecting the declared symmetries, false otherwise"
  },
  {
   "property": "C21",
   "status": "proved",
   "theorems": [
    "Verif.Props.C21_typed_energy",
    "Verif.Props.C21_typed_relaxed",
    "Verif.Props.C21_typed_blocks"
   ],
   "note": ""
  },
  {
   "property": "C22",
   "status": "partial",
   "theorems": [
    "Verif.Props.C22_graphcrf_size",
    "Verif.Props.C22_graphcrf_inference_accepts",
    "Verif.Props.C22_edge_feature_size",
    "Verif.Props.C22_edge_feature_inference_accepts",
    "Verif.Props.C22_directional_size_partial",
    "Verif.Props.C22_violated_directional_8",
    "Verif.Props.C22_multilabel_size_partial",
    "Verif.Props.C22_violated_multilabel"
   ],
   "note": "false for DirectionalGridCRF with neighborhood=8 (C22_violated_directional_8) and for MultiLabelClf given a labelling of the wrong length (C22_violated_multilabel)"
  },
  {
   "property": "C23",
   "status": "proved",
   "theorems": [
    "Verif.Props.C23_graphcrf_linear",
    "Verif.Props.C23_graphcrf_onehot",
    "Verif.Props.C23_graphcrf_relaxed_score",
    "Verif.Props.C23_edge_feature_linear",
    "Verif.Props.C23_edge_feature_onehot",
    "Verif.Props.C23_multilabel_affine",
    "Verif.Props.C23_multilabel_onehot"
   ],
   "note": "GraphCRF, EdgeFeatureGraphCRF, MultiLabelClf (affine)"
  },
  {
   "property": "C24",
   "status": "partial",
   "theorems": [
    "Verif.Props.C24_augmented_energy",
    "Verif.Props.C24_unit_weights",
    "Verif.Props.C24_latent_graph",
    "Verif.Props.C24_latent_node",
    "Verif.Props.C24_latent_node_loss",
    "Verif.Props.C24_violated_latent_node_illegal"
   ],
   "note": "latent-node models: proved for legal labellings only; false for labellings that put hidden states on visible nodes"
  },
  {
   "property": "C25",
   "status": "proved",
   "theorems": [
    "Verif.Props.C25_batch_joint_feature",
    "Verif.Props.C25_batch_comprehension",
    "Verif.Props.C25_predict",
    "Verif.Props.C25_binary_joint_feature",
    "Verif.Props.C25_binary_inference",
    "Verif.Props.C25_binary_loss_augmented",
    "Verif.Props.C25_binary_loss",
    "Verif.Props.C25_binary_joint_feature_unchecked",
    "Verif.Props.C25_multiclass_joint_feature",
    "Verif.Props.C25_multiclass_inference",
    "Verif.Props.C25_multiclass_loss_augmented",
    "Verif.Props.C25_multiclass_loss"
   ],
   "note": ""
  },
  {
   "property": "C26",
   "status": "proved",
   "theorems": [
    "Verif.Props.C26_loss_bounds",
    "Verif.Props.C26_loss_bounds_unweighted",
    "Verif.Props.C26_loss_metric",
    "Verif.Props.C26_label_without_weight"
   ],
   "note": ""
  },
  {
   "property": "C27",
   "status": "proved",
   "theorems": [
    "Verif.Props.C27_onehot",
    "Verif.Props.C27_affine",
    "Verif.Props.C27_range",
    "Verif.Props.C27_latent_graph_onehot",
    "Verif.Props.C27_latent_node_onehot"
   ],
   "note": ""
  },
  {
   "property": "C28",
   "status": "proved",
   "theorems": [
    "Verif.Props.C28_score",
    "Verif.Props.C28_hamming",
    "Verif.Props.C28_multiclass"
   ],
   "note": ""
  },
  {
   "property": "C29",
   "status": "proved",
   "theorems": [
    "Verif.Props.C29_slack",
    "Verif.Props.C29_given_candidate"
   ],
   "note": "multiClass_exact shows that MultiClassClf meets the exactness hypothesis"
  },
  {
   "property": "C30",
   "status": "proved",
   "theorems": [
    "Verif.Props.C30_variants_agree",
    "Verif.Props.C30_objective",
    "Verif.Props.C30_bounds",
    "Verif.Props.C30_convex"
   ],
   "note": ""
  },
  {
   "property": "C31",
   "status": "proved",
   "theorems": [
    "Verif.Props.C31_grid_edges",
    "Verif.Props.C31_bad_neighborhood",
    "Verif.Props.C31_direction_lists"
   ],
   "note": ""
  },
  {
   "property": "C32",
   "status": "proved",
   "theorems": [
    "Verif.Props.C32_expand_symmetric",
    "Verif.Props.C32_compress_expand",
    "Verif.Props.C32_expand_compress",
    "Verif.Props.C32_adjoint"
   ],
   "note": ""
  },
  {
   "property": "C33",
   "status": "proved",
   "theorems": [
    "Verif.Props.C33_state_map"
   ],
   "note": ""
  },
  {
   "property": "C34",
   "status": "partial",
   "theorems": [
    "Verif.Props.C34_latent_graph_consistent",
    "Verif.Props.C34_latent_graph_succeeds",
    "Verif.Props.C34_latent_graph_optimal_partial",
    "Verif.Props.C34_violated_optimal",
    "Verif.Props.C34_latent_node_consistent",
    "Verif.Props.C34_edge_latent_node_consistent",
    "Verif.Props.C34_edge_latent_node_succeeds",
    "Verif.Props.C34_violated_latent_node_raises"
   ],
   "note": "consistency proved for all three classes; optimality only without fallback (C34_violated_optimal); LatentNodeCRF.latent may raise"
  },
  {
   "property": "C35",
   "status": "proved",
   "theorems": [
    "Verif.Props.C35_kmeans_init",
    "Verif.Props.C35_latent_node_init"
   ],
   "note": ""
  },
  {
   "property": "C36",
   "status": "partial",
   "theorems": [
    "Verif.Props.C36_no_labels",
    "Verif.Props.C36_unflatten_flatten",
    "Verif.Props.C36_flatten_unflatten",
    "Verif.Props.C36_unflatten_sizes",
    "Verif.Props.C36_no_collision",
    "Verif.Props.C36_violated_surplus",
    "Verif.Props.C36_violated_none"
   ],
   "note": "the round trips hold; flattenY does not reject a wrong number of types and unflattenY raises AttributeError for None node features"
  },
  {
   "property": "C37",
   "status": "partial",
   "theorems": [
    "Verif.Props.C37_check_labels",
    "Verif.Props.C37_initialize_one",
    "Verif.Props.C37_violated_initialize"
   ],
   "note": "the check itself is exact; initialize on lists never performs it"
  },
  {
   "property": "C38",
   "status": "proved",
   "theorems": [
    "Verif.Props.C38_decode",
    "Verif.Props.C38_inference"
   ],
   "note": ""
  },
  {
   "property": "C39",
   "status": "proved",
   "theorems": [
    "Verif.Props.C39_fit"
   ],
   "note": "every value of objective_curve_, for fresh, repeated and warm-started fits with caching, switching, pruning and interrupts; needs only a feasible QP solver and admissible outputs"
  },
  {
   "property": "C40",
   "status": "partial",
   "theorems": [
    "Verif.Props.C40_partial",
    "Verif.Props.C40_no_pruning",
    "Verif.Props.C40_reused_no_pruning",
    "Verif.Props.C40_violated_pruning"
   ],
   "note": "holds as long as the constraint of the true outputs is not pruned (always with inactive_window=0); otherwise false (violation proved with exact solver and inference). The bound has an extra term 1e-8 (C n)^2 if the regularised QP is solved"
  },
  {
   "property": "C41",
   "status": "partial",
   "theorems": [
    "Verif.Props.C41_partial",
    "Verif.Props.C41_violated"
   ],
   "note": "bound inference_cache+1 proved, the documented bound is violated"
  },
  {
   "property": "C42",
   "status": "partial",
   "theorems": [
    "Verif.Props.C42_partial",
    "Verif.Props.C42_violated",
    "Verif.Props.C42_violated_assertion"
   ],
   "note": "holds unless training is interrupted while or right after the QP is solved"
  },
  {
   "property": "C43",
   "status": "proved",
   "theorems": [
    "Verif.Props.C43_no_duplicates",
    "Verif.Props.C43_bookkeeping",
    "Verif.Props.C43_active_kept",
    "Verif.Props.C43_terminates"
   ],
   "note": "bookkeeping for fits that are not interrupted"
  },
  {
   "property": "C44",
   "status": "partial",
   "theorems": [
    "Verif.Props.C44_lower_bound",
    "Verif.Props.C44_partial",
    "Verif.Props.C44_violated_zero_loss",
    "Verif.Props.C44_violated_tol"
   ],
   "note": "bound proved in full; near-optimality when training stops because there are no new constraints, for models in which outputs without loss have the features of the true output; otherwise false (violations proved)"
  },
  {
   "property": "C45",
   "status": "proved",
   "theorems": [
    "Verif.Props.C45_block_sums"
   ],
   "note": ""
  },
  {
   "property": "C46",
   "status": "proved",
   "theorems": [
    "Verif.Props.C46_bc_step",
    "Verif.Props.C46_batch_step",
    "Verif.Props.C46_dual_curve"
   ],
   "note": ""
  },
  {
   "property": "C47",
   "status": "partial",
   "theorems": [
    "Verif.Props.C47_gap",
    "Verif.Props.C47_fit",
    "Verif.Props.C47_violated_refit"
   ],
   "note": "certificate proved for fresh learners in both modes; invalid after a second fit (violation proved)"
  },
  {
   "property": "C48",
   "status": "proved",
   "theorems": [
    "Verif.Props.C48_fit"
   ],
   "note": "online, mini-batch and parallel mode, with momentum and step decay, for every number of passes"
  },
  {
   "property": "C49",
   "status": "proved",
   "theorems": [
    "Verif.Props.C48_fit",
    "Verif.Props.C49_frankwolfe"
   ],
   "note": "linear and squared averaging of SubgradientSSVM for learners whose step counter is 0 (first fit), and Frank-Wolfe averaging"
  },
  {
   "property": "C50",
   "status": "proved",
   "theorems": [
    "Verif.Props.C50_minibatches",
    "Verif.Props.C48_fit",
    "Verif.Props.C50_n_slack"
   ],
   "note": "SubgradientSSVM and NSlackSSVM"
  },
  {
   "property": "C51",
   "status": "partial",
   "theorems": [
    "Verif.Props.C51_perceptron",
    "Verif.Props.C51_one_slack",
    "Verif.Props.C51_n_slack",
    "Verif.Props.C51_violated_subgradient",
    "Verif.Props.C47_violated_refit",
    "Verif.Props.C126_violated_refit"
   ],
   "note": "holds for the perceptron, OneSlackSSVM and NSlackSSVM without switch_to; violated by SubgradientSSVM and FrankWolfeSSVM, and by switch_to, which changes the model for good"
  },
  {
   "property": "C52",
   "status": "proved",
   "theorems": [
    "Verif.Props.C52_mistake_bound",
    "Verif.Props.C52_mistakes_on_run",
    "Verif.Props.C52_converges"
   ],
   "note": "Mistake bound for online training without decay under exact inference, for any number of epochs and any averaging; convergence to zero training loss."
  },
  {
   "property": "C53",
   "status": "partial",
   "theorems": [
    "Verif.Props.C53_online_partial",
    "Verif.Props.C53_batch_partial",
    "Verif.Props.C53_violated_early_stop"
   ],
   "note": "Averages characterised against an independent run of the algorithm whenever at least one epoch counts; the full statement fails after an early stop before epoch k (violation proved)."
  },
  {
   "property": "C54",
   "status": "proved",
   "theorems": [
    "Verif.Props.C54_early_stop"
   ],
   "note": "Online and batch, any decay."
  },
  {
   "property": "C55",
   "status": "partial",
   "theorems": [
    "Verif.Props.C55_schedule_plain",
    "Verif.Props.C55_schedule_template",
    "Verif.Props.C55_distinct_files",
    "Verif.Props.C55_zero_period",
    "Verif.Props.C55_violated_final",
    "Verif.Props.C55_violated_training"
   ],
   "note": "the schedule is proved; a template name raises TypeError at the final call"
  },
  {
   "property": "C56",
   "status": "partial",
   "theorems": [
    "Verif.Props.C56_transparent_partial",
    "Verif.Props.C56_cannot_open",
    "Verif.Props.C56_load_last",
    "Verif.Props.C56_violated_cache_lost",
    "Verif.Props.C56_violated_previous_lost",
    "Verif.Props.C56_violated_load_template"
   ],
   "note": "transparent as long as opening and dumping succeed; otherwise cache and previous file can be lost, and load fails for template names"
  },
  {
   "property": "C57",
   "status": "proved",
   "theorems": [
    "Verif.Props.C57_run",
    "Verif.Props.C57_step",
    "Verif.Props.C57_descent",
    "Verif.Props.C57_fixed_point",
    "Verif.Props.C57_constraints",
    "Verif.Props.C57_classical"
   ],
   "note": "base learner and completion are parameters: exact, or (C57_step) at most eps worse than the weights it starts from"
  },
  {
   "property": "C58",
   "status": "partial",
   "theorems": [
    "Verif.Props.C58_latent_ssvm",
    "Verif.Props.C58_latent_node",
    "Verif.Props.C58_graph_loss",
    "Verif.Props.C58_violated"
   ],
   "note": "proved for LatentSSVM and for SubgradientLatentSSVM with LatentNodeCRF; refuted for SubgradientLatentSSVM with LatentGraphCRF"
  },
  {
   "property": "C59",
   "status": "partial",
   "theorems": [
    "Verif.Props.C59_objective_partial",
    "Verif.Props.C59_fit_partial",
    "Verif.Props.C59_better_of_two",
    "Verif.Props.C59_violated"
   ],
   "note": "the function is the objective for C/n; not proportional to the objective for C"
  },
  {
   "property": "C60",
   "status": "partial",
   "theorems": [
    "Verif.Props.C60_override",
    "Verif.Props.C60_unknown",
    "Verif.Props.C60_energy_partial",
    "Verif.Props.C60_violated_energy",
    "Verif.Props.C60_routes_lp",
    "Verif.Props.C60_routes_unary",
    "Verif.Props.C60_routes_max_product",
    "Verif.Props.C60_routes_ad3",
    "Verif.Props.C60_routes_ogm",
    "Verif.Props.C60_ogm_unknown_alg",
    "Verif.Props.C60_chain_crf",
    "Verif.Props.C60_crf_ad3",
    "Verif.Props.C60_crf_ad3_augmented",
    "Verif.Props.C60_refused",
    "Verif.Props.C60_ignored",
    "Verif.Props.C60_lp_options"
   ],
   "note": "Routing, option merging and rejection of unknown names are proved; return_energy is proved for lp, ad3, ad3+ and ogm and proved to be ignored by qpbo, unary and max-product."
  },
  {
   "property": "C61",
   "status": "proved",
   "theorems": [
    "Verif.Props.C61_one_slack",
    "Verif.Props.C61_n_slack"
   ],
   "note": ""
  },
  {
   "property": "C62",
   "status": "partial",
   "theorems": [
    "Verif.Props.C62_sizes",
    "Verif.Props.C62_rejects",
    "Verif.Props.C62_labels_valid_partial",
    "Verif.Props.C62_accepts",
    "Verif.Props.C62_violated_gap",
    "Verif.Props.C62_violated_first_only",
    "Verif.Props.C62_multilabel_sizes",
    "Verif.Props.C62_multilabel_accepts"
   ],
   "note": "holds for labels without gaps; counts distinct labels and looks only at the first sample"
  },
  {
   "property": "C63",
   "status": "partial",
   "theorems": [
    "Verif.Props.C63_default_hamming",
    "Verif.Props.C63_wrong_length",
    "Verif.Props.C63_wrong_length_construct",
    "Verif.Props.C63_twice",
    "Verif.Props.C63_violated_uniform",
    "Verif.Props.C63_multilabel_partial",
    "Verif.Props.C63_violated_single_label",
    "Verif.Props.C63_violated_ml_construct"
   ],
   "note": "lengths are checked; the uniform flag and MultiLabelClf with one label are wrong"
  },
  {
   "property": "C64",
   "status": "partial",
   "theorems": [
    "Verif.Props.C64_small_couplings_partial",
    "Verif.Props.C64_violated"
   ],
   "note": "false in general because the penalty is finite"
  },
  {
   "property": "C65",
   "status": "partial",
   "theorems": [
    "Verif.Props.C65_fit_succeeds_partial",
    "Verif.Props.C65_violated_no_checks"
   ],
   "note": "exact characterisation: training succeeds iff there are samples, max_iter is not 0, the model has no rescale_C, and check_dual_every is not 0 or batch mode is used; so the claim fails for check_dual_every=0 in block-coordinate mode"
  },
  {
   "property": "C66",
   "status": "partial",
   "theorems": [
    "Verif.Props.C66_online_stop",
    "Verif.Props.C66_violated_minibatch"
   ],
   "note": "online mode; false for mini-batches"
  },
  {
   "property": "C67",
   "status": "partial",
   "theorems": [
    "Verif.Props.C67_returns_partial",
    "Verif.Props.C67_returns_iff_partial",
    "Verif.Props.C67_soft_iff_partial",
    "Verif.Props.C67_nslack_returns_partial",
    "Verif.Props.C67_nslack_returns_iff_partial",
    "Verif.Props.C67_violated_nothing_to_learn",
    "Verif.Props.C67_violated_converged",
    "Verif.Props.C67_violated_n_slack"
   ],
   "note": "false: UnboundLocalError whenever no QP is solved; proved for both learners: this is the only exception, and the exact condition for it on fresh learners and for warm_start='soft'"
  },
  {
   "property": "C68",
   "status": "partial",
   "theorems": [
    "Verif.Props.C68_auto_partial",
    "Verif.Props.C68_violated"
   ],
   "note": "false: numbers and None are ignored; for cache_tol=auto the effect is proved"
  },
  {
   "property": "C69",
   "status": "partial",
   "theorems": [
    "Verif.Props.C69_gap_partial",
    "Verif.Props.C69_violated"
   ],
   "note": "Optimality among sign-constrained weights fails (the dual is restricted instead of the weights; C69_violated is a concrete run). What holds: the weights satisfy the constraint and the reported duality gap bounds their distance from the best constrained weights."
  },
  {
   "property": "C70",
   "status": "partial",
   "theorems": [
    "Verif.Props.C70_returns_partial",
    "Verif.Props.C70_own_partial",
    "Verif.Props.C70_violated_fresh",
    "Verif.Props.C70_violated_other"
   ],
   "note": "False for fresh learners and for other constraint lists (both exceptions are proved for all data). What holds: constraints given to a fitted learner are accepted if there is one and, with pruning, the counters fit them; in particular the learner's own constraints_ after a fit."
  },
  {
   "property": "C71",
   "status": "partial",
   "theorems": [
    "Verif.Props.C71_violated",
    "Verif.Props.C116_n_slack"
   ],
   "note": "false; the last entry alone is the primal objective; C116_n_slack says what the others are when there is one batch"
  },
  {
   "property": "C72",
   "status": "partial",
   "theorems": [
    "Verif.Props.C72_total_partial",
    "Verif.Props.C72_violated",
    "Verif.Props.C43_active_kept"
   ],
   "note": "False: the counter is never reset. What holds: the working sets are exactly those of a machine that removes a constraint once its total number of inactive programs exceeds inactive_window, consecutive or not; a constraint is never removed while active (C43)."
  },
  {
   "property": "C73",
   "status": "partial",
   "theorems": [
    "Verif.Props.C73_partial",
    "Verif.Props.C73_violated"
   ],
   "note": "the arrays that the check sees are checked exactly; surplus arrays are never looked at"
  },
  {
   "property": "C74",
   "status": "proved",
   "theorems": [
    "Verif.Props.C74_relaxed",
    "Verif.Props.C74_augmented_energy",
    "Verif.Props.C74_loss_augmented",
    "Verif.Props.C74_inference",
    "Verif.Props.C74_continuous_loss",
    "Verif.Props.C74_losses_agree"
   ],
   "note": ""
  },
  {
   "property": "C75",
   "status": "partial",
   "theorems": [
    "Verif.Props.C75_violated",
    "Verif.Props.C75_flag_of_backend"
   ],
   "note": "false: the flag has no effect"
  },
  {
   "property": "C76",
   "status": "proved",
   "theorems": [
    "Verif.Props.C76_joint_feature",
    "Verif.Props.C76_potentials"
   ],
   "note": ""
  },
  {
   "property": "C77",
   "status": "proved",
   "theorems": [
    "Verif.Props.C77_get_installed",
    "Verif.Props.C77_unknown",
    "Verif.Props.C77_default"
   ],
   "note": "Packages are parameters (importable or not); assumes that ad3 returns one column per state and that the LP solver solves the trial problem."
  },
  {
   "property": "C78",
   "status": "partial",
   "theorems": [
    "Verif.Props.C78_rejected",
    "Verif.Props.C78_honoured",
    "Verif.Props.C78_violated_ignored"
   ],
   "note": "Rejected by ad3 and max-product, forwarded by ad3+; lp, qpbo, ogm and unary ignore constraints (proved)."
  },
  {
   "property": "C79",
   "status": "partial",
   "theorems": [
    "Verif.Props.C79_near_optimal",
    "Verif.Props.C79_exact_on_grid",
    "Verif.Props.C79_violated_exact"
   ],
   "note": "Bound and exactness on multiples of 1/1000 proved for an exact integer solver; exactness in general refuted. int32 overflow is not modelled."
  },
  {
   "property": "C80",
   "status": "partial",
   "theorems": [
    "Verif.Props.C80_subgradient_partial",
    "Verif.Props.C80_one_slack_partial",
    "Verif.Props.C80_n_slack_partial",
    "Verif.Props.C80_violated_frank_wolfe",
    "Verif.Props.C80_violated_perceptron"
   ],
   "note": "refuted for FrankWolfeSSVM and StructuredPerceptron; for SubgradientSSVM and NSlackSSVM without pruning it is characterised exactly when fit returns, for OneSlackSSVM (without inference cache) fit returns if there is something to learn; NSlackSSVM with pruning can only raise UnboundLocalError or ValueError (all constraints pruned)"
  },
  {
   "property": "C81",
   "status": "proved",
   "theorems": [
    "Verif.Props.C81_fit"
   ],
   "note": "for models without rescale_C, with exact loss-augmented inference and completion"
  },
  {
   "property": "C82",
   "status": "partial",
   "theorems": [
    "Verif.Props.C82_objective_partial",
    "Verif.Props.C82_violated_graph"
   ],
   "note": "holds if the loss of a label is the loss of its completions; refuted for LatentGraphCRF"
  },
  {
   "property": "C83",
   "status": "partial",
   "theorems": [
    "Verif.Props.C120_subgradient_latent",
    "Verif.Props.C83_violated_jobs",
    "Verif.Props.C81_fit"
   ],
   "note": "exact characterisation: 1 and -1 work (C120_subgradient_latent, C81_fit describes these runs); every other number raises AttributeError"
  },
  {
   "property": "C84",
   "status": "proved",
   "theorems": [
    "Verif.Props.C84_messages",
    "Verif.Props.C84_sparse_optimal",
    "Verif.Props.C84_loopy",
    "Verif.Props.C84_forest_sparse",
    "Verif.Props.C84_triangle_sparse"
   ],
   "note": "exact arithmetic; the margin and delta are those of the messages at return"
  },
  {
   "property": "C85",
   "status": "proved",
   "theorems": [
    "Verif.Props.C85_fit"
   ],
   "note": "exact arithmetic, fresh learner, exact loss-augmented inference; both step rules"
  },
  {
   "property": "C86",
   "status": "proved",
   "theorems": [
    "Verif.Props.C86_pass",
    "Verif.Props.C86_fit"
   ],
   "note": "exact arithmetic, fresh learner, line search without averaging, every pass a permutation of the samples"
  },
  {
   "property": "C87",
   "status": "proved",
   "theorems": [
    "Verif.Props.C87_iterations",
    "Verif.Props.C87_converges"
   ],
   "note": "exact arithmetic; fresh uninterrupted fit; the QP solver succeeds in the first attempt"
  },
  {
   "property": "C88",
   "status": "proved",
   "theorems": [
    "Verif.Props.C88_prediction",
    "Verif.Props.C88_oneslack",
    "Verif.Props.C88_oneslack_returns",
    "Verif.Props.C88_frankwolfe",
    "Verif.Props.C88_perceptron"
   ],
   "note": "exact arithmetic; for one-slack: fresh uninterrupted fit, exact QP solver, inactive_window=0; returning is proved for two or more states and positive class weights"
  },
  {
   "property": "C89",
   "status": "partial",
   "theorems": [
    "Verif.Props.C89_edge_feature",
    "Verif.Props.C89_edge_feature_joint",
    "Verif.Props.C89_edge_feature_construct",
    "Verif.Props.C89_latent_graph",
    "Verif.Props.C89_latent_graph_twice",
    "Verif.Props.C89_violated_latent_directional",
    "Verif.Props.C89_latent_node",
    "Verif.Props.C89_violated_edge_latent_features",
    "Verif.Props.C89_violated_edge_latent_indices",
    "Verif.Props.C89_binary",
    "Verif.Props.C89_multiclass",
    "Verif.Props.C89_directional_construct",
    "Verif.Props.C89_directional",
    "Verif.Props.C89_latent_grid_construct",
    "Verif.Props.C89_latent_grid_unknown"
   ],
   "note": "consistency is proved for every class; the documented meaning of constructor arguments fails for LatentDirectionalGridCRF (neighborhood) and EdgeFeatureLatentNodeCRF (n_features, symmetric indices)"
  },
  {
   "property": "C90",
   "status": "partial",
   "theorems": [
    "Verif.Props.C90_weights_partial",
    "Verif.Props.C90_hyperplane_partial",
    "Verif.Props.C90_violated_one_class",
    "Verif.Props.C90_violated_bounded"
   ],
   "note": "exact arithmetic and QP solver; the weights are optimal if the cut-off 1e-5 drops no positive multiplier, the intercept if moreover no support vector is at the bound; otherwise false"
  },
  {
   "property": "C91",
   "status": "proved",
   "theorems": [
    "Verif.Props.C91_relaxed_oneslack",
    "Verif.Props.C91_relaxed_frankwolfe",
    "Verif.Props.C91_exact_oneslack"
   ],
   "note": "exact arithmetic, exact QP and LP solvers (shown to exist), fresh uninterrupted fits"
  },
  {
   "property": "C92",
   "status": "partial",
   "theorems": [
    "Verif.Props.C92_total_partial",
    "Verif.Props.C92_discrete_partial",
    "Verif.Props.C92_comparison",
    "Verif.Props.C92_violated_cached_relaxed",
    "Verif.Props.C92_violated_cached_relaxed_fit"
   ],
   "note": "false for fractional labellings of models with one node type: the iteration raises TypeError in the described situation. What holds: if no comparison of outputs that loss-augmented inference returns for training samples fails - always so for discrete labellings and for models with several node types - fit with a cache of any size returns if and only if it returns without cache."
  },
  {
   "property": "C93",
   "status": "proved",
   "theorems": [
    "Verif.Props.C93_near_optimal",
    "Verif.Props.C93_stops",
    "Verif.Props.C93_converges",
    "Verif.Props.C93_chain",
    "Verif.Props.C93_graph",
    "Verif.Props.C93_given",
    "Verif.Props.C93_resumed"
   ],
   "note": "exact arithmetic; exact QP solver that succeeds in the first attempt (shown to exist), uninterrupted fit, fresh or (C93_given, C93_resumed) on given constraints that hold for the data"
  },
  {
   "property": "C94",
   "status": "partial",
   "theorems": [
    "Verif.Props.C94_labellings_partial",
    "Verif.Props.C94_violated_relaxed",
    "Verif.Props.C94_violated_graph",
    "Verif.Props.C94_violated_training"
   ],
   "note": "proved for label arrays; false for tuples of marginals"
  },
  {
   "property": "C95",
   "status": "proved",
   "theorems": [
    "Verif.Props.C95_easy",
    "Verif.Props.C95_hole",
    "Verif.Props.C95_crosses",
    "Verif.Props.C95_xs",
    "Verif.Props.C95_easy_explicit",
    "Verif.Props.C95_crosses_explicit",
    "Verif.Props.C95_crosses_latent",
    "Verif.Props.C95_simple",
    "Verif.Props.C95_simple_reach"
   ],
   "note": "random numbers are a parameter"
  },
  {
   "property": "C96",
   "status": "partial",
   "theorems": [
    "Verif.Props.C96_easy",
    "Verif.Props.C96_hole",
    "Verif.Props.C96_xs",
    "Verif.Props.C96_easy_explicit",
    "Verif.Props.C96_crosses_latent",
    "Verif.Props.C96_crosses_error",
    "Verif.Props.C96_crosses",
    "Verif.Props.C96_explicit",
    "Verif.Props.C96_violated_crosses_small",
    "Verif.Props.C96_violated_crosses_medium",
    "Verif.Props.C96_violated_explicit_small",
    "Verif.Props.C96_violated_explicit_medium"
   ],
   "note": "false for crosses in small images; proved otherwise"
  },
  {
   "property": "C97",
   "status": "partial",
   "theorems": [
    "Verif.Props.C97_hole",
    "Verif.Props.ringCells_nodup",
    "Verif.Props.C97_crosses",
    "Verif.Props.C97_two_crosses",
    "Verif.Props.C97_bars_same",
    "Verif.Props.C97_bars_partial",
    "Verif.Props.C97_violated_bars"
   ],
   "note": "shapes are proved; generate_bars fails if label 2 is drawn and label 1 is not; the exact condition is proved without noise"
  },
  {
   "property": "C98",
   "status": "proved",
   "theorems": [
    "Verif.Props.C98_blocks",
    "Verif.Props.C98_checker",
    "Verif.Props.C98_big_checker",
    "Verif.Props.C98_blocks_multinomial",
    "Verif.Props.C98_checker_multinomial",
    "Verif.Props.C98_multinomial_error",
    "Verif.Props.C98_big_checker_extended"
   ],
   "note": "the normal random numbers are a parameter"
  },
  {
   "property": "C99",
   "status": "partial",
   "theorems": [
    "Verif.Props.C99_polytope_tight",
    "Verif.Props.C99_support",
    "Verif.Props.C99_lp_forest",
    "Verif.Props.C99_lp_unique_partial",
    "Verif.Props.C99_violated_ties",
    "Verif.Props.C99_cycle_not_tight"
   ],
   "note": "value and single states are exact; the returned labelling is a best one if the best labelling is unique, otherwise false (violation proved); acyclicity is needed (proved)"
  }
 ]
}