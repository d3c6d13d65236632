{"id": "C01", "title": "Chain decoding is exact", "statement": "Running max-product inference on a chain returns, for every sequence length and number of states, a labelling (one state per position, each in range) whose total score (unaries plus transition scores) is at least the score of every other labelling. This includes scores equal to minus infinity (forbidden states or transitions).", "quantifier": "for all lengths n>=1, numbers of states k>=1, all unary/transition tables (finite or -inf), and all competing labellings", "why_tests_cant": "The competing labellings are exponentially many and the score tables are unbounded; tests sample a few random chains.", "anchors": ["pystruct/inference/_viterbi.pyx:viterbi", "pystruct/inference/maxprod.py:inference_max_product"]}
{"id": "C02", "title": "Tree max-product returns an optimal labelling", "statement": "On an acyclic graph, max-product inference returns a labelling whose energy is maximal among all labellings. (The code violates this when the optimum is not unique.)", "quantifier": "for all forests, all potentials, all labellings", "why_tests_cant": "Needs a statement about all trees and all potentials; ties are measure-zero for random test potentials so tests never hit the failure.", "anchors": ["pystruct/inference/maxprod.py:tree_max_product", "pystruct/inference/maxprod.py:inference_max_product"]}
{"id": "C03", "title": "Chain shortcut only taken on the real chain", "statement": "If max-product treats a graph as a chain, the edge list is exactly (0,1),(1,2),...,(n-2,n-1), so that no edge potential is ignored and none is read out of bounds. (Violated for two vertices with no edge or with duplicated edges, and for one vertex with a self-loop.)", "quantifier": "for all vertex counts and edge lists", "why_tests_cant": "The failing shapes come from broadcasting of unequal-length arrays, which no test exercises; soundness is a claim over all edge lists.", "anchors": ["pystruct/inference/maxprod.py:is_chain", "pystruct/inference/_viterbi.pyx:viterbi"]}
{"id": "C04", "title": "Forest test decides acyclicity", "statement": "is_forest(edges, n) answers True exactly when the undirected multigraph given by the edge list has no cycle (self loops and repeated edges count as cycles).", "quantifier": "for all non-empty edge lists over all vertex counts", "why_tests_cant": "Graph families are infinite; DFS bugs show only on special orders of edges and components.", "anchors": ["pystruct/utils/graph_functions.py:is_forest"]}
{"id": "C05", "title": "Max-product on graphs without edges", "statement": "With an empty edge list max-product inference returns the per-vertex best state. (The code violates this: two vertices lead to an out-of-bounds read of the pairwise table, three or more to ValueError.)", "quantifier": "for all vertex counts and unaries", "why_tests_cant": "Requires all sizes; the tests only use the one-vertex case.", "anchors": ["pystruct/inference/maxprod.py:inference_max_product", "pystruct/utils/graph_functions.py:is_forest"]}
{"id": "C06", "title": "Loopy max-product bookkeeping", "statement": "At every moment of iterative max-product, the belief used for decoding equals the unary potential of the vertex plus the sum of all current messages into that vertex, and the returned states are in range.", "quantifier": "for all graphs (with loops, self loops, repeated edges), potentials, damping values and iteration counts", "why_tests_cant": "The accumulated sums are maintained incrementally over an unbounded number of in-place updates.", "anchors": ["pystruct/inference/maxprod.py:iterative_max_product"]}
{"id": "C07", "title": "LP relaxation upper-bounds the best labelling", "statement": "Every labelling is a feasible point of the linear program built for a graph, with objective equal to minus its energy; hence the optimal LP value is a bound on the energy of every labelling.", "quantifier": "for all graphs, potentials and labellings", "why_tests_cant": "Needs all graphs and labellings; index arithmetic of the constraint matrix must be right for all sizes.", "anchors": ["pystruct/inference/linear_programming.py:lp_general_graph"]}
{"id": "C08", "title": "Integral LP solutions are MAP labellings", "statement": "If the LP solver returns an optimal solution with 0/1 entries then rounding it yields a labelling of maximal energy.", "quantifier": "for all graphs, potentials, and all optimal integral solutions", "why_tests_cant": "Quantifies over all LP optima and all competing labellings.", "anchors": ["pystruct/inference/linear_programming.py:lp_general_graph", "pystruct/inference/inference_methods.py:inference_lp"]}
{"id": "C09", "title": "LP constraint system is exactly the local polytope", "statement": "The emitted equality constraints (which deliberately leave out one row per edge) imply all marginalisation constraints, including the dropped ones; the number of emitted rows is n_nodes + n_edges*(2*n_states-1) as asserted.", "quantifier": "for all graphs, numbers of states and real vectors", "why_tests_cant": "Redundancy of a dropped row is an algebraic fact about all real points.", "anchors": ["pystruct/inference/linear_programming.py:lp_general_graph"]}
{"id": "C10", "title": "Unary inference is per-node optimal", "statement": "inference_method='unary' returns in-range states that maximise the sum of unary potentials, whatever the pairwise potentials are, provided their shape is valid; this is an optimal labelling whenever all pairwise potentials are zero (or do not depend on the labels).", "quantifier": "for all unaries and graphs", "why_tests_cant": "All sizes and values.", "anchors": ["pystruct/inference/inference_methods.py:inference_unaries"]}
{"id": "C11", "title": "Exhaustive inference is globally optimal", "statement": "exhaustive_inference / exhaustive_loss_augmented_inference return a labelling with maximal score (plus loss) among all n_states**n_nodes labellings, the lexicographically first such one.", "quantifier": "for all models, inputs, weights", "why_tests_cant": "Exponential search space for every size; tests use it as the oracle itself.", "anchors": ["pystruct/utils/inference.py:exhaustive_inference", "pystruct/utils/inference.py:exhaustive_loss_augmented_inference"]}
{"id": "C12", "title": "Energy computation and pairwise parameter shapes", "statement": "compute_energy adds every unary and every edge potential exactly once; a single S x S matrix means the same matrix on every edge; any other shape than (S,S) or (E,S,S) is rejected with ValueError.", "quantifier": "for all shapes, potentials, labellings", "why_tests_cant": "All shapes and sizes.", "anchors": ["pystruct/inference/common.py:compute_energy", "pystruct/inference/common.py:_validate_params"]}
{"id": "C13", "title": "GraphCRF: score of a labelling equals weights times features", "statement": "For GraphCRF (directed or undirected), the energy of any labelling under the potentials that inference uses equals the inner product of w with joint_feature(x, y). Learning and prediction therefore optimise the same function.", "quantifier": "for all graphs, features, weights, labellings", "why_tests_cant": "An identity over all real weights and all graphs.", "anchors": ["pystruct/models/graph_crf.py:GraphCRF.joint_feature", "pystruct/models/graph_crf.py:GraphCRF._get_unary_potentials", "pystruct/models/graph_crf.py:GraphCRF._get_pairwise_potentials"]}
{"id": "C14", "title": "ChainCRF end to end exactness", "statement": "ChainCRF with max-product inference returns y maximising <w, joint_feature(x,y)>, and its loss-augmented inference returns y_hat maximising <w, joint_feature(x,y_hat)> + loss(y,y_hat).", "quantifier": "for all chain lengths, features, weights, true labels, class weights", "why_tests_cant": "All inputs and exponentially many competitors.", "anchors": ["pystruct/models/chain_crf.py:ChainCRF", "pystruct/models/crf.py:CRF.loss_augmented_inference", "pystruct/inference/maxprod.py:inference_max_product"]}
{"id": "C15", "title": "EdgeFeatureGraphCRF: score equals weights times features", "statement": "The energy of a labelling under the potentials used by inference equals <w, joint_feature(x,y)>. (Violated for arbitrary w when symmetric or antisymmetric edge features are declared.)", "quantifier": "for all graphs, edge features, weights, labellings", "why_tests_cant": "Identity over all real weights; the violation appears only for weight vectors outside the span of joint features.", "anchors": ["pystruct/models/edge_feature_graph_crf.py:EdgeFeatureGraphCRF.joint_feature", "pystruct/models/edge_feature_graph_crf.py:EdgeFeatureGraphCRF._get_pairwise_potentials"]}
{"id": "C16", "title": "Symmetry of learned edge weights", "statement": "Every joint feature produced with symmetric (antisymmetric) edge features has symmetric (antisymmetric) blocks, so every weight vector obtained as a linear combination of joint features does too, and for such weight vectors energy equals <w, joint_feature>.", "quantifier": "for all training histories expressed as linear combinations of joint features", "why_tests_cant": "Histories are unbounded.", "anchors": ["pystruct/models/edge_feature_graph_crf.py:EdgeFeatureGraphCRF.joint_feature"]}
{"id": "C17", "title": "MultiLabelClf: score equals weights times features", "statement": "For MultiLabelClf the energy of a binary labelling under the generated potentials equals <w, joint_feature(x,y)>.", "quantifier": "for all edge sets, features, weights, label vectors", "why_tests_cant": "Identity over all real weights.", "anchors": ["pystruct/models/multilabel_svm.py:MultiLabelClf"]}
{"id": "C18", "title": "MultiClassClf inference is exact", "statement": "inference returns a class maximising <w, joint_feature(x,y)>; loss_augmented_inference returns a class maximising <w, joint_feature(x,y_hat[,y])> + loss(y,y_hat), with and without class weights and rescale_C.", "quantifier": "for all features, weights, class weights > 0, classes", "why_tests_cant": "All real inputs.", "anchors": ["pystruct/models/unstructured_svm.py:MultiClassClf"]}
{"id": "C19", "title": "BinaryClf inference is exact and total", "statement": "inference returns a label in {-1,+1} maximising <w, joint_feature(x,y)>; loss_augmented_inference returns a label in {-1,+1} maximising score plus loss. (Violated: when <w,x> equals the true label loss-augmented inference returns 0, for which joint_feature raises.)", "quantifier": "for all feature vectors, weights, labels", "why_tests_cant": "The failing set is a hyperplane, which random tests miss with probability one.", "anchors": ["pystruct/models/unstructured_svm.py:BinaryClf"]}
{"id": "C20", "title": "LatentNodeCRF: score equals weights times features", "statement": "For LatentNodeCRF the energy of every labelling that gives visible nodes visible states and hidden nodes hidden states equals <w, joint_feature(x,h)>.", "quantifier": "for all graphs, hidden node counts, weights, legal labellings", "why_tests_cant": "Identity over all weights and graphs.", "anchors": ["pystruct/models/latent_node_crf.py:LatentNodeCRF"]}
{"id": "C21", "title": "NodeTypeEdgeFeatureGraphCRF: score equals weights times features", "statement": "For graphs with several node types the total energy computed from the per-type potentials equals <w, joint_feature(x,y)>.", "quantifier": "for all numbers of types, graphs, features, weights, labellings", "why_tests_cant": "Block index arithmetic must be right for every number of types and states.", "anchors": ["pystruct/models/node_type_edge_feature_graph_crf.py:NodeTypeEdgeFeatureGraphCRF"]}
{"id": "C22", "title": "joint_feature has the advertised size", "statement": "Whenever joint_feature(x,y) succeeds its length equals size_joint_feature, and inference accepts exactly weight vectors of that length. (Violated for DirectionalGridCRF with neighborhood=8.)", "quantifier": "for all models, inputs and labellings", "why_tests_cant": "All sizes and configurations.", "anchors": ["pystruct/models/graph_crf.py:GraphCRF._set_size_joint_feature", "pystruct/models/edge_feature_graph_crf.py:EdgeFeatureGraphCRF._set_size_joint_feature", "pystruct/models/grid_crf.py:DirectionalGridCRF"]}
{"id": "C23", "title": "Relaxed and discrete joint features agree", "statement": "joint_feature of a relaxed labelling (marginals) is linear in the marginals and coincides with joint_feature of the discrete labelling on its one-hot encoding.", "quantifier": "for all graphs and marginals", "why_tests_cant": "Linearity is over all reals.", "anchors": ["pystruct/models/graph_crf.py:GraphCRF.joint_feature", "pystruct/models/edge_feature_graph_crf.py:EdgeFeatureGraphCRF.joint_feature"]}
{"id": "C24", "title": "Loss augmentation adds exactly the loss", "statement": "The energy of any labelling y_hat under loss-augmented unary potentials equals its energy under the original ones plus loss(y, y_hat), with class weights.", "quantifier": "for all potentials, class weights, true and candidate labellings", "why_tests_cant": "All sizes and reals.", "anchors": ["src/utils.pyx:loss_augment_unaries", "pystruct/models/crf.py:CRF.loss_augment_unaries", "pystruct/models/base.py:StructuredModel.loss"]}
{"id": "C25", "title": "Batch operations equal per-sample operations", "statement": "batch_joint_feature is the sum of the joint features, and batch_inference / batch_loss_augmented_inference / batch_loss equal the per-sample results in order, for the generic model and for the vectorised MultiClassClf and BinaryClf versions; predict gives the same result for every n_jobs.", "quantifier": "for all batches", "why_tests_cant": "All batch lengths and data; masks and repeats are index-sensitive.", "anchors": ["pystruct/models/base.py:StructuredModel", "pystruct/models/unstructured_svm.py:MultiClassClf", "pystruct/models/unstructured_svm.py:BinaryClf", "pystruct/learners/ssvm.py:BaseSSVM.predict"]}
{"id": "C26", "title": "Loss is a weighted Hamming loss", "statement": "loss(y,y_hat) is >= 0, is 0 exactly when the labellings agree (positive class weights), is at most max_loss(y), and without class weights is symmetric and satisfies the triangle inequality.", "quantifier": "for all labellings and class weights", "why_tests_cant": "All lengths and weights.", "anchors": ["pystruct/models/base.py:StructuredModel.loss", "pystruct/models/base.py:StructuredModel.max_loss"]}
{"id": "C27", "title": "Continuous loss extends the discrete loss", "statement": "continuous_loss(y, one-hot(y_hat)) equals loss(y, y_hat), and continuous_loss is affine in the marginals; for normalised nonnegative marginals it lies in [0, max_loss].", "quantifier": "for all labellings and marginals", "why_tests_cant": "All reals.", "anchors": ["pystruct/models/base.py:StructuredModel.continuous_loss", "pystruct/models/typed_crf.py:TypedCRF.continuous_loss"]}
{"id": "C28", "title": "score is an accuracy", "statement": "score(X,Y) lies in [0,1] and equals 1 exactly when every prediction is correct.", "quantifier": "for all data sets and predictions with positive total max_loss", "why_tests_cant": "All data sets.", "anchors": ["pystruct/learners/ssvm.py:BaseSSVM.score"]}
{"id": "C29", "title": "Slack upper-bounds the loss", "statement": "With exact loss-augmented inference, the slack returned by find_constraint equals the maximum over all labellings of loss + <w, joint_feature(x,y_hat)> - <w, joint_feature(x,y)>, is nonnegative, and is at least the loss of the prediction made by exact inference.", "quantifier": "for all weights, inputs, labels", "why_tests_cant": "All labellings.", "anchors": ["pystruct/utils/inference.py:find_constraint"]}
{"id": "C30", "title": "Primal objective", "statement": "objective_primal is at least C times the training loss, is bounded below by 0, is convex in w under exact inference, and its one-slack and n-slack variants agree.", "quantifier": "for all data sets and weights", "why_tests_cant": "Convexity quantifies over all pairs of weights.", "anchors": ["pystruct/utils/inference.py:objective_primal"]}
{"id": "C31", "title": "Grid edges are exactly the grid neighbours", "statement": "make_grid_edges lists each pair of horizontally/vertically (and, for 8-neighbourhood, diagonally) adjacent cells exactly once, only in-range cells, and nothing else.", "quantifier": "for all grid heights and widths", "why_tests_cant": "All grid sizes including degenerate 1 x n.", "anchors": ["pystruct/utils/graph.py:make_grid_edges"]}
{"id": "C32", "title": "Packing of symmetric pairwise weights", "statement": "expand_sym and compress_sym are mutually inverse between packed vectors and symmetric matrices; expand_sym always yields a symmetric matrix; and <v, compress_sym(M)> equals <expand_sym(v), M> for every square M.", "quantifier": "for all sizes and entries", "why_tests_cant": "All sizes; triangular index arithmetic.", "anchors": ["pystruct/utils/inference.py:expand_sym", "pystruct/utils/inference.py:compress_sym"]}
{"id": "C33", "title": "Latent state map partitions the states", "statement": "For LatentGraphCRF every latent state belongs to exactly one label, label l owns exactly n_states_per_label[l] consecutive states, and the total is n_states.", "quantifier": "for all lists of state counts", "why_tests_cant": "All lists.", "anchors": ["pystruct/models/latent_graph_crf.py:LatentGraphCRF._set_size_joint_feature", "pystruct/models/latent_graph_crf.py:LatentGraphCRF.label_from_latent"]}
{"id": "C34", "title": "Latent completion respects the given labels", "statement": "LatentGraphCRF.latent(x,y,w) always returns latent states that map back to y, whatever the (approximate) inference returns; EdgeFeatureLatentNodeCRF.latent always agrees with y on visible nodes, and LatentNodeCRF.latent does so or raises.", "quantifier": "for all inputs, weights and all behaviours of the inference backend", "why_tests_cant": "Quantifies over arbitrary behaviour of an external solver.", "anchors": ["pystruct/models/latent_graph_crf.py:LatentGraphCRF.latent", "pystruct/models/latent_node_crf.py:LatentNodeCRF.latent", "pystruct/models/latent_node_crf.py:EdgeFeatureLatentNodeCRF.latent"]}
{"id": "C35", "title": "k-means initialisation is consistent with labels", "statement": "init_latent / kmeans_init returns latent states that map back to the given labels for every sample.", "quantifier": "for all data sets, state counts and all clusterings returned by k-means", "why_tests_cant": "Quantifies over arbitrary clusterings.", "anchors": ["pystruct/models/latent_graph_crf.py:kmeans_init"]}
{"id": "C36", "title": "flattenY and unflattenY are inverse", "statement": "For typed CRFs unflattenY(X, flattenY(lY)) gives back the per-type labels, and flattenY(unflattenY(X, y)) gives back y; labels of different types never collide after flattening; sizes that do not fit are rejected.", "quantifier": "for all numbers of types, node counts, labels", "why_tests_cant": "All sizes.", "anchors": ["pystruct/models/typed_crf.py:TypedCRF.flattenY", "pystruct/models/typed_crf.py:TypedCRF.unflattenY"]}
{"id": "C37", "title": "Typed label validation", "statement": "The label check of a typed CRF accepts a flat labelling exactly when every node's label lies in the range of its type. initialize(X,Y) performs that check on every sample. (The latter is violated under Python 3 for lists: the lazily evaluated map is never consumed.)", "quantifier": "for all label vectors and node layouts", "why_tests_cant": "All layouts.", "anchors": ["pystruct/models/typed_crf.py:TypedCRF._check_size_xy", "pystruct/models/typed_crf.py:TypedCRF.initialize"]}
{"id": "C38", "title": "Typed decoding yields labels in the type's range", "statement": "Decoding multi-type marginals (ad3) assigns to every node a label in the range of its own type, whatever marginals the solver returns, and the argmax state of that node.", "quantifier": "for all layouts and all solver outputs", "why_tests_cant": "Arbitrary solver output.", "anchors": ["pystruct/inference/inference_methods.py:inference_ad3"]}
{"id": "C39", "title": "One-slack objective is a lower bound", "statement": "Every value in objective_curve_ of OneSlackSSVM (a dual value of the working set problem) is at most the regularised structured hinge objective of every weight vector.", "quantifier": "for all data, all working sets built from arbitrary outputs, all feasible dual points, all weights", "why_tests_cant": "Quantifies over all weight vectors and working-set histories.", "anchors": ["pystruct/learners/one_slack_ssvm.py:OneSlackSSVM._solve_1_slack_qp", "pystruct/learners/one_slack_ssvm.py:OneSlackSSVM.fit"]}
{"id": "C40", "title": "One-slack stopping rule certifies near-optimality", "statement": "If training stops because the new constraint is not violated by more than tol, and QP and loss-augmented inference are exact, then the primal objective of the learned w exceeds the minimum by at most C*n*tol.", "quantifier": "for all data, tolerances and working sets", "why_tests_cant": "Compares with all weight vectors.", "anchors": ["pystruct/learners/one_slack_ssvm.py:OneSlackSSVM._check_bad_constraint", "pystruct/learners/one_slack_ssvm.py:OneSlackSSVM.fit"]}
{"id": "C41", "title": "Inference cache stays bounded and valid", "statement": "Per sample the cache never holds more than inference_cache results, never two equal ones (until eviction), and every constraint built from it consists of outputs previously returned by loss-augmented inference on that sample. (Bound violated: it reaches inference_cache+1.)", "quantifier": "for all sequences of cache updates", "why_tests_cant": "Unbounded histories.", "anchors": ["pystruct/learners/one_slack_ssvm.py:OneSlackSSVM._update_cache", "pystruct/learners/one_slack_ssvm.py:OneSlackSSVM._constraint_from_cache"]}
{"id": "C42", "title": "Working set and dual history stay aligned", "statement": "In OneSlackSSVM the list of dual histories always matches the list of constraints one to one, pruning removes corresponding entries and never empties the working set, and training can be continued with warm_start after any interruption. (Violated: an interruption between adding a constraint and solving the QP makes the next warm start fail with UnboundLocalError or AssertionError.)", "quantifier": "for all iteration histories and interruption points", "why_tests_cant": "Crash points and unbounded histories.", "anchors": ["pystruct/learners/one_slack_ssvm.py:OneSlackSSVM.prune_constraints", "pystruct/learners/one_slack_ssvm.py:OneSlackSSVM.fit"]}
{"id": "C43", "title": "n-slack working set has no duplicates and training terminates", "statement": "In NSlackSSVM no sample ever holds the same output twice in its working set, each held output was violated when added, the bookkeeping of inactivity matches the constraints, and without pruning only finitely many iterations can add constraints.", "quantifier": "for all training histories", "why_tests_cant": "Unbounded histories; termination.", "anchors": ["pystruct/learners/n_slack_ssvm.py:NSlackSSVM.fit", "pystruct/learners/n_slack_ssvm.py:NSlackSSVM.prune_constraints", "pystruct/learners/n_slack_ssvm.py:NSlackSSVM._check_bad_constraint"]}
{"id": "C44", "title": "n-slack objective bound and stopping rule", "statement": "The n-slack working-set objective is a lower bound on the primal objective of every weight vector, and when training stops because no sample offers a constraint violated by at least 1e-5 the learned w is within C*n*1e-5 of optimal. (Violated for outputs without loss, which are ignored; stopping because of the default tol, documented to have no influence, gives no such guarantee.)", "quantifier": "for all data and working sets", "why_tests_cant": "Compares with all weight vectors.", "anchors": ["pystruct/learners/n_slack_ssvm.py:NSlackSSVM._solve_n_slack_qp", "pystruct/learners/n_slack_ssvm.py:NSlackSSVM._check_bad_constraint"]}
{"id": "C45", "title": "Frank-Wolfe weights stay the sum of per-sample contributions", "statement": "Throughout block-coordinate Frank-Wolfe training from a fresh learner the weight vector equals the sum of the per-sample weight blocks and the loss term equals the sum of the per-sample loss terms, and each block is a convex combination of that sample's (scaled) feature differences.", "quantifier": "for all sample orders, step sizes, numbers of epochs", "why_tests_cant": "Unbounded histories and random orders.", "anchors": ["pystruct/learners/frankwolfe_ssvm.py:FrankWolfeSSVM._frank_wolfe_bc"]}
{"id": "C46", "title": "Frank-Wolfe line search never decreases the dual", "statement": "With line search every batch step and every block-coordinate step leaves the dual objective at least as large as before.", "quantifier": "for all states satisfying the invariant, samples and oracle outputs", "why_tests_cant": "All real states.", "anchors": ["pystruct/learners/frankwolfe_ssvm.py:FrankWolfeSSVM._frank_wolfe_batch", "pystruct/learners/frankwolfe_ssvm.py:FrankWolfeSSVM._frank_wolfe_bc"]}
{"id": "C47", "title": "Frank-Wolfe duality gap is a certificate", "statement": "With exact loss-augmented inference the reported primal value equals the true primal objective at w, the reported gap is nonnegative, and the primal objective at w exceeds the minimum by at most the gap. (After a second fit on the same learner the certificate is invalid because w is not reset while the blocks are.)", "quantifier": "for all training histories from a fresh learner", "why_tests_cant": "Compares with all weights.", "anchors": ["pystruct/learners/frankwolfe_ssvm.py:FrankWolfeSSVM._calc_dual_gap", "pystruct/learners/frankwolfe_ssvm.py:FrankWolfeSSVM.fit"]}
{"id": "C48", "title": "Subgradient steps follow a true subgradient", "statement": "With exact loss-augmented inference the direction used by SubgradientSSVM is the negative of a subgradient of the per-sample regularised hinge objective.", "quantifier": "for all samples, weights and comparison weights", "why_tests_cant": "Inequality over all weights.", "anchors": ["pystruct/learners/subgradient_ssvm.py:SubgradientSSVM._solve_subgradient"]}
{"id": "C49", "title": "Documented weight averaging", "statement": "averaging='linear' makes the learned w the weighted mean of the iterates w_1..w_t with weights 1..t, and 'squared' with weights 1,4,..,t**2; FrankWolfeSSVM averaging is the linear weighted mean.", "quantifier": "for all iterate sequences and lengths", "why_tests_cant": "Arbitrary many steps.", "anchors": ["pystruct/learners/subgradient_ssvm.py:SubgradientSSVM._solve_subgradient", "pystruct/learners/frankwolfe_ssvm.py:FrankWolfeSSVM"]}
{"id": "C50", "title": "Every sample is visited exactly once per pass", "statement": "The mini-batches used by SubgradientSSVM and NSlackSSVM cover all samples exactly once in order, with at most the requested size.", "quantifier": "for all sample counts, batch sizes and job counts", "why_tests_cant": "All sizes.", "anchors": ["pystruct/learners/subgradient_ssvm.py:SubgradientSSVM._sequential_learning", "pystruct/learners/n_slack_ssvm.py:NSlackSSVM.fit"]}
{"id": "C51", "title": "Refitting forgets the past", "statement": "Calling fit a second time without warm_start gives the same result as fitting a fresh learner. (Holds for the perceptron, OneSlackSSVM and NSlackSSVM; violated for SubgradientSSVM and FrankWolfeSSVM which start from the previous weights and step counter.)", "quantifier": "for all earlier fits and data", "why_tests_cant": "Arbitrary histories of previous calls.", "anchors": ["pystruct/learners/subgradient_ssvm.py:SubgradientSSVM.fit", "pystruct/learners/frankwolfe_ssvm.py:FrankWolfeSSVM.fit", "pystruct/learners/structured_perceptron.py:StructuredPerceptron.fit"]}
{"id": "C52", "title": "Perceptron mistake bound", "statement": "If some weight vector separates the training data with margin, the online structured perceptron (no decay) makes at most (R/margin)**2 mistakes in total, for every number of epochs; so for large enough max_iter it stops with zero training loss.", "quantifier": "for all separable data sets and numbers of epochs", "why_tests_cant": "A bound over all data sets.", "anchors": ["pystruct/learners/structured_perceptron.py:StructuredPerceptron.fit"]}
{"id": "C53", "title": "Perceptron averaging", "statement": "With averaging enabled the learned weight vector is the arithmetic mean of the weight vectors observed after each update (from epoch k on). (Violated when training stops before epoch k: the zero vector is returned.)", "quantifier": "for all iterate sequences", "why_tests_cant": "Arbitrary histories.", "anchors": ["pystruct/learners/structured_perceptron.py:StructuredPerceptron.fit"]}
{"id": "C54", "title": "Perceptron early stop means perfect training predictions", "statement": "If the perceptron without averaging stops early, the learned weights predict every training sample correctly, and they did not change during the last pass.", "quantifier": "for all data and runs", "why_tests_cant": "All runs.", "anchors": ["pystruct/learners/structured_perceptron.py:StructuredPerceptron.fit"]}
{"id": "C55", "title": "Checkpoint schedule", "statement": "SaveLogger writes a checkpoint exactly at iterations divisible by save_every and at the end; a '%d' in the file name gives every iteration its own file and the final one can be saved too. (Violated: formatting 'final' with %d raises TypeError.)", "quantifier": "for all iteration sequences and periods", "why_tests_cant": "All runs.", "anchors": ["pystruct/utils/logging.py:SaveLogger.__call__"]}
{"id": "C56", "title": "Checkpointing is transparent and loadable", "statement": "Saving leaves the learner in memory unchanged (its inference cache included) even if writing fails, the stored learner equals the original except for the dropped cache, and load returns the last saved one. (Violated when writing raises: the cache is lost; and a failed write destroys the previous checkpoint of that name.)", "quantifier": "for all learners, file systems and failure points", "why_tests_cant": "Crash points.", "anchors": ["pystruct/utils/logging.py:SaveLogger.save", "pystruct/utils/logging.py:SaveLogger.load"]}
{"id": "C57", "title": "Latent SVM objective descends", "statement": "Each outer iteration of LatentSSVM (exact latent completion followed by exact retraining) does not increase the latent objective, and stopping because the completions did not change is a fixed point.", "quantifier": "for all data, initial completions and numbers of iterations", "why_tests_cant": "All histories.", "anchors": ["pystruct/learners/latent_structured_svm.py:LatentSSVM.fit"]}
{"id": "C58", "title": "Latent learner scores compare labels with labels", "statement": "The score of a latent learner equals 1 when all predicted labels are correct. (Violated by SubgradientLatentSSVM with LatentGraphCRF: true labels are passed through the state-to-label map.)", "quantifier": "for all data and predictions", "why_tests_cant": "Needs label/state maps that are not the identity on labels.", "anchors": ["pystruct/learners/subgradient_latent_ssvm.py:SubgradientLatentSSVM.score", "pystruct/models/latent_graph_crf.py:LatentGraphCRF.loss"]}
{"id": "C59", "title": "Downhill simplex optimises the same objective", "statement": "The function minimised by PrimalDSStructuredSVM is proportional to the primal objective used by the other learners for the same C. (Violated: C is not scaled by the number of samples; it corresponds to C/n.)", "quantifier": "for all data and weights", "why_tests_cant": "Identity over all weights.", "anchors": ["pystruct/learners/downhill_simplex_ssvm.py:PrimalDSStructuredSVM.fit", "pystruct/utils/inference.py:objective_primal"]}
{"id": "C60", "title": "Inference dispatch contract", "statement": "inference_dispatch routes each documented method name to its implementation with per-method options overriding shared ones, rejects unknown names with ValueError, and return_energy=True yields a (labelling, energy) pair for every method. (Last part violated for qpbo, unary and max-product.)", "quantifier": "for all method names, option sets and flags", "why_tests_cant": "All combinations.", "anchors": ["pystruct/inference/inference_methods.py:inference_dispatch"]}
{"id": "C61", "title": "Negativity-constrained weights are nonpositive", "statement": "With negativity_constraint the weights listed there are <= 0 after every QP that the solver solves feasibly, for one-slack and n-slack learners.", "quantifier": "for all data and feasible dual points", "why_tests_cant": "All reals.", "anchors": ["pystruct/learners/one_slack_ssvm.py:OneSlackSSVM._solve_1_slack_qp", "pystruct/learners/n_slack_ssvm.py:NSlackSSVM._solve_n_slack_qp"]}
{"id": "C62", "title": "Model size inference from data", "statement": "CRF.initialize infers n_features and n_states such that all training labels are valid states, and rejects data inconsistent with explicitly given sizes. (Violated for labels that are not 0..k-1.)", "quantifier": "for all training sets", "why_tests_cant": "All label sets.", "anchors": ["pystruct/models/crf.py:CRF.initialize"]}
{"id": "C63", "title": "Class weights", "statement": "When no class_weight is given all states weigh 1; a given class weight of wrong length is rejected; calling the setup twice does not change the loss. For MultiLabelClf the weights must cover both binary states. (Violated for a single label.)", "quantifier": "for all sizes", "why_tests_cant": "All sizes.", "anchors": ["pystruct/models/base.py:StructuredModel._set_class_weight", "pystruct/models/multilabel_svm.py:MultiLabelClf"]}
{"id": "C64", "title": "Latent-node decoding respects the kind of a node", "statement": "Exact inference in LatentNodeCRF never assigns a hidden state to a visible node or a visible label to a hidden node. (Violated for strong couplings: the penalty is finite.)", "quantifier": "for all graphs, weights and optimal labellings", "why_tests_cant": "Tests use small weights, the failure needs couplings larger than the penalty.", "anchors": ["pystruct/models/latent_node_crf.py:LatentNodeCRF._get_unary_potentials"]}
{"id": "C65", "title": "Frank-Wolfe checks can be switched off", "statement": "FrankWolfeSSVM.fit succeeds for every check_dual_every for which training itself succeeds; 0 means that the duality gap is not computed during training. (Violated: 0 makes block-coordinate training fail with UnboundLocalError after the first pass, and objective_curve_ has no last entry.)", "quantifier": "for all data, models and sample orders", "why_tests_cant": "The failure is independent of the data, but tests use the default.", "anchors": ["pystruct/learners/frankwolfe_ssvm.py:FrankWolfeSSVM._frank_wolfe_bc"]}
{"id": "C66", "title": "Stopping without violated constraints", "statement": "SubgradientSSVM with break_on_no_constraints stops training after a pass exactly if no sample of the pass had positive slack when it was visited. (Holds online; violated for mini-batches, where the pass never counts as free of violations.)", "quantifier": "for all models, samples, configurations", "why_tests_cant": "All passes and states.", "anchors": ["pystruct/learners/subgradient_ssvm.py:SubgradientSSVM._sequential_learning"]}
{"id": "C67", "title": "Cutting-plane training returns a result", "statement": "OneSlackSSVM.fit and NSlackSSVM.fit return the fitted learner for every non-empty training set on which inference and the QP solver succeed, in particular if the training set is already fitted perfectly or if training is continued after convergence. (Violated: UnboundLocalError whenever no QP is solved.)", "quantifier": "for all data, models and earlier fits", "why_tests_cant": "Needs training sets without a violated constraint and repeated warm starts.", "anchors": ["pystruct/learners/one_slack_ssvm.py:OneSlackSSVM.fit", "pystruct/learners/n_slack_ssvm.py:NSlackSSVM.fit"]}
{"id": "C68", "title": "cache_tol has its documented effect", "statement": "A constraint from the cache is used by OneSlackSSVM only while the duality gap is at least cache_tol, or tol if cache_tol is None. (Violated: numbers and None have no effect at all.)", "quantifier": "for all data, models, values of cache_tol and earlier fits", "why_tests_cant": "Independence of a parameter for all data.", "anchors": ["pystruct/learners/one_slack_ssvm.py:OneSlackSSVM._constraint_from_cache"]}
{"id": "C69", "title": "Sign-constrained training is optimal", "statement": "With negativity_constraint and exact solver and inference, the learned weights minimise the regularised risk among the weights that satisfy the constraint, up to C*n*tol. (Violated: the dual is restricted instead.)", "quantifier": "for all data and constraints", "why_tests_cant": "Compares with all weight vectors.", "anchors": ["pystruct/learners/one_slack_ssvm.py:OneSlackSSVM._solve_1_slack_qp"]}
{"id": "C70", "title": "Given constraints as a warm start", "statement": "NSlackSSVM.fit(X, Y, constraints=...) accepts every list of correct constraints for the samples, on fresh and on fitted learners, and continues training from them. (Violated: AttributeError on fresh learners, IndexError if the number of constraints of a sample differs from the last fit by more than one new constraint.)", "quantifier": "for all learners, data and lists of constraints", "why_tests_cant": "The only test passes the constraints of the previous fit.", "anchors": ["pystruct/learners/n_slack_ssvm.py:NSlackSSVM.fit", "pystruct/learners/n_slack_ssvm.py:NSlackSSVM.prune_constraints"]}
{"id": "C71", "title": "primal_objective_curve_ of NSlackSSVM", "statement": "The entries of primal_objective_curve_ are primal objectives of the weights after each pass. (Violated: slacks before the updates are added to the norm after them.)", "quantifier": "for all data and passes", "why_tests_cant": "Compares recorded values with recomputed objectives.", "anchors": ["pystruct/learners/n_slack_ssvm.py:NSlackSSVM.fit"]}
{"id": "C72", "title": "inactive_window means consecutive inactivity", "statement": "NSlackSSVM removes a constraint only if it was inactive in the last inactive_window QPs. (Violated: the counter is not reset when a constraint becomes active again.)", "quantifier": "for all training histories", "why_tests_cant": "Needs constraints that become inactive, active and inactive again.", "anchors": ["pystruct/learners/n_slack_ssvm.py:NSlackSSVM.prune_constraints"]}
{"id": "C73", "title": "Typed instance check", "statement": "NodeTypeEdgeFeatureGraphCRF's check of an instance accepts exactly the instances that fit the model: one node feature array per type with the right number of features, edges joining existing nodes of the two types, one edge feature row of the right width per edge. (Violated: surplus arrays are dropped by zip before the checks.)", "quantifier": "for all models and instances", "why_tests_cant": "Malformed instances come in unboundedly many shapes.", "anchors": ["pystruct/models/typed_crf.py:TypedCRF._check_size_x", "pystruct/models/node_type_edge_feature_graph_crf.py:NodeTypeEdgeFeatureGraphCRF._check_size_x"]}
{"id": "C74", "title": "Typed loss augmentation", "statement": "For typed CRFs, the potentials used by loss_augmented_inference give every labelling its energy plus loss(y, labelling), and continuous_loss of indicator marginals equals loss.", "quantifier": "for all models, instances, weights and pairs of labellings", "why_tests_cant": "Quantifies over all pairs of labellings and all class weights.", "anchors": ["pystruct/models/typed_crf.py:TypedCRF.loss_augment_unaries", "pystruct/models/typed_crf.py:TypedCRF.continuous_loss", "pystruct/models/typed_crf.py:TypedCRF.loss"]}
{"id": "C75", "title": "setInferenceException", "statement": "After setInferenceException(True), inference raises an exception when the problem could not be solved. (Violated: the flag is stored and never passed to the inference function.)", "quantifier": "for all models, instances, weights and solvers", "why_tests_cant": "Requires a solver that fails.", "anchors": ["pystruct/models/typed_crf.py:TypedCRF.setInferenceException", "pystruct/models/typed_crf.py:TypedCRF.inference"]}
{"id": "C76", "title": "One node type is EdgeFeatureGraphCRF", "statement": "NodeTypeEdgeFeatureGraphCRF with a single node type has the same joint_feature and the same potentials as EdgeFeatureGraphCRF without symmetric features, on every instance.", "quantifier": "for all numbers of states and features, instances, labellings, weights", "why_tests_cant": "Equality on all instances; tests compare a few.", "anchors": ["pystruct/models/node_type_edge_feature_graph_crf.py:NodeTypeEdgeFeatureGraphCRF.joint_feature", "pystruct/models/edge_feature_graph_crf.py:EdgeFeatureGraphCRF.joint_feature"]}
{"id": "C77", "title": "Installed inference methods and the default method", "statement": "get_installed(names) returns, in order, exactly those of the given known method names whose package can be imported, and raises ValueError for an unknown name; the default inference method of the CRF models is 'ad3' if it can be imported, else 'max-product'.", "quantifier": "for all sets of installed packages and all lists of names", "why_tests_cant": "Each set of installed packages needs its own environment.", "anchors": ["pystruct/inference/inference_methods.py:get_installed", "pystruct/models/crf.py:CRF.__init__"]}
{"id": "C78", "title": "Logical constraints are honoured or rejected", "statement": "Non-empty constraints passed to inference are either satisfied by the returned labelling or rejected with an exception. (Violated: lp, qpbo, ogm and unary silently ignore them.)", "quantifier": "for all methods, potentials and constraints", "why_tests_cant": "The absence of an effect for all inputs cannot be observed by examples.", "anchors": ["pystruct/models/crf.py:CRF.inference", "pystruct/inference/inference_methods.py:inference_dispatch"]}
{"id": "C79", "title": "Discretisation error of qpbo", "statement": "With an exact solver behind it, inference_qpbo returns a labelling whose score is within 2(n+E)/1000 of the optimum for n nodes and E edges, and an optimal one if all potentials are multiples of 1/1000. (It is not exact in general: violated for differences below 1/1000.)", "quantifier": "for all graphs, potentials and exact integer solvers", "why_tests_cant": "The bound is over all real potentials and labellings.", "anchors": ["pystruct/inference/inference_methods.py:inference_qpbo"]}
{"id": "C80", "title": "Base learners of LatentSSVM", "statement": "LatentSSVM.fit runs with every structured SVM learner of the library as base_ssvm whenever that learner can be fitted to the completed data. (Violated: FrankWolfeSSVM.fit has no parameter warm_start, so the second outer iteration raises TypeError.)", "quantifier": "for all data, models and base learners", "why_tests_cant": "Needs a run in which a completion changes and a base learner nobody combined with it.", "anchors": ["pystruct/learners/latent_structured_svm.py:LatentSSVM.fit", "pystruct/learners/frankwolfe_ssvm.py:FrankWolfeSSVM.fit"]}
{"id": "C81", "title": "SubgradientLatentSSVM steps along subgradients of the completed risk", "statement": "Every update of SubgradientLatentSSVM.fit is a step along a negative subgradient (with momentum) of the risk of a block of samples whose labels are completed by the weights the update starts from; this risk equals the latent risk at these weights and is at least the latent risk everywhere else. The resulting w is the last iterate without averaging, and for a fresh learner the weighted mean of all iterates with linear or squared averaging.", "quantifier": "for all data, models, parameters and numbers of jobs", "why_tests_cant": "Quantifies over all runs and all other weight vectors.", "anchors": ["pystruct/learners/subgradient_latent_ssvm.py:SubgradientLatentSSVM.fit"]}
{"id": "C82", "title": "Objective of SubgradientLatentSSVM", "statement": "The last entry of objective_curve_ of SubgradientLatentSSVM is the latent objective of the learned weights. (Violated with LatentGraphCRF: find_constraint_latent passes the true label to a loss that expects latent states.)", "quantifier": "for all data, models and weights", "why_tests_cant": "Needs label/state maps that are not the identity on labels.", "anchors": ["pystruct/learners/subgradient_latent_ssvm.py:SubgradientLatentSSVM._objective", "pystruct/utils/inference.py:find_constraint_latent"]}
{"id": "C83", "title": "n_jobs of SubgradientLatentSSVM", "statement": "SubgradientLatentSSVM.fit works for every number of jobs. (Violated: it reads the attribute j_jobs for numbers other than 1 and -1.)", "quantifier": "for all data, models and job numbers", "why_tests_cant": "Tests use one job.", "anchors": ["pystruct/learners/subgradient_latent_ssvm.py:SubgradientLatentSSVM.fit"]}
{"id": "C84", "title": "Converged loopy max-product is locally optimal", "statement": "If iterative_max_product's messages moved by at most delta in the last pass and every node prefers its returned state by more than 2*delta/(1-damping), then no labelling that differs from the returned one only on nodes whose induced subgraph has at most one cycle per connected part scores more than 2*delta/(1-damping) per edge better; in particular, on trees and single cycles the result is optimal once the messages stop moving.", "quantifier": "for all graphs, potentials, damping factors, numbers of iterations and competing labellings", "why_tests_cant": "Quantifies over all labellings of all loopy graphs; tests only run it on a few grids without knowing the optimum.", "anchors": ["pystruct/inference/maxprod.py:iterative_max_product"]}
{"id": "C85", "title": "Batch Frank-Wolfe training converges at rate 1/t", "statement": "With exact loss-augmented inference, FrankWolfeSSVM.fit in batch mode is a run of the Frank-Wolfe algorithm on the dual: entry t of dual_objective_curve_ is within 2B/(t+2) of the best dual value, where B depends on C, the number of samples and the spread of the joint features only, and training stops by tolerance after a number of iterations proportional to B/(n*C*tol).", "quantifier": "for all models, data, parameters, step rules and iterations", "why_tests_cant": "A rate for all data and all iterations cannot be observed.", "anchors": ["pystruct/learners/frankwolfe_ssvm.py:FrankWolfeSSVM._frank_wolfe_batch"]}
{"id": "C86", "title": "Block-coordinate Frank-Wolfe training terminates by tolerance", "statement": "With exact loss-augmented inference, line search and passes that visit every sample once, FrankWolfeSSVM.fit stops because the duality gap is below tol after a number of checks bounded by K*H/tol^2 + 1, with K and H depending on C, the number of samples, the spread of the joint features and the primal objective of any weights; the primal objective of the learned weights is then less than tol above the optimum, provided max_iter is large enough.", "quantifier": "for all models, data, visiting orders and tolerances", "why_tests_cant": "Termination for all data and all orders.", "anchors": ["pystruct/learners/frankwolfe_ssvm.py:FrankWolfeSSVM._frank_wolfe_bc"]}
{"id": "C87", "title": "One-slack cutting-plane training terminates by tolerance", "statement": "With an exact QP solver, no pruning (inactive_window=0) and no negativity constraint, every iteration of an uninterrupted OneSlackSSVM.fit after the first raises the dual objective by at least mu, where 2*mu <= C*n*tol and 2*R*mu <= tol^2 and R bounds the squared distances between joint features of admissible outputs of a sample. Hence the number of iterations is at most B/mu + 1 for the primal objective B of any weights, and with exact loss-augmented inference and max_iter above this bound the learned weights are within C*n*tol of the optimum.", "quantifier": "for all models, data, tolerances, cache settings and inference methods to switch to", "why_tests_cant": "A bound on the number of iterations for all data.", "anchors": ["pystruct/learners/one_slack_ssvm.py:OneSlackSSVM.fit"]}
{"id": "C88", "title": "Training a ChainCRF end to end", "statement": "Take a ChainCRF with max-product inference. predict returns, for every weight vector and feature sequence, a label sequence of maximal score among all label sequences. OneSlackSSVM (with exact QP solver) and FrankWolfeSSVM (block-coordinate, line search) trained with it on any label sequences, with max_iter above an explicit bound in the data, C and tol, return weights whose regularised structured hinge risk, with maxima over all label sequences, is within C*n*tol respectively tol of the minimum over all weights. StructuredPerceptron (online, learning rate 1) trained on separable sequences with max_iter above R*||u||^2/margin^2 predicts every training label correctly.", "quantifier": "for all feature and label sequences, class weights, weight vectors and parameters", "why_tests_cant": "Compares with exponentially many label sequences and all weight vectors.", "anchors": ["pystruct/models/chain_crf.py:ChainCRF", "pystruct/inference/maxprod.py:inference_max_product", "pystruct/learners/one_slack_ssvm.py:OneSlackSSVM.fit", "pystruct/learners/frankwolfe_ssvm.py:FrankWolfeSSVM.fit", "pystruct/learners/structured_perceptron.py:StructuredPerceptron.fit"]}
{"id": "C89", "title": "Sizes of the other model classes after construction and initialisation", "statement": "For EdgeFeatureGraphCRF, LatentGraphCRF, the latent grid models, LatentNodeCRF, EdgeFeatureLatentNodeCRF, BinaryClf and MultiClassClf: initialize(X, Y) either raises, exactly if the data disagree with sizes given to the constructor, or leaves n_states, n_features, class weights and size_joint_feature consistent with each other, with the data and with the length of joint_feature; a second initialize with the same data succeeds and changes nothing. Constructor arguments mean what the documentation says. (Violated: LatentDirectionalGridCRF ignores neighborhood, EdgeFeatureLatentNodeCRF uses n_labels where the documentation says n_states, and accepts out-of-range symmetric feature indices.)", "quantifier": "for all constructor arguments and data", "why_tests_cant": "Tests construct each class with one combination of arguments.", "anchors": ["pystruct/models/edge_feature_graph_crf.py:EdgeFeatureGraphCRF.initialize", "pystruct/models/latent_graph_crf.py:LatentGraphCRF.initialize", "pystruct/models/latent_grid_crf.py:LatentDirectionalGridCRF.__init__", "pystruct/models/latent_node_crf.py:EdgeFeatureLatentNodeCRF.__init__", "pystruct/models/unstructured_svm.py:MultiClassClf.initialize"]}
{"id": "C90", "title": "The binary SVM finds the hyperplane of maximal margin", "statement": "learners.svm.SVM.fit(X, y) with labels -1 and 1 sets w and b to a minimiser of |w|^2/2 + C * sum of hinge losses over all weights and intercepts. (Holds for w; for b it holds if no support vector is at the bound C, then support vectors are on the margin and predict reproduces the training labels. Violated for support vectors at the bound, and for a single class fit raises ZeroDivisionError.)", "quantifier": "for all samples, labels and C, with an exact QP solver", "why_tests_cant": "Compares with all hyperplanes.", "anchors": ["pystruct/learners/svm.py:SVM.fit", "pystruct/learners/svm.py:SVM.predict"]}
{"id": "C91", "title": "Training a GraphCRF on arbitrary graphs end to end", "statement": "Take a GraphCRF with two or more states and positive class weights. With inference method 'lp' (exact LP solver) or 'ad3' (solving the relaxation), OneSlackSSVM without cache (exact QP solver, inactive_window=0) and FrankWolfeSSVM (block-coordinate, line search) trained on any labelled graphs, with max_iter above an explicit bound in the data, C and tol, return. The regularised hinge risk of the learned weights with maxima over relaxed labellings is within C*n*tol respectively tol of the minimum over all weights, and it is an upper bound on their risk with maxima over labellings. If ad3 always finds an optimal labelling, the same holds for the risk over labellings, also with a cache.", "quantifier": "for all graphs, features, labels, class weights and parameters", "why_tests_cant": "Compares with exponentially many labellings, infinitely many relaxed labellings and all weight vectors.", "anchors": ["pystruct/models/graph_crf.py:GraphCRF", "pystruct/inference/inference_methods.py:inference_dispatch", "pystruct/inference/linear_programming.py:lp_general_graph", "pystruct/learners/one_slack_ssvm.py:OneSlackSSVM.fit", "pystruct/learners/frankwolfe_ssvm.py:FrankWolfeSSVM.fit"]}
{"id": "C92", "title": "Caching works with relaxed inference", "statement": "OneSlackSSVM.fit with inference_cache > 0 succeeds whenever it succeeds without cache, also if loss-augmented inference returns fractional labellings. (Violated: comparing two fractional labellings with equal unary marginals raises TypeError.)", "quantifier": "for all data, models and cache sizes", "why_tests_cant": "Needs the same fractional labelling twice for one sample while another sample gets a new one.", "anchors": ["pystruct/learners/one_slack_ssvm.py:OneSlackSSVM.constraint_equal", "pystruct/learners/one_slack_ssvm.py:OneSlackSSVM._update_cache"]}
{"id": "C93", "title": "N-slack cutting-plane training stops near the optimum", "statement": "With an exact QP solver, exact loss-augmented inference, no pruning (inactive_window=0), no negativity constraint and outputs without loss having the joint features of the true output, an uninterrupted NSlackSSVM.fit stops by itself once (max_iter-2)*tol exceeds the primal objective of some weights, for whatever batch size. The learned weights are then within 2*C*n*delta of the optimum for every delta >= 1e-5 with 2*tol <= C*delta and 2*R*tol <= delta^2, where R bounds the squared distances between joint features of admissible outputs of a sample. In particular this holds for ChainCRF with max-product inference and for GraphCRF with exact inference, trained on any labelled sequences or graphs.", "quantifier": "for all models, data, tolerances and batch sizes", "why_tests_cant": "Compares with all weight vectors; termination for all data.", "anchors": ["pystruct/learners/n_slack_ssvm.py:NSlackSSVM.fit", "pystruct/learners/n_slack_ssvm.py:NSlackSSVM._solve_n_slack_qp"]}
{"id": "C94", "title": "N-slack training only discards known constraints", "statement": "NSlackSSVM discards a violated constraint as already active only if a constraint of the same output is in the working set. (Holds for label arrays; violated for fractional outputs: only the unary marginals are compared, and training can stop far from the optimum because of this.)", "quantifier": "for all outputs, working sets and weights", "why_tests_cant": "Needs two fractional outputs that differ in the pairwise marginals only.", "anchors": ["pystruct/learners/n_slack_ssvm.py:NSlackSSVM._check_bad_constraint", "pystruct/utils/inference.py:unwrap_pairwise"]}
{"id": "C95", "title": "Synthetic images: labels and features", "statement": "When generate_easy, generate_square_with_hole, generate_crosses or generate_xs returns (X, Y), there is one feature image and one label image per sample, labels are 0 and 1, and X is the one-hot code of Y with at most `noise` pixels changed (inside the border for crosses and xs). When generate_easy_explicit, generate_crosses_explicit or generate_crosses_latent returns, labels are among {0,1,2,3}, {0,1,2}, {0,2,3}, and X codes which labels are nonzero, with at most `noise` pixels changed: ones in all channels but 0, or a one in channel 0. make_simple_2x2 labels one quadrant of a 4x4 image; X is 1 and -1 accordingly except at n_flips pixels.", "quantifier": "for all sequences of random numbers, sizes, numbers of samples and noise levels", "why_tests_cant": "The generators use fixed seeds, so tests see one sequence of random numbers.", "anchors": ["pystruct/datasets/synthetic_grids.py:generate_easy", "pystruct/datasets/synthetic_grids.py:generate_crosses", "pystruct/datasets/synthetic_grids.py:generate_crosses_latent", "pystruct/datasets/synthetic_grids.py:make_simple_2x2"]}
{"id": "C96", "title": "Synthetic images: the generators return", "statement": "Every generator of images with randomly placed shapes returns if a shape fits into the image, and raises ValueError otherwise. (Violated: generate_crosses with two or more crosses never returns for total_size 5 to 7, and for 8 and 9 not if the first cross is in the middle; generate_crosses_explicit likewise for sizes 3 to 5, and 6 and 7. For larger sizes they return if the random numbers do not avoid a position forever.)", "quantifier": "for all sequences of random numbers and sizes", "why_tests_cant": "Non-termination cannot be observed, and depends on random numbers.", "anchors": ["pystruct/datasets/synthetic_grids.py:generate_crosses", "pystruct/datasets/synthetic_grids.py:generate_crosses_explicit", "pystruct/datasets/synthetic_grids.py:generate_xs", "pystruct/datasets/synthetic_grids.py:generate_easy"]}
{"id": "C97", "title": "Synthetic images: shapes, and bars", "statement": "Every label image of generate_square_with_hole has exactly eight labelled pixels around a hole; every label image of generate_crosses is a union of n_crosses whole crosses of which successive ones are disjoint, so ten pixels are labelled for two crosses; generate_bars returns whenever a bar fits. (The last is violated with separate_labels: IndexError if there are vertical bars but no horizontal ones.)", "quantifier": "for all sequences of random numbers and sizes", "why_tests_cant": "The failure does not occur with the default seed.", "anchors": ["pystruct/datasets/synthetic_grids.py:generate_square_with_hole", "pystruct/datasets/synthetic_grids.py:generate_crosses", "pystruct/datasets/synthetic_grids.py:generate_bars"]}
{"id": "C98", "title": "Synthetic images: fixed patterns", "statement": "generate_blocks, generate_checker, generate_big_checker, generate_blocks_multinomial, generate_checker_multinomial and generate_big_checker_extended return the label patterns their names say, and at every pixel where the noise added to each channel is below 1 (binary) or 1/2 (several labels) the channel of X with the largest value is the label.", "quantifier": "for all sizes and all values of the noise", "why_tests_cant": "All real values of the noise.", "anchors": ["pystruct/datasets/synthetic_grids.py:generate_blocks", "pystruct/datasets/synthetic_grids.py:generate_checker", "pystruct/datasets/synthetic_grids.py:generate_big_checker", "pystruct/datasets/synthetic_grids.py:generate_blocks_multinomial", "pystruct/datasets/synthetic_grids.py:generate_checker_multinomial", "pystruct/datasets/synthetic_grids.py:generate_big_checker_extended"]}
{"id": "C99", "title": "LP inference is exact on forests", "statement": "On an acyclic graph, inference_lp reports (as minus the energy) exactly the score of the best labelling, every single state of the labelling it returns occurs in a best labelling, and the labelling it returns is a best one.", "quantifier": "for all acyclic graphs, potentials and exact LP solvers", "why_tests_cant": "Optimality over exponentially many labellings and all fractional points, for all forests and real potentials.", "anchors": ["pystruct/inference/linear_programming.py:lp_general_graph", "pystruct/inference/inference_methods.py:inference_lp"]}
{"id": "C100", "title": "Training with relaxed inference is exact on forests", "statement": "If all training graphs are acyclic, OneSlackSSVM and FrankWolfeSSVM trained on a GraphCRF with relaxed inference (lp or ad3) minimise, up to the tolerance, the structured risk over all labellings, although fractional outputs compete during training.", "quantifier": "for all acyclic labelled training graphs, features, class weights and solvers meeting their contracts", "why_tests_cant": "All forests, all real features; compares with every other weight vector.", "anchors": ["pystruct/learners/one_slack_ssvm.py:OneSlackSSVM.fit", "pystruct/learners/frankwolfe_ssvm.py:FrankWolfeSSVM.fit", "pystruct/models/graph_crf.py:GraphCRF", "pystruct/inference/linear_programming.py:lp_general_graph"]}
{"id": "C101", "title": "Subgradient training approaches the minimum of the risk", "statement": "SubgradientSSVM with learning_rate='auto', decay_exponent=1, decay_t0>=1, no momentum, exact loss-augmented inference and bounded joint features: after max_iter passes the squared distance of the learned weights to the minimiser of the regularised risk, and the squared difference between the last entry of objective_curve_ and the minimal risk, are at most a constant over max_iter, for every averaging mode, every order of samples and every history of the learner. (Holds for one job without early stopping; violated for n_jobs other than 1, where the minimum of the risk with another C is approached, and for break_on_no_constraints=True, where training can stop far from the minimum.)", "quantifier": "for all data, models, orders of samples and numbers of passes", "why_tests_cant": "Limit behaviour over arbitrarily many passes and all data.", "anchors": ["pystruct/learners/subgradient_ssvm.py:SubgradientSSVM.fit", "pystruct/learners/subgradient_ssvm.py:SubgradientSSVM._solve_subgradient", "pystruct/learners/subgradient_ssvm.py:SubgradientSSVM._parallel_learning"]}
{"id": "C102", "title": "When subgradient training raises", "statement": "On non-empty data and with max_iter at least 1, SubgradientSSVM.fit without warm start succeeds exactly with n_jobs=1 and batch_size None, 1, -1 or positive (the latter two for models without rescale_C only, None and 1 for all), or with another non-zero number of jobs and batch_size None.", "quantifier": "for all models, data and parameters", "why_tests_cant": "All combinations of parameters and data.", "anchors": ["pystruct/learners/subgradient_ssvm.py:SubgradientSSVM.fit"]}
{"id": "C103", "title": "Inference by linear programming is exact for attractive potentials", "statement": "If the pairwise potentials of every edge are attractive (P[a,b] + P[a+1,b+1] >= P[a,b+1] + P[a+1,b] for all states), then inference_lp, with a solver that finds an optimum of its linear program, reports minus the score of a best labelling as energy, on every graph, cyclic or not. With two states the labelling it returns (relaxed=False) is a best labelling, also if there are several. Consequently GraphCRF.inference with two states and lp or ad3 (with a solver that only solves the relaxation) maximises w . joint_feature(x, y) over all labellings whenever the pairwise weights satisfy w_00 + w_11 >= w_01 + w_10.", "quantifier": "for all graphs, numbers of nodes and states, unary potentials, attractive pairwise potentials, feature matrices, weights, and solvers that return an optimum of the relaxation", "why_tests_cant": "Tests compare a few grids against another solver; tightness of a relaxation for a whole class of potentials and all graphs, including ties, is not testable.", "anchors": ["pystruct/inference/inference_methods.py:284-335", "pystruct/inference/inference_methods.py:384-432", "pystruct/inference/linear_programming.py:7-99", "pystruct/models/crf.py:165-183"]}
{"id": "C104", "title": "Integral marginals of relaxed inference are right (persistency)", "statement": "For two states and arbitrary potentials on arbitrary graphs: if inference_lp with relaxed=True (with a solver that finds an optimum) returns marginals that are 0 and 1 at some nodes, then there is a best labelling that has, at all these nodes simultaneously, the states with marginal 1. The same holds for GraphCRF.inference(relaxed=True) through lp or ad3. More generally, for any number of states, giving the integral nodes their state never lowers the score of a labelling whose other states have positive marginals.", "quantifier": "for all graphs, potentials, weights, and optimal solutions of the relaxation", "why_tests_cant": "The claim quantifies over all optimal solutions of all linear programs and compares them with the best of exponentially many labellings.", "anchors": ["pystruct/inference/inference_methods.py:284-335", "pystruct/inference/linear_programming.py:7-99", "pystruct/models/crf.py:165-183"]}
{"id": "C105", "title": "Training a MultiClassClf solves the Crammer-Singer problem", "statement": "The regularised risk a learner minimises for a MultiClassClf is the objective 1/2 |w|^2 + C sum_i h_i of Crammer and Singer, where h_i is the largest violation of the margin of class y_i over another class, the margin being the class weight of y_i; with rescale_C the margin is 1 and h_i is multiplied by the class weight. OneSlackSSVM and NSlackSSVM (inactive_window=0, exact QP solver, enough iterations) and block-coordinate FrankWolfeSSVM with line search return weights whose Crammer-Singer objective exceeds that of any other weights by at most C n tol, 2 C n delta, tol respectively.", "quantifier": "for all training sets, numbers of classes and features, positive class weights, regularisation constants, tolerances, orders of samples, and exact QP solvers", "why_tests_cant": "Existing tests compare accuracies on blobs; near-optimality against all weights for all data needs a proof.", "anchors": ["pystruct/models/unstructured_svm.py:134-310", "pystruct/learners/one_slack_ssvm.py:398-552", "pystruct/learners/n_slack_ssvm.py:240-430", "pystruct/learners/frankwolfe_ssvm.py:197-309"]}
{"id": "C106", "title": "All learners find the same weights", "statement": "For any model with exact loss-augmented inference, two trainings on the same samples with the same C, each by OneSlackSSVM, NSlackSSVM or block-coordinate FrankWolfeSSVM with any options under which the learner promises an accuracy (eps, delta), give weights w, v with |w - v|^2 <= 4 (eps + delta). Hence if under w an output of an instance, whether or not it was used for training, beats another by a margin larger than 2 sqrt((eps + delta) D), D the squared distance of their joint features, it also does under v.", "quantifier": "for all models, training sets, instances, learners, options, orders and solvers satisfying the stated conditions", "why_tests_cant": "A test compares two runs on one data set up to some decimals; the bound relates any two runs of any two learners.", "anchors": ["pystruct/learners/one_slack_ssvm.py:398-552", "pystruct/learners/n_slack_ssvm.py:240-430", "pystruct/learners/frankwolfe_ssvm.py:197-309"]}
{"id": "C107", "title": "Subgradient training converges to the one minimiser of the risk", "statement": "If finitely many outputs compete for every sample, the regularised risk has a minimiser and only one. SubgradientSSVM with learning_rate='auto', decay_exponent=1, decay_t0>=1 and no momentum (the Pegasos schedule), even batches and exact loss-augmented inference succeeds, and for every eps > 0 there is a number of passes from which on the returned weights are within squared distance eps of the minimiser, and their risk, which is the last entry of objective_curve_, within eps of the minimum, whatever the order of the samples. In particular for MultiClassClf (Crammer-Singer objective) and for ChainCRF with max-product inference.", "quantifier": "for all models with finitely many outputs, training sets, orders of samples, eps, and all sufficiently large max_iter", "why_tests_cant": "Convergence is a statement about unboundedly many iterations.", "anchors": ["pystruct/learners/subgradient_ssvm.py:129-312", "pystruct/models/unstructured_svm.py:134-310", "pystruct/models/chain_crf.py:1-78"]}
{"id": "C108", "title": "Training a BinaryClf solves the linear SVM problem", "statement": "The regularised risk of a BinaryClf over the labels -1 and +1 is the objective 1/2 |w|^2 + C sum_i max(0, 1 - y_i w.x_i) of the linear SVM; find_constraint returns max(0, 1 - y w.x) as slack, objective_primal the objective, and OneSlackSSVM training ends with near-optimal weights. (False exactly on the margin: if w.x = y, find_constraint and objective_primal, and with it the end of training, raise ValueError, while the batch functions take 1/2 for the slack, so that OneSlackSSVM moves away from the optimum.)", "quantifier": "for all samples, labels -1 and +1, weights, C; the cases on the margin are characterised", "why_tests_cant": "Random data never lie exactly on the margin in the tests, and one run cannot show the objective is the right one for all weights.", "anchors": ["pystruct/models/unstructured_svm.py:44-130", "pystruct/utils/inference.py:54-127", "pystruct/learners/one_slack_ssvm.py:369-552"]}
{"id": "C109", "title": "The perceptron learns separable data with a BinaryClf", "statement": "If weights u satisfy y u.x >= gamma > 0 for all samples and |x|^2 <= R, then StructuredPerceptron.fit with a BinaryClf (online, no averaging, learning rate 1) and more than R |u|^2 / gamma^2 epochs ends with recorded loss zero, and its weights classify every training sample correctly.", "quantifier": "for all separable data sets with labels -1 and +1, margins, and numbers of epochs above the bound", "why_tests_cant": "The bound covers all separable data; tests train on one data set.", "anchors": ["pystruct/learners/structured_perceptron.py:80-170", "pystruct/models/unstructured_svm.py:44-130"]}
{"id": "C110", "title": "All four learners minimise the regularised risk of any exactly solvable model", "statement": "For a model whose loss-augmented inference is exact over its admissible outputs, with labelled samples, joint features at bounded distance, bounded losses and some output with positive loss: OneSlackSSVM, NSlackSSVM, FrankWolfeSSVM and SubgradientSSVM, given enough iterations for their tolerance, return from fit, and the risk of the learned weights exceeds the minimum by at most C n tol, 2 C n delta, tol, and any eps, respectively.", "quantifier": "for all models behind the learner interface, data sets, constructor parameters within the stated conditions, QP solvers that are exact, and visiting orders", "why_tests_cant": "A test trains one model on one data set and compares scores; it cannot establish a distance to the minimum for all models.", "anchors": ["pystruct/learners/one_slack_ssvm.py:398-552", "pystruct/learners/n_slack_ssvm.py:240-400", "pystruct/learners/frankwolfe_ssvm.py:129-309", "pystruct/learners/subgradient_ssvm.py:129-312"]}
{"id": "C111", "title": "Training an EdgeFeatureGraphCRF minimises its risk", "statement": "For an EdgeFeatureGraphCRF without symmetry declarations and with positive class weights: with LP inference or AD3 on arbitrary graphs, OneSlackSSVM and FrankWolfeSSVM return weights whose risk against all relaxed labellings is close to the minimum; with exact AD3 on arbitrary graphs, or max-product on chains, all four learners return weights whose risk against all labellings is close to the minimum.", "quantifier": "for all numbers of states and features, graphs, features, labels, class weights, constructor parameters within the stated conditions", "why_tests_cant": "Tests train on one toy grid and check the training accuracy.", "anchors": ["pystruct/models/edge_feature_graph_crf.py:58-206", "pystruct/models/crf.py:36-160", "pystruct/learners/one_slack_ssvm.py:398-552", "pystruct/learners/n_slack_ssvm.py:240-400", "pystruct/learners/frankwolfe_ssvm.py:129-309", "pystruct/learners/subgradient_ssvm.py:129-312"]}
{"id": "C112", "title": "Learned weights are combinations of differences of joint features", "statement": "The weights learned by OneSlackSSVM, NSlackSSVM, FrankWolfeSSVM, SubgradientSSVM and StructuredPerceptron are linear combinations of joint_feature(x, y) - joint_feature(x, y_hat), with (x, y) a training sample and y_hat an output returned by (loss-augmented) inference for it. Hence a feature that is the same for all outputs keeps weight zero; the class weights of a MultiClassClf add up to zero per feature; in a GraphCRF the weights of the states add up to zero per unary feature and the pairwise weights add up to zero; and the weights of an EdgeFeatureGraphCRF for features declared symmetric (antisymmetric) are symmetric (antisymmetric) matrices.", "quantifier": "for all models, samples, constructor parameters, QP solvers, inference methods, visiting orders, interrupts, switches of the inference method", "why_tests_cant": "It is a statement about every weight vector any run can produce; tests look at the predictions of a few.", "anchors": ["pystruct/learners/one_slack_ssvm.py:398-552", "pystruct/learners/n_slack_ssvm.py:240-400", "pystruct/learners/frankwolfe_ssvm.py:129-309", "pystruct/learners/subgradient_ssvm.py:129-312", "pystruct/learners/structured_perceptron.py:80-200", "pystruct/models/edge_feature_graph_crf.py:146-206"]}
{"id": "C113", "title": "Training an EdgeFeatureGraphCRF with symmetric and antisymmetric features minimises its risk", "statement": "For an EdgeFeatureGraphCRF with any symmetric_edge_features and antisymmetric_edge_features that its constructor accepts: with LP inference or AD3 on arbitrary graphs, OneSlackSSVM and FrankWolfeSSVM return weights whose risk against all relaxed labellings is close to the minimum over all weights (not only over weights with the declared symmetry); with exact AD3 on arbitrary graphs, or max-product on chains, all four learners do so for the risk against all labellings.", "quantifier": "for all numbers of states and features, symmetry declarations, graphs, features, labels, class weights, constructor parameters within the stated conditions", "why_tests_cant": "joint_feature symmetrises but the potentials do not, so inference is only exact for weights that respect the declared symmetry; that training never leaves those weights cannot be seen from test runs.", "anchors": ["pystruct/models/edge_feature_graph_crf.py:58-206", "pystruct/models/crf.py:36-160", "pystruct/learners/one_slack_ssvm.py:398-552", "pystruct/learners/n_slack_ssvm.py:240-400", "pystruct/learners/frankwolfe_ssvm.py:129-309", "pystruct/learners/subgradient_ssvm.py:129-312"]}
{"id": "C114", "title": "Training a MultiLabelClf minimises its risk", "statement": "For a MultiLabelClf with any set of edges between labels: with LP inference or AD3, OneSlackSSVM and FrankWolfeSSVM return weights whose risk against all relaxed labellings is close to the minimum over all weights; with exact AD3, or with max-product when the labels form a chain, all four learners do so for the risk against all label sets.", "quantifier": "for all numbers of labels and features, edge lists, samples, label sets, constructor parameters within the stated conditions", "why_tests_cant": "Tests fit a few small data sets and compare the training score; that no other weights have a smaller regularised risk can not be read off a score.", "anchors": ["pystruct/models/multilabel_svm.py:37-106", "pystruct/models/crf.py:36-160", "pystruct/learners/one_slack_ssvm.py:398-552", "pystruct/learners/n_slack_ssvm.py:240-400", "pystruct/learners/frankwolfe_ssvm.py:129-309", "pystruct/learners/subgradient_ssvm.py:129-312"]}
{"id": "C115", "title": "GridCRF and DirectionalGridCRF score image labellings as described and their training minimises the risk", "statement": "For images of any height and width: weights times the joint feature of a GridCRF (4- or 8-neighbourhood) is the sum over pixels of features times the weights of the pixel's label plus the sum over neighbouring pixels of the weight of the pair of labels; for a DirectionalGridCRF (4-neighbourhood) horizontal pairs use the first table of pair weights and vertical pairs the second. With an exact AD3, GridCRF prediction maximises this score. With LP inference or AD3, OneSlackSSVM and FrankWolfeSSVM return weights close to the minimum of the risk against relaxed labellings; with an exact AD3 all four learners return weights close to the minimum of the risk against labellings.", "quantifier": "for all image sizes, numbers of states and features, pixel features, labels, weights, class weights, constructor parameters within the stated conditions", "why_tests_cant": "Tests use a few square or nearly empty images, on which exchanged heights and widths or exchanged directions go unnoticed; minimality of the risk can not be tested.", "anchors": ["pystruct/models/grid_crf.py:7-172", "pystruct/utils/graph.py:4-27", "pystruct/models/graph_crf.py:127-212", "pystruct/models/edge_feature_graph_crf.py:100-206", "pystruct/learners/one_slack_ssvm.py:398-552", "pystruct/learners/n_slack_ssvm.py:240-400", "pystruct/learners/frankwolfe_ssvm.py:129-309", "pystruct/learners/subgradient_ssvm.py:129-312"]}
{"id": "C116", "title": "What the training curves contain", "statement": "Let fit return. Of the subgradient learners: loss_curve_ is continued by the relative training loss (sum of the losses of the predictions over the sum of the largest possible losses) of the weights after every iteration divisible by show_loss_every, where the weights after iteration i are those that fit with max_iter=i+1 returns; objective_curve_ of SubgradientSSVM consists of the regularised risks of these weights and of the final ones. Of OneSlackSSVM: the same with the weights before the iteration; primal_objective_curve_ consists of the regularised risks of these weights as far as constraints do not come from the cache, and of that of the final weights. Of NSlackSSVM: losses of the weights after the iterations; primal_objective_curve_ combines the slacks before with the norm after each iteration, if there is one batch.", "quantifier": "for all models with exact loss-augmented inference, data, learner states, constructor parameters, quadratic-program solvers and numbers of iterations", "why_tests_cant": "Curves depend on the whole history of training; tests look at the last entry or at the length.", "anchors": ["pystruct/learners/ssvm.py:59-103", "pystruct/learners/subgradient_ssvm.py:184-243", "pystruct/learners/subgradient_latent_ssvm.py:108-237", "pystruct/learners/one_slack_ssvm.py:462-552", "pystruct/learners/n_slack_ssvm.py:283-400"]}
{"id": "C117", "title": "Malformed input is reported, and by which exception", "statement": "GraphCRF.joint_feature raises ValueError for features or a labelling of the wrong size, and IndexError for a label that is no state or an edge to a node that does not exist; inference raises ValueError for weights or features of the wrong size. EdgeFeatureGraphCRF and EdgeFeatureLatentNodeCRF raise ValueError in joint_feature, inference, loss_augmented_inference and latent if the numbers of features, of edges, or of edge features do not fit. initialize of every CRF class raises IndexError without samples. SubgradientSSVM.fit raises ValueError if batch_size is given and n_jobs is not 1. inference_ad3 raises ValueError if the solver returns no states. With latent_node_features=True and more hidden nodes than nodes, LatentNodeCRF follows Python's rules for negative slice ends.", "quantifier": "for all models, instances, labellings, weights, inference backends, learner states and data", "why_tests_cant": "Tests of exceptions pick one wrong input for few of the classes.", "anchors": ["pystruct/models/crf.py:23-53", "pystruct/models/graph_crf.py:159-212", "pystruct/models/edge_feature_graph_crf.py:108-117", "pystruct/models/latent_node_crf.py:437-446", "pystruct/learners/subgradient_ssvm.py:245-278", "pystruct/inference/inference_methods.py:384-432"]}
{"id": "C118", "title": "Constructors store what they are given, and sizes may be left to initialize", "statement": "After construction, EdgeFeatureGraphCRF, LatentGraphCRF, LatentNodeCRF and MultiClassClf have the sizes they were given; size_joint_feature, and the number of states of a LatentGraphCRF, are known exactly if all sizes they depend on are. A model constructed with some or all sizes and one constructed without them are the same after initialize on data with these sizes, including the exception if there is one.", "quantifier": "for all combinations of given and missing sizes, class weights, index lists and data", "why_tests_cant": "Relates two construction paths for every combination of optional arguments; tests use one.", "anchors": ["pystruct/models/edge_feature_graph_crf.py:58-100", "pystruct/models/latent_graph_crf.py:95-142", "pystruct/models/latent_node_crf.py:107-150", "pystruct/models/unstructured_svm.py:165-195", "pystruct/models/base.py:100-119"]}
{"id": "C119", "title": "The reported duality gap is a certificate", "statement": "After OneSlackSSVM.fit or NSlackSSVM.fit on a model with exact loss-augmented inference, primal_objective_curve_[-1] is the regularised risk of w, objective_curve_[-1] is at most that, and no weight vector whatsoever has a risk smaller than primal_objective_curve_[-1] by more than primal_objective_curve_[-1] - objective_curve_[-1] - however badly the QP solver optimised, with sign constraints, pruning, caching and any tolerance.", "quantifier": "for all models with exact loss-augmented inference, data, options with C > 0 and feasible QP solvers; uninterrupted fresh fits", "why_tests_cant": "Compares with all weight vectors, for solvers of any quality.", "anchors": ["pystruct/learners/one_slack_ssvm.py:OneSlackSSVM.fit", "pystruct/learners/n_slack_ssvm.py:NSlackSSVM.fit"]}
{"id": "C120", "title": "When the subgradient learners return", "statement": "On a nonempty data set SubgradientSSVM.fit returns if and only if n_jobs and batch_size are a legal combination (one job with no batch_size, batch_size 1, or - unless the model has rescale_C - a positive batch_size or -1; several jobs with no batch_size) or max_iter is 0, and warm_start is not used on a learner that was never fitted; without samples it never returns. SubgradientLatentSSVM.fit returns if and only if n_jobs is 1 or -1 or max_iter is 0, with the same condition on warm_start.", "quantifier": "for all models, data, options and histories of the learner", "why_tests_cant": "Characterises all options at once; tests only try combinations that somebody thought of.", "anchors": ["pystruct/learners/subgradient_ssvm.py:SubgradientSSVM.fit", "pystruct/learners/subgradient_latent_ssvm.py:SubgradientLatentSSVM.fit"]}
{"id": "C121", "title": "LatentSSVM over the cutting-plane learners lowers the latent objective up to the tolerance", "statement": "LatentSSVM.fit with OneSlackSSVM or NSlackSSVM as base_ssvm (exact QP solver, exact inference and latent completion, no pruning, no inference cache, enough iterations for the tolerance) returns after at most n_iter calls of the base learner. The latent objective of the weights of every call is, up to an eps that vanishes with the tolerance, at most every objective for the completions of this call; from one call to a later one the latent objective rises by at most eps per call; and if the loop stops early the final completions are those the final weights choose. For OneSlackSSVM the weights of every call are moreover optimal up to eps for the completed data; a soft warm start is the same as a fresh start except for longer curves.", "quantifier": "for all models with label-only losses, data, initial completions, tolerances and numbers of outer iterations", "why_tests_cant": "Compares with all weight vectors over whole training histories in which constraints are handed from one call to the next.", "anchors": ["pystruct/learners/latent_structured_svm.py:LatentSSVM.fit", "pystruct/learners/one_slack_ssvm.py:OneSlackSSVM.fit", "pystruct/learners/n_slack_ssvm.py:NSlackSSVM.fit"]}
{"id": "C122", "title": "A warm start resumes training where it was left", "statement": "Training a learner for a iterations and then calling fit with warm_start=True for b further iterations gives the same learner as training it for a+b iterations in one go: same weights, step counter, constraints, multipliers and loss curve, the objective curves up to the one extra entry written at the end of the first training; if the second half raises, so does training in one go.", "quantifier": "All models, samples, QP solvers, learners, shuffles, a, b >= 0.", "why_tests_cant": "A test compares a few pairs (a, b) on one data set, where a forgotten momentum term or tolerance may change nothing visible; the claim is about every split of every training.", "anchors": ["pystruct/learners/one_slack_ssvm.py:OneSlackSSVM.fit", "pystruct/learners/subgradient_ssvm.py:SubgradientSSVM.fit"]}
{"id": "C123", "title": "The logger sees every iteration and its checkpoints can be resumed", "statement": "During fit the learner's logger is called with the iteration numbers 0, 1, ..., n-1 in this order and, if training returns, exactly once with 'final'; with SaveLogger the file then holds the trained learner, and after a crash it holds the learner of the last iteration whose number is a multiple of save_every; training that learner with warm_start=True for the remaining iterations gives exactly the learner of the uninterrupted training.", "quantifier": "All learners, models, samples, QP solvers, save_every >= 1, file names without %, and all moments of the crash.", "why_tests_cant": "A test saves once or twice and compares a prediction; it does not kill training at every iteration, and does not see the missing final call when the last iteration happens to be saved.", "anchors": ["pystruct/learners/one_slack_ssvm.py:OneSlackSSVM.fit", "pystruct/learners/n_slack_ssvm.py:NSlackSSVM.fit", "pystruct/learners/latent_structured_svm.py:LatentSSVM.fit", "pystruct/learners/subgradient_ssvm.py:SubgradientSSVM.fit", "pystruct/learners/frankwolfe_ssvm.py:FrankWolfeSSVM.fit", "pystruct/utils/logging.py:SaveLogger.__call__"]}
{"id": "C124", "title": "Separable data: training reproduces the training labels", "statement": "Let loss-augmented and plain inference be exact. For weights w returned by OneSlackSSVM, NSlackSSVM or FrankWolfeSSVM after enough iterations (risk within eps of the minimum), C times the total training loss of predict plus half the squared norm of w is at most the risk of any other weights u plus eps. If u separates the training samples (the true output beats every output by at least its loss), w puts the true output within ((|u|^2)/2 + eps)/C of such a margin for every output of every sample; and if C times the smallest positive loss exceeds |u|^2/2 + eps, predict has loss 0 on every training sample and score(X, Y) is 1.", "quantifier": "all models with exact inference, all labelled sample lists, all separating weights, all three learners with any of their parameters (inactive_window=0; line search), any number of samples, outputs and features", "why_tests_cant": "A test trains on a few separable data sets with one value of C and compares labels; the bound relates C, the norm of any separator and the tolerance for all data sets.", "anchors": ["pystruct/learners/one_slack_ssvm.py:OneSlackSSVM.fit", "pystruct/learners/n_slack_ssvm.py:NSlackSSVM.fit", "pystruct/learners/frankwolfe_ssvm.py:FrankWolfeSSVM.fit", "pystruct/learners/ssvm.py:BaseSSVM.predict", "pystruct/learners/ssvm.py:BaseSSVM.score"]}
{"id": "C125", "title": "predict under constraints", "statement": "predict(X, constraints) gives the i-th sample the result of inference under the i-th constraints, whatever n_jobs is; None or an empty list mean plain prediction; there is one prediction for every sample; models whose inference has no parameter constraints raise TypeError. With inference_method 'ad3+' every predicted labelling satisfies the constraints of its sample if the package solves the constrained problems.", "quantifier": "all models, all lists of samples and of constraints (of any lengths, truthy or falsy), all n_jobs, all inference methods with any options", "why_tests_cant": "Constrained prediction needs ad3+ and has one test in the repository; list lengths, falsy constraints, n_jobs and model classes combine in too many ways to enumerate.", "anchors": ["pystruct/learners/ssvm.py:BaseSSVM.predict", "pystruct/utils/inference.py:inference", "pystruct/models/base.py:StructuredModel.batch_inference", "pystruct/models/crf.py:CRF.inference", "pystruct/models/grid_crf.py:GridCRF.inference", "pystruct/models/unstructured_svm.py:MultiClassClf.batch_inference"]}
{"id": "C126", "title": "switch_to and the inference method of the model", "statement": "OneSlackSSVM and NSlackSSVM with switch_to=t first train with model.inference_method and change to t when the stopping rule applies. After fit, model.inference_method is the old method or t, and the old one without switch_to; a training that ends by its stopping rule has ended with t. Fitting is repeatable: a second fit of the same learner to the same data gives the same result.", "quantifier": "all models with any set of inference methods (exact or not), all samples, parameters, interrupts, warm starts and given constraints", "why_tests_cant": "The repository has no test of switch_to that looks at the model after fit or fits twice.", "anchors": ["pystruct/learners/one_slack_ssvm.py:OneSlackSSVM.fit", "pystruct/learners/n_slack_ssvm.py:NSlackSSVM.fit"]}
{"id": "C127", "title": "LatentSSVM exposes the attributes of its base learner", "statement": "model, w, C, n_jobs and verbose of a LatentSSVM are the attributes of its base learner: reading gives the base learner's value, and assigning one of them changes exactly that attribute of the base learner, so that the next fit and predict use it. predict_latent returns the model's inference for each sample in order and predict the labels of these states. (Violated for C: the setter writes the value to base_ssvm.w; C keeps its value, the next fit of OneSlackSSVM or NSlackSSVM trains with the old C, SubgradientSSVM raises AttributeError, and so do predict and predict_latent on any nonempty data.)", "quantifier": "all attribute values, models, base learners, data sets", "why_tests_cant": "no test assigns attributes of a LatentSSVM; the set of values and data is unbounded, and that training ignores the assigned C is a statement about all executions", "anchors": ["pystruct/learners/latent_structured_svm.py:LatentSSVM.predict", "pystruct/learners/latent_structured_svm.py:LatentSSVM.predict_latent", "pystruct/learners/latent_structured_svm.py:LatentSSVM.C", "pystruct/learners/latent_structured_svm.py:LatentSSVM.w", "pystruct/learners/latent_structured_svm.py:LatentSSVM.model", "pystruct/learners/latent_structured_svm.py:LatentSSVM.n_jobs", "pystruct/learners/latent_structured_svm.py:LatentSSVM.verbose"]}
{"id": "C128", "title": "Training a LatentGraphCRF", "statement": "LatentSSVM(base_ssvm=OneSlackSSVM or NSlackSSVM) on a LatentGraphCRF whose inference finds best latent labellings (exact AD3, or max-product on chains) does not fail and does what alternation promises: if fit receives valid completions or init_latent clusters within the states of every label, each call of the base learner yields near-optimal weights for the completed data, the latent objective (loss = number of vertices whose states belong to different labels) rises by at most the base learner's accuracy from call to call, and if the loop stops by itself the last completions are those that latent chooses for the final weights. The penalty of 100 that latent uses to forbid states of other labels suffices throughout, provided rho * (sum of |features of a vertex| + 2 * its degree) < 100 for all vertices, where rho^2 >= 2 (C * number of vertices + accuracy).", "quantifier": "all label/state counts (at least two labels, at least one state each), numbers of features, directed or not, non-empty data sets, numbers of LatentSSVM iterations, C, tolerances, exact QP solvers", "why_tests_cant": "the promise couples three nested loops (alternation, cutting planes, inference) and the size of a penalty constant with the norm of weights that are only known after training; tests check a few images", "anchors": ["pystruct/learners/latent_structured_svm.py:LatentSSVM.fit", "pystruct/models/latent_graph_crf.py:LatentGraphCRF.latent", "pystruct/models/latent_graph_crf.py:LatentGraphCRF.loss_augmented_inference", "pystruct/models/latent_graph_crf.py:LatentGraphCRF.loss", "pystruct/models/latent_graph_crf.py:LatentGraphCRF.init_latent", "pystruct/learners/one_slack_ssvm.py:OneSlackSSVM.fit", "pystruct/learners/n_slack_ssvm.py:NSlackSSVM.fit"]}
{"id": "C129", "title": "Latent states of images", "statement": "LatentGridCRF and LatentDirectionalGridCRF treat images of latent states as their flat relatives treat arrays, and return results in image shape: latent returns an image of the shape of y in which every pixel has a state of its label, whatever labelling inference finds; with exact inference and weights bounded by rho with rho * (sum of |features of a pixel| + 2 * neighborhood) < 100 it has maximal score among all such images; loss_augmented_inference returns an image of states maximising score + number of pixels whose state belongs to another label than the state in h; inference returns one of maximal score and label_from_latent its labels; loss of two images of states is that number, also for one-hot marginals of shape (height, width, n_states); init_latent returns completions in the shape of Y whatever k-means answers.", "quantifier": "all image sizes, label and state counts, features, neighborhoods 4 and 8 (directional: 4), weights, inference methods", "why_tests_cant": "depends on row-major flattening and reshaping agreeing between edges, features, labels and masks for all heights and widths; tests use a few image sizes", "anchors": ["pystruct/models/latent_grid_crf.py:LatentGridCRF.latent", "pystruct/models/latent_grid_crf.py:LatentGridCRF.loss_augmented_inference", "pystruct/models/latent_grid_crf.py:LatentGridCRF.continuous_loss", "pystruct/models/latent_grid_crf.py:LatentGridCRF.init_latent", "pystruct/models/latent_grid_crf.py:LatentDirectionalGridCRF.loss_augmented_inference", "pystruct/models/latent_grid_crf.py:LatentDirectionalGridCRF.init_latent"]}
{"id": "C130", "title": "Prediction and score of the pairwise models", "statement": "GraphCRF, ChainCRF, EdgeFeatureGraphCRF, GridCRF and DirectionalGridCRF: if the inference method finds best labellings (exact AD3; max-product on chains), then prediction returns, for every instance and weight vector, one state per vertex such that w.joint_feature(x, y) is maximal over all labellings (EdgeFeatureGraphCRF: for weights that respect the declared symmetries, as all learned weights do). For labelled data, score(X, Y) is one minus the class weight of the vertices with a wrong label divided by the class weight of all vertices; it lies between 0 and 1, and is 1 exactly if every label of every instance is predicted right.", "quantifier": "all models, weights, non-empty data sets, positive class weights, graphs and image sizes", "why_tests_cant": "relates inference, joint_feature, loss, max_loss and the learner's predict and score for arbitrary data; tests compare scores on a few data sets", "anchors": ["pystruct/learners/ssvm.py:BaseSSVM.predict", "pystruct/learners/ssvm.py:BaseSSVM.score", "pystruct/models/crf.py:CRF.inference", "pystruct/models/grid_crf.py:GridCRF.inference", "pystruct/models/base.py:StructuredModel.max_loss"]}
{"id": "C131", "title": "Training of images with hidden states", "statement": "LatentSSVM on a LatentGridCRF (4 or 8 neighbours) or a LatentDirectionalGridCRF (4 neighbours): if the inference method finds the best states of grids, the QP solver is exact and the base learner has enough iterations for its tolerance, then fit returns; with OneSlackSSVM the weights after every call of the base learner are optimal for the completed images up to C n tol and the latent objective rises by at most C n tol from call to call, with NSlackSSVM it rises by at most 2 C n delta; if the loop ends by itself, the last images of states are the ones that the weights choose. The features must be small compared with the penalty of 100 in latent. The scores are those of pixels and neighbouring pixels, and the loss is the number of pixels whose states belong to different labels.", "quantifier": "all image sizes and features within the bound, numbers of states per label, clusterings or given initial states, C, tolerances and numbers of latent iterations", "why_tests_cant": "a property of the interplay of the latent loop, two base learners, loss-augmented inference, latent and the image layout for arbitrary images; tests train on one or two synthetic images", "anchors": ["pystruct/learners/latent_structured_svm.py:LatentSSVM.fit", "pystruct/models/latent_grid_crf.py:LatentGridCRF.latent", "pystruct/models/latent_grid_crf.py:LatentGridCRF.loss_augmented_inference", "pystruct/models/latent_grid_crf.py:LatentGridCRF.init_latent", "pystruct/models/latent_grid_crf.py:LatentDirectionalGridCRF.loss_augmented_inference"]}
{"id": "C132", "title": "Training a typed CRF minimises its risk", "statement": "If AD3 solves its problems (its status is integral and the labels read off its marginals are best), a NodeTypeEdgeFeatureGraphCRF with positive class weights can be trained by OneSlackSSVM, NSlackSSVM, FrankWolfeSSVM and SubgradientSSVM: for samples of the documented format with one label of the right type per node, and at least one node with a choice of labels, fit returns, and the regularised risk of the weights, taken over all labellings in which every node gets a label of its type, is within the tolerance of the minimum.", "quantifier": "all numbers of types, states, features, class weights, instances (any of the arrays may be None), true labels, C, tolerances, and exact QP solvers", "why_tests_cant": "a property of the interplay of learners, loss-augmented inference with type offsets and class weights, and joint features for graphs of any size; tests train on one toy data set and compare labels", "anchors": ["pystruct/models/node_type_edge_feature_graph_crf.py:NodeTypeEdgeFeatureGraphCRF.joint_feature", "pystruct/models/crf.py:CRF.loss_augmented_inference", "pystruct/models/typed_crf.py:TypedCRF.loss", "pystruct/learners/one_slack_ssvm.py:OneSlackSSVM.fit", "pystruct/learners/n_slack_ssvm.py:NSlackSSVM.fit", "pystruct/learners/frankwolfe_ssvm.py:FrankWolfeSSVM.fit", "pystruct/learners/subgradient_ssvm.py:SubgradientSSVM.fit"]}
{"id": "C133", "title": "First states of hidden nodes", "statement": "init_latent of LatentNodeCRF and EdgeFeatureLatentNodeCRF clusters the hidden nodes by the shares of the labels among their visible neighbours (edges in either direction, with multiplicities; zero if there are none). It returns iff there are samples, every sample is well formed (a visible node, labels in range, edges inside the graph, the last node on an edge) and k-means accepts the features; then the completion of every sample is its labels followed by one hidden state per hidden node, label_from_latent gives the labels back, and hidden nodes with equal shares get equal states, across samples.", "quantifier": "all graphs, numbers of labels, hidden nodes and hidden states, label arrays, and clusterings", "why_tests_cant": "the tests only look at training results with one lattice; the sparse slicing of the adjacency matrix is only exercised with hidden nodes", "anchors": ["pystruct/models/latent_node_crf.py:kmeans_init", "pystruct/models/latent_node_crf.py:LatentNodeCRF.init_latent", "pystruct/models/latent_node_crf.py:EdgeFeatureLatentNodeCRF.init_latent"]}
{"id": "C134", "title": "Training models with hidden nodes", "statement": "LatentSSVM(base_ssvm=OneSlackSSVM or NSlackSSVM) on a LatentNodeCRF whose inference finds best labellings (exact AD3, or max-product on chains) does not fail and does what alternation promises, for arbitrary positive class weights: if fit receives completions of the labels (labels at visible nodes, hidden states at hidden nodes) or init_latent clusters the hidden nodes, each call of the base learner yields near-optimal weights for the completed data, the latent objective (loss = class-weighted number of wrong labels at visible nodes) rises by at most the base learner's accuracy from call to call, and if the loop stops by itself the last completions are those that latent chooses for the final weights. Visible nodes never get hidden states and hidden nodes never get labels on the way, in loss-augmented inference as in latent, provided rho * (sum of |features of a node| + 2 * its degree) + kappa < 99 for all nodes, where rho^2 >= 2 (C * total class weight + accuracy) and kappa bounds the class weights.", "quantifier": "all numbers of labels (at least two), hidden states, hidden nodes and features, hidden nodes with or without features, positive class weights, non-empty data sets, numbers of LatentSSVM iterations, C, tolerances, exact QP solvers", "why_tests_cant": "forbidden states are only discouraged by a penalty of -100 times the largest potential, so whether inference returns a legal labelling depends on weights that are only known after training; tests check a few small graphs", "anchors": ["pystruct/learners/latent_structured_svm.py:LatentSSVM.fit", "pystruct/models/latent_node_crf.py:LatentNodeCRF.latent", "pystruct/models/latent_node_crf.py:LatentNodeCRF.loss_augmented_inference", "pystruct/models/latent_node_crf.py:LatentNodeCRF._get_unary_potentials", "pystruct/models/latent_node_crf.py:LatentNodeCRF.loss", "pystruct/models/latent_node_crf.py:LatentNodeCRF.init_latent", "pystruct/models/latent_node_crf.py:LatentNodeCRF.joint_feature"]}
{"id": "C135", "title": "Training models with hidden nodes and edge features", "statement": "LatentSSVM(base_ssvm=OneSlackSSVM or NSlackSSVM) on an EdgeFeatureLatentNodeCRF whose inference finds best labellings (exact AD3, or max-product on chains) does not fail and does what alternation promises, for arbitrary positive class weights and also if edge features are declared symmetric or antisymmetric: each call of the base learner yields near-optimal weights for the completed data, the latent objective (loss = class-weighted number of wrong labels at visible nodes) rises by at most the base learner's accuracy from call to call, and if the loop stops by itself the last completions are those that latent chooses for the final weights. This holds provided rho * (sum of |features of a node| + 2 * sum of |features of its edges|) + kappa < 99 for all nodes, where rho^2 >= 2 (C * total class weight + accuracy) and kappa bounds the class weights. All joint features have the declared symmetries.", "quantifier": "all numbers of labels (at least two), hidden states, hidden nodes, node features and edge features (at least one), hidden nodes with or without features, disjoint lists of symmetric and antisymmetric edge features, positive class weights, non-empty data sets of graphs with edges, numbers of LatentSSVM iterations, C, tolerances, exact QP solvers", "why_tests_cant": "potentials ignore the declared symmetries that joint_feature imposes, so inference only maximises w * joint_feature for weights that have them; that training never leaves these weights, nor the ball in which the penalty of forbidden states suffices, is an invariant of all runs", "anchors": ["pystruct/learners/latent_structured_svm.py:LatentSSVM.fit", "pystruct/models/latent_node_crf.py:EdgeFeatureLatentNodeCRF.latent", "pystruct/models/latent_node_crf.py:EdgeFeatureLatentNodeCRF.loss_augmented_inference", "pystruct/models/latent_node_crf.py:EdgeFeatureLatentNodeCRF._get_pairwise_potentials", "pystruct/models/latent_node_crf.py:EdgeFeatureLatentNodeCRF._get_unary_potentials", "pystruct/models/latent_node_crf.py:EdgeFeatureLatentNodeCRF.loss", "pystruct/models/latent_node_crf.py:EdgeFeatureLatentNodeCRF.init_latent", "pystruct/models/latent_node_crf.py:EdgeFeatureLatentNodeCRF.joint_feature"]}
{"id": "C136", "title": "Predictions and score of latent models", "statement": "After LatentSSVM.fit on LatentGraphCRF, LatentGridCRF, LatentDirectionalGridCRF, LatentNodeCRF or EdgeFeatureLatentNodeCRF whose inference finds best labellings: predict_latent(X) returns one completion per instance, of maximal score among all completions (for the models with hidden nodes: among all with labels at visible nodes and hidden states at hidden nodes), predict(X) returns for each instance the labels that the states of this completion belong to (the labels of the visible nodes, in their order), and score(X, Y) is one minus the share of vertices, pixels or visible nodes with wrong labels, counted with class weights for the models with hidden nodes. The score lies between 0 and 1 and is 1 exactly if all predicted labels are right. For the models with hidden nodes this needs weights of norm at most rho with rho * (sum of |features of a node| + 2 * weight of its edges) < 99.", "quantifier": "all weights (for hidden-node models in a ball), lists of instances, numbers of labels, states and features, 4- and 8-neighbourhoods, positive class weights, non-empty lists of labelled data", "why_tests_cant": "predictions pass through a table of states or a filter for labels; tests compare a few label arrays of a few trained models", "anchors": ["pystruct/learners/latent_structured_svm.py:LatentSSVM.predict", "pystruct/learners/latent_structured_svm.py:LatentSSVM.predict_latent", "pystruct/learners/latent_structured_svm.py:LatentSSVM.score", "pystruct/models/latent_graph_crf.py:LatentGraphCRF.label_from_latent", "pystruct/models/latent_graph_crf.py:LatentGraphCRF.base_loss", "pystruct/models/latent_grid_crf.py:LatentGridCRF.loss_augmented_inference", "pystruct/models/latent_node_crf.py:LatentNodeCRF.label_from_latent", "pystruct/models/latent_node_crf.py:LatentNodeCRF.max_loss", "pystruct/models/latent_node_crf.py:EdgeFeatureLatentNodeCRF.label_from_latent", "pystruct/models/crf.py:CRF.inference"]}
{"id": "C137", "title": "Relaxed outputs of latent models", "statement": "LatentGraphCRF.continuous_loss(h, marginals) is, summed over the vertices, one minus the mass on states of the true label; for marginals that sum to one at every vertex this is the mass on states of other labels. For LatentNodeCRF and EdgeFeatureLatentNodeCRF only visible nodes count, with the class weight of their true label, and loss augmentation adds exactly the continuous loss to the linear objective. If inference finds the best labelling or relaxed labelling (LP, AD3 with relaxed=True), loss_augmented_inference(relaxed=True) of LatentGraphCRF, LatentGridCRF and LatentDirectionalGridCRF returns the one that maximises w . joint_feature + loss. On images, marginals come back with shape (height, width, n_states) in the order of the pixels, joint_feature and loss accept them in this shape, and inference(relaxed=True) maximises w . joint_feature.", "quantifier": "all graphs, images, weights, numbers of states per label, completions, and all marginals (of every shape for the first sentence, in the local polytope for the rest)", "why_tests_cant": "fractional solutions are rare in tests; none checks a loss or a feature of fractional marginals of a latent model", "anchors": ["pystruct/models/latent_graph_crf.py:LatentGraphCRF.continuous_loss", "pystruct/models/latent_graph_crf.py:LatentGraphCRF.loss_augmented_inference", "pystruct/models/latent_grid_crf.py:LatentGridCRF.continuous_loss", "pystruct/models/latent_grid_crf.py:LatentGridCRF.loss_augmented_inference", "pystruct/models/latent_grid_crf.py:LatentDirectionalGridCRF.loss_augmented_inference", "pystruct/models/grid_crf.py:GridCRF._reshape_y", "pystruct/models/latent_node_crf.py:LatentNodeCRF.continuous_loss", "pystruct/models/latent_node_crf.py:LatentNodeCRF.loss_augmented_inference"]}
{"id": "C138", "title": "timestamps_ holds the total training time, in step with the curves", "statement": "After a successful fit, timestamps_ is the start time followed by the total training times since then (docs: 'Total training time stored before each iteration'). There is one such time for every entry of primal_objective_curve_ and cached_constraint_ of OneSlackSSVM (even if interrupted or when the inference method is switched, and of objective_curve_ if not interrupted), of both objective curves of NSlackSSVM and FrankWolfeSSVM, and of objective_curve_ of SubgradientSSVM and SubgradientLatentSSVM; an n-slack interrupt or a last latent pass without violated constraints leaves exactly one more. If the clock never runs backwards the times are ordered. When training is continued (warm_start, given constraints), the new entries are the total training time of all calls.", "quantifier": "all models, data, solvers, interrupts, clocks, learner options and histories of earlier fits", "why_tests_cant": "tests never look at timestamps_; only plot_learning reads them", "anchors": ["pystruct/learners/one_slack_ssvm.py:OneSlackSSVM.fit", "pystruct/learners/n_slack_ssvm.py:NSlackSSVM.fit", "pystruct/learners/subgradient_ssvm.py:SubgradientSSVM.fit", "pystruct/learners/subgradient_latent_ssvm.py:SubgradientLatentSSVM.fit", "pystruct/learners/frankwolfe_ssvm.py:FrankWolfeSSVM.fit"]}
{"id": "C139", "title": "plot_learning draws the curves of every trained learner", "statement": "plot_learning(ssvm, time) (docs: 'Should work with all learners') returns for every learner after one or more successful, uninterrupted calls of fit. It draws objective_curve_ and, if there is one, primal_objective_curve_ completely, value i at place i, or at the training time in minutes that was recorded at the start of the next iteration (end of training for the last value), and it marks exactly those primal values whose cached_constraint_ entry is False. The training loss of iteration i is drawn at the place of iteration i.", "quantifier": "all learners (one-slack, n-slack, subgradient, latent subgradient, Frank-Wolfe, perceptron), options, data, solvers, clocks and histories of calls of fit", "why_tests_cant": "plot_learning is not called by any test", "anchors": ["pystruct/plot_learning.py:plot_learning", "pystruct/learners/one_slack_ssvm.py:OneSlackSSVM.fit", "pystruct/learners/n_slack_ssvm.py:NSlackSSVM.fit", "pystruct/learners/subgradient_ssvm.py:SubgradientSSVM.fit", "pystruct/learners/subgradient_latent_ssvm.py:SubgradientLatentSSVM.fit", "pystruct/learners/frankwolfe_ssvm.py:FrankWolfeSSVM.fit", "pystruct/learners/ssvm.py:BaseSSVM._compute_training_loss"]}
{"id": "C140", "title": "Predictions and score of typed CRFs", "statement": "For a NodeTypeEdgeFeatureGraphCRF whose AD3 solves its problems and for any weight vector, model.inference returns a flat label array in which every node has a label of its own type and whose score np.dot(w, joint_feature(x, y)) is maximal among all such arrays. unflattenY turns it into one list of labels per type, counted from zero, flattenY turns these back, and no other lists of labels have a larger score. With positive class weights, learner.score(X, Y) is one minus the class weight of the nodes with wrong labels as a share of the class weight of all nodes; it lies in [0, 1] and is 1 exactly if the predictions are the given labels.", "quantifier": "all numbers of types, states, features and edge features, all instances of the right format with or without nodes of a type, all class weights, all weight vectors, all labelled data", "why_tests_cant": "tests check single small graphs and scores of toy data", "anchors": ["pystruct/models/crf.py:CRF.inference", "pystruct/models/typed_crf.py:TypedCRF.flattenY", "pystruct/models/typed_crf.py:TypedCRF.unflattenY", "pystruct/models/base.py:StructuredModel.max_loss", "pystruct/learners/ssvm.py:BaseSSVM.score", "pystruct/learners/ssvm.py:BaseSSVM.predict"]}
{"id": "C141", "title": "Interrupting StructuredPerceptron.fit", "statement": "If StructuredPerceptron.fit is interrupted by Ctrl-C while a prediction is computed, fit returns and the learner has the weights learned so far: without averaging those after all visits made (after the complete epochs in batch mode), with averaging their mean over the visits since averaging began, and loss_curve_ has one entry per complete epoch. An interrupt at the start of an epoch leaves the learner that training with that many epochs leaves.", "quantifier": "all models, data, learning rates and averaging settings, all epochs and samples at which the interrupt may arrive", "why_tests_cant": "tests do not interrupt training", "anchors": ["pystruct/learners/structured_perceptron.py:StructuredPerceptron.fit"]}
{"id": "C142", "title": "Interrupting SubgradientSSVM.fit", "statement": "If SubgradientSSVM.fit is interrupted by Ctrl-C while constraints are searched or the objective or training loss is computed, fit returns whenever it returns uninterrupted. The weights are those of the subgradient descent up to the interrupt (last iterate or weighted mean), the last entry of objective_curve_ is the objective of the returned weights, and there is one timestamp for every entry. An interrupt at the start of an iteration leaves the learner that training with that many iterations leaves, and without momentum and averaging the training can be resumed with warm_start=True as if it had not been interrupted.", "quantifier": "all models, data, shuffles, batch sizes, numbers of jobs, averaging settings, all iterations and places in them at which the interrupt may arrive", "why_tests_cant": "tests do not interrupt training", "anchors": ["pystruct/learners/subgradient_ssvm.py:SubgradientSSVM.fit", "pystruct/learners/subgradient_ssvm.py:SubgradientSSVM._solve_subgradient"]}
{"id": "C143", "title": "Interrupting FrankWolfeSSVM.fit", "statement": "If FrankWolfeSSVM.fit is interrupted by Ctrl-C while inference runs, fit returns whenever it returns uninterrupted, with the weights of the visits made so far (last iterate or weighted mean). For a fresh learner with exact inference these weights are dual feasible, the last entry of primal_objective_curve_ is their risk, all entries of objective_curve_ bound the minimal risk from below, and with line search none of them exceeds the dual value of the returned weights. An interrupt at the start of an iteration leaves the learner that training with that many iterations leaves.", "quantifier": "all models, data, visiting orders, both modes, step rules and averaging settings, all iterations and places in them at which the interrupt may arrive", "why_tests_cant": "tests do not interrupt training", "anchors": ["pystruct/learners/frankwolfe_ssvm.py:FrankWolfeSSVM.fit", "pystruct/learners/frankwolfe_ssvm.py:FrankWolfeSSVM._frank_wolfe_batch", "pystruct/learners/frankwolfe_ssvm.py:FrankWolfeSSVM._frank_wolfe_bc"]}
{"id": "C144", "title": "Interrupting SubgradientLatentSSVM.fit", "statement": "If SubgradientLatentSSVM.fit is interrupted by Ctrl-C while a step is prepared or the training loss is computed, fit returns whenever it returns uninterrupted. The learner has the weights after the steps made so far, each of which completes its samples with the current weights and goes along a negative subgradient of their risk; with averaging the weights are the weighted mean of the iterates. The last entry of objective_curve_ is the latent objective of the returned weights, and there are as many timestamps as entries. An interrupt at the start of an iteration leaves the learner that training with that many iterations leaves.", "quantifier": "all models with exact loss-augmented inference and exact completion, all data, job counts, averaging settings, all iterations and places in them at which the interrupt may arrive", "why_tests_cant": "tests do not interrupt training", "anchors": ["pystruct/learners/subgradient_latent_ssvm.py:SubgradientLatentSSVM.fit"]}
{"id": "C145", "title": "A warm start of SubgradientLatentSSVM resumes training", "statement": "Fitting SubgradientLatentSSVM with max_iter=a and then calling fit(warm_start=True) with max_iter=b gives the same weights, step counter, learning rate, loss curve and exceptions as fitting with max_iter=a+b, if the first training was not left early. The same holds if the first training was interrupted by Ctrl-C at the start of iteration a.", "quantifier": "all models, data, job counts, learning rates, decays, iteration counts a and b", "why_tests_cant": "tests never use warm_start of the latent learner", "anchors": ["pystruct/learners/subgradient_latent_ssvm.py:SubgradientLatentSSVM.fit"]}
{"id": "C146", "title": "Memory safety of the compiled functions", "statement": "crammer_singer_joint_feature, loss_augment_unaries and viterbi, which are compiled without bounds checks, access only cells inside their arrays and read no cell that was not written, when called by a model after initialize(X, Y): crammer_singer_joint_feature stays inside its result exactly if all labels are rows of it, loss_augment_unaries exactly if every row has a label and every label a class weight, viterbi exactly if there are transitions between all states for all neighbouring rows. In these cases their results are the documented sums and the best path.", "quantifier": "all arrays, labels (also negative), class weights, all training sets with which a model can be initialised", "why_tests_cant": "an access outside an array is not noticed by a test: it reads or overwrites other memory", "anchors": ["src/utils.pyx:crammer_singer_joint_feature", "src/utils.pyx:loss_augment_unaries", "pystruct/inference/_viterbi.pyx:viterbi", "pystruct/models/unstructured_svm.py:MultiClassClf.batch_joint_feature", "pystruct/models/crf.py:CRF.loss_augment_unaries"]}
{"id": "C147", "title": "Batch training depends on the samples, not on their order or multiplicity", "statement": "OneSlackSSVM, FrankWolfeSSVM with batch_mode=True and SubgradientSSVM with batch_size=-1 and n_jobs=1 give the same weights, curves and exceptions when every training sample is repeated k times, in any order, and C is divided by k; in particular when the samples are reordered (k=1), however shuffle orders them. StructuredPerceptron with batch=True does not depend on the order of the samples. For OneSlackSSVM this holds with inference cache, switch_to and interrupts; for k > 1 without pruning (inactive_window=0).", "quantifier": "all models, data sets, reorderings, multiplicities k, learner parameters, QP solvers, interrupts", "why_tests_cant": "a relation between two trainings on different data: tests train once and look at the result", "anchors": ["pystruct/learners/one_slack_ssvm.py:OneSlackSSVM.fit", "pystruct/learners/frankwolfe_ssvm.py:FrankWolfeSSVM._frank_wolfe_batch", "pystruct/learners/subgradient_ssvm.py:SubgradientSSVM.fit", "pystruct/learners/structured_perceptron.py:StructuredPerceptron.fit"]}
{"id": "C148", "title": "Numbering of nodes, order of edges and names of states do not matter", "statement": "GraphCRF.joint_feature(x, y), EdgeFeatureGraphCRF.joint_feature(x, y) and loss(y, y_hat) keep their value, and raise the same exception, when the nodes of a graph are numbered differently (rows of features and labels moved accordingly) and the edges are listed in another order. In an undirected GraphCRF edges may be turned round; in an EdgeFeatureGraphCRF too, if every edge feature is declared symmetric (kept) or antisymmetric (sign changed). A labelling of largest score or largest loss plus score therefore stays one. Renaming the states by a permutation is matched by weights of the same norm: for every w there is w' with the same sum of squares that gives every renamed labelling of every instance the score w gives to the original one, and the loss is unchanged if class weights are renamed too.", "quantifier": "all models, graphs, labellings, weights, class weights, permutations of nodes, edges and states", "why_tests_cant": "There are as many numberings as permutations; tests fix one numbering per graph.", "anchors": ["pystruct/models/graph_crf.py:GraphCRF.joint_feature", "pystruct/models/edge_feature_graph_crf.py:EdgeFeatureGraphCRF.joint_feature", "pystruct/models/base.py:StructuredModel.loss", "pystruct/utils/inference.py:compress_sym"]}
{"id": "C149", "title": "Grid models refuse images with the wrong number of features per pixel", "statement": "If the last axis of an image has another length than n_features, then GridCRF and DirectionalGridCRF raise an exception in joint_feature, inference and loss_augmented_inference, before anything is read or computed that does not belong to the image. Images with the right number of features give a labelling of the shape of the image.", "quantifier": "all images, neighbourhoods, models, weights, label images and inference methods", "why_tests_cant": "The features are reshaped before the number of columns is compared, so that the check never fails; whether another step fails depends on divisibility of the sizes and on the method.", "anchors": ["pystruct/models/grid_crf.py:GridCRF._get_features", "pystruct/models/grid_crf.py:GridCRF.inference", "pystruct/models/grid_crf.py:GridCRF.loss_augmented_inference", "pystruct/models/crf.py:CRF._check_size_x"]}
{"id": "C150", "title": "Units of features and losses do not matter for training", "statement": "If all joint features of a model are multiplied by b and all its losses by a (for a MultiClassClf: inputs times b, class weights times a), training with C multiplied by a/b^2 gives the same classifier: the learned weights are those of the original training times a/b, objective curves are multiplied by (a/b)^2, loss curves, predictions, errors and use of the inference cache are the same. For StructuredPerceptron, multiplying the learning rate by c multiplies the weights by c*b. For OneSlackSSVM and NSlackSSVM the result does not depend on which exact solver is used for the quadratic program.", "quantifier": "all models, samples, positive a and b, starting weights, warm starts, averaging, batch sizes, momentum, interrupts, exact solvers", "why_tests_cant": "Needs a comparison of two whole trainings with rescaled parameters for arbitrary factors; float tests cannot tell rounding from a constant that has units.", "anchors": ["pystruct/learners/structured_perceptron.py:StructuredPerceptron.fit", "pystruct/learners/subgradient_ssvm.py:SubgradientSSVM.fit", "pystruct/learners/frankwolfe_ssvm.py:FrankWolfeSSVM.fit", "pystruct/learners/one_slack_ssvm.py:OneSlackSSVM.fit", "pystruct/learners/n_slack_ssvm.py:NSlackSSVM.fit", "pystruct/models/unstructured_svm.py:MultiClassClf.loss_augmented_inference"]}
{"id": "C151", "title": "Printing a model never fails", "statement": "repr(model) succeeds for every model that a constructor or initialize returns, and shows the sizes of the model. (Violated: models with edge features, BinaryClf and MultiClassClf use %d, so printing them raises TypeError as long as a size is None, i.e. after every construction without sizes.)", "quantifier": "for all classes, sizes, inference methods and data", "why_tests_cant": "repr is only tested for a few initialised models.", "anchors": ["pystruct/models/crf.py:CRF.__repr__", "pystruct/models/edge_feature_graph_crf.py:EdgeFeatureGraphCRF.__repr__", "pystruct/models/unstructured_svm.py:BinaryClf.__repr__", "pystruct/models/unstructured_svm.py:MultiClassClf.__repr__", "pystruct/models/base.py:StructuredModel.__repr__", "pystruct/utils/logging.py:SaveLogger.__repr__"]}
{"id": "C152", "title": "Images of words", "statement": "load_letters adds one image per word, in order: its letters from left to right, each as 16 rows of 8 pixels, pixel (r, 8k+c) being entry 8r+c of letter k. Words without letters or with letters that have not 128 entries are rejected with ValueError.", "quantifier": "for all words and letters", "why_tests_cant": "The data set is fixed; the layout is only looked at by eye.", "anchors": ["pystruct/datasets/dataset_loaders.py:load_letters"]}
{"id": "C153", "title": "solve_lp is relaxed inference with one matrix for all edges", "statement": "solve_lp(unaries, edges, pairwise) minimises: on negated potentials it returns what inference_method='lp' with relaxed=True returns for the potentials themselves, with the same errors; shapes that do not fit raise ValueError; with an exact solver its objective is at most the cost of any labelling.", "quantifier": "for all potentials, graphs and answers of the solver", "why_tests_cant": "There is no test of solve_lp.", "anchors": ["pystruct/inference/linear_programming.py:solve_lp", "pystruct/inference/linear_programming.py:lp_general_graph"]}
{"id": "C154", "title": "Graphs of edges and lines of grids", "statement": "edges_to_graph returns the square matrix of edge multiplicities, with n_vertices rows if given and otherwise just enough for the edges; it raises ValueError exactly for vertices that are too large and for no edges and no n_vertices. plot_grid draws its lines exactly in the middle between neighbouring rows and columns.", "quantifier": "for all edge lists, numbers of vertices and array shapes", "why_tests_cant": "No tests exist for either.", "anchors": ["pystruct/inference/maxprod.py:edges_to_graph", "pystruct/utils/plotting.py:plot_grid"]}
{"id": "C155", "title": "Labels that are no states are reported", "statement": "joint_feature raises an error for a label array with an entry that is not one of 0..n_states-1. (Violated: only labels >= n_states or < -n_states raise IndexError. Negative labels are counted from the end: in a GraphCRF -1 is the last state, so training labels -1/+1, which initialize accepts as two states, give the same joint feature for all labellings. In an EdgeFeatureGraphCRF a negative label at the second end of an edge shifts the state that the pairwise part sees at the first end, which can give a joint feature of no labelling; MultiLabelClf multiplies the features by 2*y-1, -3 for -1, and without edges accepts every label.)", "quantifier": "for all models, graphs, features, weights and integer labels", "why_tests_cant": "Tests only use labels that are states; nothing fails for negative ones, the results are merely wrong.", "anchors": ["pystruct/models/graph_crf.py:GraphCRF.joint_feature", "pystruct/models/edge_feature_graph_crf.py:EdgeFeatureGraphCRF.joint_feature", "pystruct/models/multilabel_svm.py:MultiLabelClf.joint_feature", "pystruct/models/crf.py:CRF.initialize"]}
{"id": "C156", "title": "Training is stable", "statement": "Weights trained on two data sets that differ in a few samples are close: with N samples that are only in one of the sets, the squared distance of the weights is at most 4 C^2 N^2 R plus eight times the tolerances of the two trainings (16 C^2 R for one replaced sample, 4 C^2 R for one sample left out), R bounding the squared distances of the joint features of these samples. The bound does not depend on the number of common samples, the learners, their options or the order of samples; the hinge loss of any further sample changes accordingly.", "quantifier": "for all models with exact loss-augmented inference, all pairs of data sets, all C, tolerances and any of OneSlackSSVM, NSlackSSVM and FrankWolfeSSVM on either side", "why_tests_cant": "A test compares two concrete trainings; the bound is about all data sets.", "anchors": ["pystruct/learners/one_slack_ssvm.py:OneSlackSSVM.fit", "pystruct/learners/n_slack_ssvm.py:NSlackSSVM.fit", "pystruct/learners/frankwolfe_ssvm.py:FrankWolfeSSVM.fit"]}
{"id": "C157", "title": "The effect of C", "statement": "With a larger C, training gives a smaller total hinge loss on the training samples and weights of larger norm, up to the tolerances; the weights depend continuously on C (squared distance at most 4 (C'-C)^2 n^2 R plus tolerances); they are small if C is small, and the total hinge loss is never above that of zero weights by more than tol/C.", "quantifier": "for all models with exact loss-augmented inference, data sets, values of C, tolerances and any of OneSlackSSVM, NSlackSSVM and FrankWolfeSSVM", "why_tests_cant": "Tests use one or two values of C.", "anchors": ["pystruct/learners/one_slack_ssvm.py:OneSlackSSVM.fit", "pystruct/learners/n_slack_ssvm.py:NSlackSSVM.fit", "pystruct/learners/frankwolfe_ssvm.py:FrankWolfeSSVM.fit"]}
{"id": "C158", "title": "Perceptron on data that cannot be separated", "statement": "For every weight vector u and margin g, let xi be the amount by which u misses the margin on each sample. Without decay, StructuredPerceptron.fit makes at most 2*epochs*sum(xi)/g + N*R2*|u|^2/g^2 wrong predictions (N = 1 online, N = number of samples with batch=True), so the sum of loss_curve_ is bounded accordingly; with decay the same holds for sums of rates. If wrong outputs cost at least 1, the number of mistakes is at most 2*N*R2 times the SSVM objective of any weights, for C = epochs/(N*R2). In batch mode training on separable data ends with zero training loss for large enough max_iter.", "quantifier": "for all models with exact inference, all data sets, all reference weights u and margins, any number of epochs, with or without batch, decay and averaging", "why_tests_cant": "Tests fit separable toy data; the bound is over all data sets and all reference weights.", "anchors": ["pystruct/learners/structured_perceptron.py:StructuredPerceptron.fit"]}
{"id": "C159", "title": "Without latent states the latent learners are the plain ones", "statement": "A LatentGraphCRF with one state per label is a GraphCRF for the learners: SubgradientLatentSSVM.fit on it ends with the same weights, learning rate, counter and loss_curve_ as SubgradientSSVM.fit on the GraphCRF, and its objective_curve_ has the same length and the same last entry (test_objective checks one run). init_latent returns the labels, and LatentSSVM.fit trains its base learner exactly once, on the labels, whatever latent_iter is.", "quantifier": "for all chain data sets with max-product and all graphs with inference that returns labellings and reads given potentials only; all parameters with n_jobs = 1 and batch_size None or 1, no shuffling, warm or cold start; all base learners", "why_tests_cant": "The test compares one run on one data set; the claim is about all data, weights and parameters.", "anchors": ["pystruct/learners/subgradient_latent_ssvm.py:SubgradientLatentSSVM.fit", "pystruct/learners/subgradient_ssvm.py:SubgradientSSVM.fit", "pystruct/learners/latent_structured_svm.py:LatentSSVM.fit", "pystruct/models/latent_graph_crf.py:LatentGraphCRF.latent", "pystruct/models/latent_graph_crf.py:LatentGraphCRF.loss_augmented_inference", "pystruct/models/latent_graph_crf.py:kmeans_init"]}
{"id": "C160", "title": "A GraphCRF on graphs without edges is a multi-class classifier", "statement": "On graphs without edges the training objective of a GraphCRF is the Crammer-Singer objective of its unary weights on all vertices as separate samples, plus half the squared norm of the pairwise weights. Hence OneSlackSSVM, NSlackSSVM or FrankWolfeSSVM trained to accuracy eps leave pairwise weights of squared norm at most 2 eps and, in the unary weights, solve the multi-class problem up to eps; a MultiClassClf trained on the vertices has the same weights up to 4 (eps + delta). With inference_method='unary' the GraphCRF predicts at every vertex exactly what the MultiClassClf with its unary weights predicts.", "quantifier": "for all edge-free data sets with any numbers of vertices, all class weights, C, learners and accuracies; predictions for all graphs and weights", "why_tests_cant": "test_graph_svm compares one learner on one blob data set.", "anchors": ["pystruct/models/graph_crf.py:GraphCRF.joint_feature", "pystruct/models/crf.py:CRF.loss_augmented_inference", "pystruct/models/unstructured_svm.py:MultiClassClf.inference", "pystruct/learners/one_slack_ssvm.py:OneSlackSSVM.fit"]}
{"id": "C161", "title": "A MultiLabelClf without edges is one binary classifier per label", "statement": "Without edges the training objective of a MultiLabelClf is a sum over labels of regularised hinge losses, each of its own block of weights; with unit class weights it is a quarter of the sum of the objectives of linear SVMs (C = 4 C, no intercept) on doubled weights. Hence OneSlackSSVM, NSlackSSVM or FrankWolfeSSVM trained to accuracy eps with inference_method='unary' solve the linear SVM of every label up to 4 eps, and their doubled weights are within squared distance 4 (4 eps + delta) of a binary classifier trained for that label alone to accuracy delta. inference with 'unary' predicts label l exactly if its score is positive; a BinaryClf with any positive multiple of these weights predicts the same unless the score is zero, where it predicts the label and MultiLabelClf does not.", "quantifier": "for all numbers of labels and features, all data, class weights (objective), C, accuracies; predictions for all weights, samples and edges", "why_tests_cant": "test_multilabel_independent compares predictions for one data set and one C; it cannot see the factor 4 in C or the tie rule.", "anchors": ["pystruct/models/multilabel_svm.py:MultiLabelClf.joint_feature", "pystruct/models/multilabel_svm.py:MultiLabelClf._get_unary_potentials", "pystruct/models/unstructured_svm.py:BinaryClf.inference", "pystruct/learners/one_slack_ssvm.py:OneSlackSSVM.fit"]}
{"id": "C162", "title": "The snake images are turned into valid instances", "statement": "neighborhood_feature returns one row per pixel and 45 columns, column 9 c + k being channel c of the k-th cell of the 3x3 window around the pixel; cells outside of the image count as background and the nine cells of the window are all different. one_hot_colors marks the colour of a pixel. prepare_data gives for every image with at least two pixels two instances with these features, the edges of the 4-connected grid, indicator features of the direction, and the features of both end points in the columns of the direction; it raises ValueError exactly if an image has fewer than two pixels. On the prepared data OneSlackSSVM and FrankWolfeSSVM train an EdgeFeatureGraphCRF with the guarantees of C111.", "quantifier": "for all image sizes and contents, all pixels, channels, window cells and edges; training for all data sets and all exact inference methods", "why_tests_cant": "plot_snakes.py runs on one data set of images of one size and checks nothing.", "anchors": ["examples/plot_snakes.py:neighborhood_feature", "examples/plot_snakes.py:prepare_data", "examples/plot_snakes.py:one_hot_colors"]}
{"id": "C163", "title": "The check for snakes and the images without snakes", "statement": "On images with one colour per pixel and background at the border, isSnakePresent(x, nCell) raises nothing and is true exactly if there is a path of nCell different cells, each pointing to the next, or a closed path of nCell - 1 cells; closed paths have even length, so for even nCell (the default 10) it says whether there is a snake of nCell cells. changeOneSnakeCell recolours at most one cell that is not background, in the colour of another one, and raises AssertionError if the number of cells is not nCell. augmentWithNoSnakeImages keeps the images and appends exactly those distorted images, with zero labels, that contain no snake of nCell cells.", "quantifier": "for all images, sizes, nCell, random numbers and data sets, for one-hot and for RGB images", "why_tests_cant": "The example runs with nCell=10 and random numbers and checks nothing; a closed path of nCell - 1 cells and other values of nCell do not occur.", "anchors": ["examples/plot_hidden_snakes.py:isSnakePresent", "examples/plot_hidden_snakes.py:walkThruSnake", "examples/plot_hidden_snakes.py:changeOneSnakeCell", "examples/plot_hidden_snakes.py:augmentWithNoSnakeImages"]}
{"id": "C164", "title": "Constraining the weight of disagreement makes prediction of a binary GraphCRF exact", "statement": "When OneSlackSSVM or NSlackSSVM trains a GraphCRF with two states and negativity_constraint lists the pairwise weight of different states (both of them if edges are directed), the learned pairwise weights reward agreement: w_00 + w_11 >= w_01 + w_10, whatever the other weights may be. If inference uses lp or ad3, which only find optima of the relaxation, the last reported primal objective is then the exact structured risk over labellings, and predict returns a best labelling of every graph. The unary weights of the two states are opposite.", "quantifier": "for all training sets on arbitrary graphs, all features, class weights, parameters, tolerances, interrupts, earlier trainings and all QP solvers that return feasible points; prediction on all graphs", "why_tests_cant": "test_one_slack_attractive_potentials checks the sign of one weight on one data set; that the other two weights cannot spoil it needs the zero sum of the learned weights.", "anchors": ["pystruct/learners/one_slack_ssvm.py:OneSlackSSVM._solve_1_slack_qp", "pystruct/learners/n_slack_ssvm.py:NSlackSSVM._solve_n_slack_qp", "pystruct/models/graph_crf.py:GraphCRF.inference", "pystruct/inference/inference_methods.py:inference_lp"]}
{"id": "C165", "title": "Typed snake data, and renaming the types of nodes", "statement": "prepare_picture_data gives for every image that is not all background the numbers of pixels of the five colours and the height and width of the foreground (ValueError otherwise). convertToTwoType makes of an image with at least two pixels an instance for two node types that NodeTypeEdgeFeatureGraphCRF accepts: every pixel keeps its label and is linked to the image by one edge with the pixel's features; the image's label is counted from the number of pixel labels. swap_node_types(l_perm, ...) moves all arrays and labels to the new types so that every node keeps its state within its type; swapping back gives the data back, and for all weights there are weights of the same total number for the new types under which all labellings have the same score and loss, so best labellings correspond. Constraints are permuted along.", "quantifier": "for all images, labels and numbers of cells; all numbers of types, states, features, nodes and edges, all weights and labellings; all permutations", "why_tests_cant": "The example is run by hand on generated images with two types; that scores are preserved is a statement about all weights and labellings.", "anchors": ["examples/plot_hidden_short_snakes_typed.py:prepare_picture_data", "examples/plot_hidden_short_snakes_typed.py:convertToTwoType", "examples/plot_hidden_short_snakes_typed.py:swap_node_types", "pystruct/models/node_type_edge_feature_graph_crf.py:NodeTypeEdgeFeatureGraphCRF.joint_feature", "pystruct/models/typed_crf.py:TypedCRF.initialize"]}
{"id": "C166", "title": "A soft warm start of OneSlackSSVM with an inference cache", "statement": "OneSlackSSVM.fit(X, Y, warm_start='soft') on a learner that was fitted to other labels is as good as a fresh fit, for any inference_cache: it returns whenever a fresh fit would, the values it appends to objective_curve_ are lower bounds of the regularised risk for the new data, and with enough iterations the risk of its weights is at most C n tol above the minimum. Hence LatentSSVM with a caching OneSlackSSVM descends up to C n tol in every outer iteration.", "quantifier": "for all models, data sets, old and new labels, cache sizes, tolerances, numbers of outer iterations, exact QP solvers", "why_tests_cant": "That cached losses fit to the current labels depends on the loss of the model and on all results of inference in earlier fits.", "anchors": ["pystruct/learners/one_slack_ssvm.py:OneSlackSSVM.fit", "pystruct/learners/one_slack_ssvm.py:OneSlackSSVM._constraint_from_cache", "pystruct/learners/one_slack_ssvm.py:OneSlackSSVM._update_cache", "pystruct/learners/latent_structured_svm.py:LatentSSVM.fit"]}
{"id": "C167", "title": "Graphs side by side in one instance are independent", "statement": "Let x consist of two graphs x1 and x2 without edges between them: features stacked, the edges of x2 shifted by the number of nodes of x1, labels one after the other. GraphCRF.joint_feature and EdgeFeatureGraphCRF.joint_feature of x are the sums of those of x1 and x2, and so is the loss, with or without class weights. Labels for x have the largest score (or score plus loss) exactly if both parts have. With inference_method='unary' the prediction for x consists of the predictions for x1 and x2. Therefore putting samples of the training data side by side does not change the regularised structured risk of any weights, over labellings or relaxed labellings, and OneSlackSSVM trained on the merged data returns weights that are near-optimal for the separate samples.", "quantifier": "all models, graphs, labellings, weights, class weights, data sets and ways of merging them, inference back ends", "why_tests_cant": "Tests use fixed small graphs, none of them with several components.", "anchors": ["pystruct/models/graph_crf.py:GraphCRF.joint_feature", "pystruct/models/edge_feature_graph_crf.py:EdgeFeatureGraphCRF.joint_feature", "pystruct/models/base.py:StructuredModel.loss", "pystruct/models/crf.py:CRF.inference", "pystruct/learners/one_slack_ssvm.py:OneSlackSSVM.fit"]}
{"id": "C168", "title": "Only differences between potentials matter, not their scale", "statement": "Let two sets of potentials differ by a common positive factor, a constant per node (added to all its states) and a constant per edge. The labellings of largest score, the optimal points of the LP relaxation and the solutions of the linear programs which inference_lp builds are the same, and unary inference and inference_max_product return the same labels, ties included, or raise the same exception. Therefore the predictions of GraphCRF (and MultiClassClf) do not change when all weights are multiplied by a positive number, when the weights of all states for one feature are increased by the same amount, or when all pairwise weights are; those of BinaryClf do not change under a positive factor; and loss-augmented inference does not change under the additions.", "quantifier": "all graphs, potentials, factors, constants, models, weights, options of max-product", "why_tests_cant": "Tests compare predictions for a few given potentials only; adding constants is never tried.", "anchors": ["pystruct/inference/maxprod.py:inference_max_product", "pystruct/inference/maxprod.py:tree_max_product", "pystruct/inference/maxprod.py:iterative_max_product", "pystruct/inference/_viterbi.pyx:viterbi", "pystruct/inference/inference_methods.py:inference_lp", "pystruct/inference/inference_methods.py:inference_unaries", "pystruct/models/crf.py:CRF.inference", "pystruct/models/unstructured_svm.py:MultiClassClf.inference", "pystruct/models/unstructured_svm.py:BinaryClf.inference"]}
{"id": "C169", "title": "The hard constraints of the snake examples say what they are meant to say", "statement": "buildConstraints and buildConstraintsFromSingleTyped give every graph a list of constraints that a labelling satisfies exactly if each of the states 1 to 9 (1 to NCELL) occurs exactly once (bOne=True) or at most once (bOne=False); with bOne=True there is such a labelling exactly if the graph has at least nine nodes. listConstraints gives every instance with pixels and an image constraints that a labelling satisfies exactly if the image is labelled 0 and all pixels are background, or the image is labelled 1 and each of the states 1 to ncell is at exactly one pixel (so an image with fewer pixels than that can only be labelled 0); listConstraints_ATMOSTONE asks for each state at most once and nothing of the image. The true labels of images made by convertToTwoType satisfy both lists. Neither function raises on data of the form the examples make.", "quantifier": "all data sets, numbers of nodes and of cells, labellings", "why_tests_cant": "The examples are not tests; they print an accuracy of constrained prediction and never check that the constraints admit the right labellings.", "anchors": ["examples/plot_snakes_constraints.py:buildConstraints", "examples/plot_hidden_snakes.py:buildConstraintsFromSingleTyped", "examples/plot_hidden_snakes.py:convertToSingleTypeX", "examples/plot_hidden_short_snakes_typed.py:listConstraints", "examples/plot_hidden_short_snakes_typed.py:listConstraints_ATMOSTONE"]}
{"id": "C170", "title": "Relaxed labellings of models with hidden nodes are scored by the potentials of inference", "statement": "For LatentNodeCRF and EdgeFeatureLatentNodeCRF, joint_feature of a tuple of marginals that puts no mass on hidden states of visible nodes and none on labels of hidden nodes has the right size, and weights times joint feature is the linear objective of the potentials handed to the inference method (for EdgeFeatureLatentNodeCRF: for weights that have the declared symmetries). With an inference method that solves the linear relaxation, inference(relaxed=True) and loss_augmented_inference(relaxed=True) return a labelling or a point of the local polytope; if it respects the kinds of nodes in this sense, it maximises weights times joint feature (plus loss or continuous_loss, which counts visible nodes only) among all labellings and points of the local polytope that do. If weights and features are small compared with the penalty of 100 that the code puts on states of the wrong kind, and no edge is a loop, the output always respects the kinds of nodes.", "quantifier": "all models, instances, weights, marginals, true labellings, solvers of the relaxation", "why_tests_cant": "The tests check joint_feature of hidden-node models on labellings and on a few outputs of a solver; optimality over the polytope and the effect of the penalties need all marginals.", "anchors": ["pystruct/models/latent_node_crf.py:LatentNodeCRF.joint_feature", "pystruct/models/latent_node_crf.py:LatentNodeCRF.loss_augmented_inference", "pystruct/models/latent_node_crf.py:LatentNodeCRF.continuous_loss", "pystruct/models/latent_node_crf.py:EdgeFeatureLatentNodeCRF.joint_feature", "pystruct/models/latent_node_crf.py:EdgeFeatureLatentNodeCRF.loss_augmented_inference"]}
{"id": "C171", "title": "A GraphCRF is an EdgeFeatureGraphCRF whose edges all have the one feature 1", "statement": "Given an instance of a GraphCRF, add the edge feature 1 to every edge; given its weights, write the pairwise weights as a full matrix. Then EdgeFeatureGraphCRF with one edge feature gives the same unary potentials, on every edge the pairwise potentials of the GraphCRF, and the same weights-times-joint-feature for every labelling and every tuple of marginals; with inference methods that find best outputs both return outputs of the same, highest score. For directed=True the weight vectors and the joint features are identical, the regularised risk of training is the same function of the weights, and any learner trained on either to some accuracy finds the same weights up to that accuracy.", "quantifier": "all models, instances, weights, outputs, data sets, class weights, learners and inference methods", "why_tests_cant": "The tests compare the two models on a few instances with random weights; equality of risks and of learned weights needs all outputs and all weights.", "anchors": ["pystruct/models/graph_crf.py:GraphCRF.joint_feature", "pystruct/models/graph_crf.py:GraphCRF._get_pairwise_potentials", "pystruct/models/edge_feature_graph_crf.py:EdgeFeatureGraphCRF.joint_feature", "pystruct/models/edge_feature_graph_crf.py:EdgeFeatureGraphCRF._get_pairwise_potentials", "pystruct/models/crf.py:CRF.inference"]}
{"id": "C172", "title": "shorten_snakes keeps exactly the first N cells of the snakes", "statement": "For images with labels, shorten_snakes(lX, lY, N) erases in place the cells with labels above N (the pixel becomes the first pixel of the image, the label zero) and returns, per pair, the smallest part of the image that shows all cells with labels 1..N inside a frame of one pixel. If the image has background at its border and the label zero exactly at the background, the part is such an image again, its snakes are exactly the snakes of the image with labels at most N, isSnakePresent finds snakes of even length in it exactly when the image has one with labels at most N, and shortening again changes nothing. Unequal sizes raise AssertionError, an image with nothing to keep raises ValueError. Violated when a cell that stays is in the first row or column: the slice then starts at -1 and the part has at most one row (column), usually none.", "quantifier": "all images, labels, lengths N, lists of images", "why_tests_cant": "The function has no tests; the part returned depends on the place of the snake, and the case of the first row silently returns an empty image.", "anchors": ["examples/plot_hidden_snakes.py:shorten_snakes", "examples/plot_hidden_snakes.py:isSnakePresent"]}
{"id": "C173", "title": "A MultiClassClf with two classes is a BinaryClf, and the weights of the classes add up to zero", "statement": "With two classes and unit class weights the training problem of MultiClassClf with C equals half the problem of BinaryClf with 2 C at the difference of the weights of class 1 and class 0, plus a quarter of the squared length of their sum. So any learner trained with MultiClassClf to some accuracy gives weights whose difference solves the binary problem up to twice that accuracy and is close to any solution of the latter; conversely the halved binary weights with both signs solve the problem with two classes. Predictions agree except for a score of zero, where BinaryClf says 1 and MultiClassClf says class 0. For any number of classes, costs and class weights the trained weights of the classes add up to (almost) zero.", "quantifier": "all data sets, C, accuracies, learners, weights, inputs; for the sum all numbers of classes and class weights", "why_tests_cant": "Tests train both on a single data set and compare accuracies; that the problems have the same solutions is a statement about all weights.", "anchors": ["pystruct/models/unstructured_svm.py:BinaryClf.joint_feature", "pystruct/models/unstructured_svm.py:BinaryClf.inference", "pystruct/models/unstructured_svm.py:MultiClassClf.joint_feature", "pystruct/models/unstructured_svm.py:MultiClassClf.inference", "pystruct/models/unstructured_svm.py:MultiClassClf.loss_augmented_inference"]}
{"id": "C174", "title": "Samples beyond the margin do not matter for training", "statement": "If the trained weights give the true output of a sample a score that exceeds the score plus loss of every other output, the sample has no influence on training. Exactly: the minimiser of the regularised risk stays the minimiser when such samples are left out, so leave-one-out predictions of these samples are right. For learners that stop at some accuracy: adding samples beyond the margin keeps the weights optimal up to the same accuracy, and training with and without them gives weights whose distance is bounded by the accuracies alone (divided by a step that depends on how far beyond the margin the samples are), instead of by C as for arbitrary samples.", "quantifier": "all models with exact loss-augmented inference, data sets, C, margins, accuracies, learners", "why_tests_cant": "Influence of a sample is a statement about all minimisers of the risk; a test can only retrain on a few data sets.", "anchors": ["pystruct/learners/one_slack_ssvm.py:OneSlackSSVM.fit", "pystruct/learners/n_slack_ssvm.py:NSlackSSVM.fit", "pystruct/learners/frankwolfe_ssvm.py:FrankWolfeSSVM.fit", "pystruct/learners/ssvm.py:BaseSSVM._objective"]}
{"id": "C175", "title": "The tree of the multi-label example", "statement": "chow_liu_tree returns a graph between the labels without cycles; its edges are pairs i < j of labels that are not independent, none of them twice, fewer than labels, dependent labels are connected by it, and no graph without cycles has a larger sum of mutual informations. A MultiLabelClf with max-product on this graph predicts a set of labels with the largest score.", "quantifier": "all label arrays, spanning trees returned by scipy, measures of information, samples, weights", "why_tests_cant": "That no other tree has more information is a statement about all trees, and optimality of predictions one about all sets of labels and weights.", "anchors": ["examples/multi_label.py:chow_liu_tree", "pystruct/models/multilabel_svm.py:MultiLabelClf", "pystruct/inference/maxprod.py:inference_max_product", "pystruct/utils/graph_functions.py:is_forest"]}
{"id": "C176", "title": "Generated snakes", "statement": "Called with ncell >= 1, genSnakes never raises. Each of the N returned pairs is an image that shows exactly one snake of ncell different cells, each pointing by its colour to the next and the last one pointing to background, in a frame of background of exactly one pixel on every side, and an array of labels of the same size that numbers the cells along the snake (in eight bits) and is zero elsewhere. isSnakePresent finds the snake, and changeOneSnakeCell and augmentWithNoSnakeImages accept the image. No snake is one recorded in dUniqueSnakelij or another one of the call, all are recorded, and with at most 255 cells any two label arrays differ. An attempt is given up only if all four neighbours of the last place have been visited, and every snake not yet recorded can be the next. From 256 cells on a cell has the label of the background; for ncell=1 a second snake is never found; for ncell=0 ValueError is raised.", "quantifier": "all numbers of cells and snakes, all orders of directions drawn, all dictionaries, all numbers of attempts", "why_tests_cant": "the images are random; a run shows a few of the self-avoiding walks, and a duplicate or a snake at the edge of the board may need very many draws", "anchors": ["examples/plot_hidden_short_snakes_typed_gen.py:genSnakes"]}
{"id": "C177", "title": "A GridCRF is a DirectionalGridCRF with the same weights for both directions", "statement": "Take an image and the weights of a GridCRF (4-neighbourhood, directed or not), write the pairwise weights as a full matrix and repeat it for horizontal and for vertical pairs. Then DirectionalGridCRF has the same edges, the same unary potentials and on every edge the pairwise potentials of the GridCRF; weights times joint_feature agree for every labelling of the image, relaxed or not; inference of both models, with a method that finds best outputs, returns outputs that are best for either; and the structured hinge loss of every labelled image agrees, so a DirectionalGridCRF can express whatever a GridCRF can learn.", "quantifier": "all image sizes, numbers of states and features, weights, labellings, relaxed labellings and inference methods that find best outputs", "why_tests_cant": "the two classes share almost no code: edges are listed by one function in two forms, potentials are computed by different methods, and weights are laid out differently", "anchors": ["pystruct/models/grid_crf.py:DirectionalGridCRF", "pystruct/models/grid_crf.py:GridCRF", "pystruct/models/edge_feature_graph_crf.py:EdgeFeatureGraphCRF.joint_feature", "pystruct/models/graph_crf.py:GraphCRF.joint_feature"]}
{"id": "C178", "title": "Overviews of snake images", "statement": "plot_many_snakes with at least one row and column and images no higher or wider than ncell + 1 makes ceil(n / (nv*nh)) pages of (ncell+1)*nv by (ncell+1)*nh pixels; image s is on page s // (nv*nh), unchanged, in tile row s // nh % nv and tile column s % nh, and every pixel in no image is black. An image wider than that in the last column raises ValueError, and gen_snakes can return one, as a straight snake of ncell cells has an image of width ncell + 2. Without rows or columns the call never ends. plot_mistakes shows exactly the images whose last label is predicted wrongly, those without snake first, in the order of the samples, in overviews made for ten cells whatever ncell is.", "quantifier": "all lists of images, numbers of rows, columns and cells, and label lists", "why_tests_cant": "whether a straight snake meets the last column depends on the random draws", "anchors": ["examples/plot_hidden_short_snakes_typed_gen.py:plot_many_snakes", "examples/plot_hidden_short_snakes_typed_gen.py:plot_mistakes"]}
{"id": "C179", "title": "A MultiLabelClf is an EdgeFeatureGraphCRF on the graph of its labels", "statement": "Turn a sample of a MultiLabelClf with at least one edge into an instance of an EdgeFeatureGraphCRF with two states: one node per label, with the features of the sample in the block of the label and zeros elsewhere, and one edge feature per edge. With the weights of absent labels set to minus those of present labels the potentials of inference, weights times joint_feature for all sets of labels (relaxed or not), the results of exact inference and the structured hinge loss agree. The extra weights of the EdgeFeatureGraphCRF express nothing new: for all its weights, half the differences between present and absent are weights of the MultiLabelClf with the same scores up to a number that does not depend on the labels, hence with the same best sets of labels and the same hinge loss. The regulariser differs: feature weights count twice, and the antisymmetric weights are the shortest of all that give the same differences.", "quantifier": "all numbers of labels and features, graphs of labels, samples, weights, labellings, relaxed labellings and inference methods that find best outputs", "why_tests_cant": "the classes share no code but the inference call; agreement is a statement about all weights and labellings", "anchors": ["pystruct/models/multilabel_svm.py:MultiLabelClf.joint_feature", "pystruct/models/multilabel_svm.py:MultiLabelClf._get_unary_potentials", "pystruct/models/multilabel_svm.py:MultiLabelClf._get_pairwise_potentials", "pystruct/models/edge_feature_graph_crf.py:EdgeFeatureGraphCRF.joint_feature"]}
{"id": "C180", "title": "The order of the features does not matter for training", "statement": "If the features of a model are listed in another order (for MultiClassClf, BinaryClf, GraphCRF and ChainCRF: the columns of the inputs are permuted), training gives the same weights in the corresponding order: StructuredPerceptron, SubgradientSSVM, FrankWolfeSSVM (with and without line search), OneSlackSSVM and NSlackSSVM end with the same loss curves, objective curves, use of the inference cache and constraints, or raise the same exception, if starting weights are reordered and the indices in negativity_constraint renamed. The primal objective of corresponding weights is the same.", "quantifier": "all permutations of the features, samples, parameters, starting weights (where the learner has them), numbers of states and features, graphs, and all inference methods that look at nothing but the entries of the potentials", "why_tests_cant": "a test tries one permutation of one data set with one solver, and rounding would hide or fake differences", "anchors": ["pystruct/learners/structured_perceptron.py:StructuredPerceptron.fit", "pystruct/learners/subgradient_ssvm.py:SubgradientSSVM.fit", "pystruct/learners/frankwolfe_ssvm.py:FrankWolfeSSVM.fit", "pystruct/learners/one_slack_ssvm.py:OneSlackSSVM.fit", "pystruct/learners/n_slack_ssvm.py:NSlackSSVM.fit", "pystruct/models/graph_crf.py:GraphCRF.joint_feature"]}
{"id": "C181", "title": "Lists shuffled together stay together", "statement": "shuffle_in_unison(*args) rearranges all lists, cut to the length of the shortest one, in the same random order: entry k of every returned list comes from the same position of the lists given, so images, labels and kinds of image still belong together and no tuple is lost or repeated. If one of the lists is empty the result has no lists at all, and the assignment to several names, as in all callers, raises ValueError.", "quantifier": "all numbers and lengths of lists and all orders that random.shuffle may choose", "why_tests_cant": "a test sees one order of one data set", "anchors": ["examples/plot_hidden_snakes.py:shuffle_in_unison"]}
{"id": "C182", "title": "Copies of a feature get the same weight", "statement": "If two columns of the inputs are equal in all training samples, every learner gives them the same weight (for MultiClassClf in every class, for GraphCRF in every state): StructuredPerceptron, SubgradientSSVM and FrankWolfeSSVM from scratch, NSlackSSVM and OneSlackSSVM with an exact solver. More generally, an exchange of features that changes no sample changes no learned weight.", "quantifier": "all samples, classes, class weights, parameters of the learners, random orders of the samples and exact solvers", "why_tests_cant": "equal weights in floating point tests depend on the data and the summation order; the claim is about all data sets", "anchors": ["pystruct/learners/structured_perceptron.py:StructuredPerceptron.fit", "pystruct/learners/subgradient_ssvm.py:SubgradientSSVM.fit", "pystruct/learners/frankwolfe_ssvm.py:FrankWolfeSSVM.fit", "pystruct/learners/one_slack_ssvm.py:OneSlackSSVM.fit", "pystruct/learners/n_slack_ssvm.py:NSlackSSVM.fit"]}
{"id": "C183", "title": "A LatentNodeCRF without hidden nodes is an undirected GraphCRF", "statement": "With n_hidden_states=0 and instances with n_hidden=0, a LatentNodeCRF has the size of joint feature, the joint features, the losses, and, on graphs with at least one node, the results of inference and loss-augmented inference (or the exceptions) of an undirected GraphCRF with the same weights and class weights, with and without latent_node_features. latent returns the given labels or raises. On a graph without nodes, LatentNodeCRF.inference raises ValueError.", "quantifier": "all numbers of labels and features, graphs, weights of any size, labels, class weights and inference methods", "why_tests_cant": "equivalence of two model classes on all inputs, including the exceptions, cannot be sampled", "anchors": ["pystruct/models/latent_node_crf.py:LatentNodeCRF.joint_feature", "pystruct/models/latent_node_crf.py:LatentNodeCRF._get_unary_potentials", "pystruct/models/latent_node_crf.py:LatentNodeCRF._get_pairwise_potentials", "pystruct/models/latent_node_crf.py:LatentNodeCRF.loss_augmented_inference", "pystruct/models/latent_node_crf.py:LatentNodeCRF.loss", "pystruct/models/latent_node_crf.py:LatentNodeCRF.latent", "pystruct/models/graph_crf.py:GraphCRF.joint_feature"]}
{"id": "C184", "title": "An EdgeFeatureLatentNodeCRF without hidden nodes is an EdgeFeatureGraphCRF", "statement": "With n_hidden_states=0 and instances with n_hidden=0, an EdgeFeatureLatentNodeCRF has the size of joint feature and the losses, on graphs with at least one edge the joint features, and on graphs with at least one node the results of inference and loss-augmented inference (or the exceptions) of an EdgeFeatureGraphCRF with the same parameters, with and without latent_node_features. latent returns the given labels, also when inference contradicts them.", "quantifier": "all models, symmetric and antisymmetric edge features, graphs, weights of any size, labels, class weights and inference methods", "why_tests_cant": "equivalence of two model classes on all inputs, including the exceptions, cannot be sampled", "anchors": ["pystruct/models/latent_node_crf.py:EdgeFeatureLatentNodeCRF.joint_feature", "pystruct/models/latent_node_crf.py:EdgeFeatureLatentNodeCRF._get_unary_potentials", "pystruct/models/latent_node_crf.py:EdgeFeatureLatentNodeCRF._get_pairwise_potentials", "pystruct/models/latent_node_crf.py:EdgeFeatureLatentNodeCRF.loss_augmented_inference", "pystruct/models/latent_node_crf.py:EdgeFeatureLatentNodeCRF.latent", "pystruct/models/edge_feature_graph_crf.py:EdgeFeatureGraphCRF.joint_feature"]}
{"id": "C185", "title": "Order and copies of edge features", "statement": "If the columns of the edge features of all samples of an EdgeFeatureGraphCRF are put in another order (and symmetric_edge_features, antisymmetric_edge_features are changed accordingly), joint features, outputs and learned weights are the same with the weights in that order. The same holds for the columns of its node features. Edge features that are equal on all edges and not declared symmetric or antisymmetric, and node features that are equal on all nodes, get the same weights from StructuredPerceptron, SubgradientSSVM, FrankWolfeSSVM and NSlackSSVM.", "quantifier": "all orders, models, graphs, labels, class weights, learners with their parameters, and methods of inference", "why_tests_cant": "a relation between two runs of training, for all data sets and orders", "anchors": ["pystruct/models/edge_feature_graph_crf.py:EdgeFeatureGraphCRF.joint_feature", "pystruct/models/edge_feature_graph_crf.py:EdgeFeatureGraphCRF._get_pairwise_potentials", "pystruct/inference/maxprod.py:inference_max_product"]}
{"id": "C186", "title": "The score of a data set is an average", "statement": "score(X, Y) of a trained learner does not depend on the order of the samples, is the same if the data set is given several times, is for two data sets together the mean of their scores weighted by their largest possible losses (so it lies between them), and grows if weights lose less on a sample and nowhere more. The first three hold for LatentSSVM and SubgradientLatentSSVM too. X and Y of unequal lengths are refused.", "quantifier": "all models, weights, data sets and orders", "why_tests_cant": "a relation between calls on different data sets, for all data sets", "anchors": ["pystruct/learners/ssvm.py:BaseSSVM.score", "pystruct/learners/ssvm.py:BaseSSVM.predict", "pystruct/models/base.py:StructuredModel.batch_loss", "pystruct/models/base.py:StructuredModel.max_loss"]}
{"id": "C187", "title": "A ChainCRF without arguments decodes exactly, whatever is installed", "statement": "ChainCRF() takes max-product as its inference method, whatever packages are installed, and directed interactions; a method that is given is kept. On labelled data initialize finds the sizes, with one parameter per state and feature and one per ordered pair of states, and gives every class weight 1. Prediction then returns a label sequence with the largest inner product of weights and joint feature, and learners see the model for which C88 proves that training minimises the risk. GraphCRF() takes AD3 if it is installed and max-product otherwise, and undirected interactions.", "quantifier": "all installed packages, arguments, data, weights and sequences", "why_tests_cant": "tests run with the packages of one machine and compare a few sequences", "anchors": ["pystruct/models/chain_crf.py:ChainCRF.__init__", "pystruct/models/crf.py:CRF.__init__", "pystruct/models/graph_crf.py:GraphCRF.__init__", "pystruct/inference/inference_methods.py:get_installed"]}
{"id": "C188", "title": "Integer class weights with rescale_C are numbers of copies", "statement": "Take a MultiClassClf with rescale_C=True and class weights that are natural numbers. Its regularised risk on a data set is that of a classifier without class weights on the data set in which every sample occurs as often as the weight of its class says. Weights trained on the one and on the other (OneSlackSSVM, NSlackSSVM; for the copies also FrankWolfeSSVM) agree up to the tolerances of training, and score(X, Y) is the same for both. Without rescale_C the class weights are margins instead, and the risks differ.", "quantifier": "all numbers of classes and features, class weights, data sets, weights, C and parameters of the learners", "why_tests_cant": "a relation between the optima of two trainings, for all data sets and class weights", "anchors": ["pystruct/models/unstructured_svm.py:MultiClassClf.joint_feature", "pystruct/models/unstructured_svm.py:MultiClassClf.loss_augmented_inference", "pystruct/models/unstructured_svm.py:MultiClassClf.loss", "pystruct/utils/inference.py:find_constraint", "pystruct/learners/ssvm.py:BaseSSVM.score"]}
{"id": "C189", "title": "Chains read backwards", "statement": "Read every sequence of a ChainCRF data set backwards (rows of features and labels in opposite order). For an undirected chain every score, the regularised risk of every weight vector and so the learned weights (up to the tolerances of training) stay the same; for a directed chain this holds with the transition matrix in w transposed. What the model predicts for a sequence read backwards is, read backwards, a best label sequence for the sequence itself under those weights.", "quantifier": "all ChainCRF models with max-product decoding, data sets, class weights, weights, C and parameters of the learners", "why_tests_cant": "a symmetry of the optimum over all data sets and weights; tests do not train on reversed data", "anchors": ["pystruct/models/chain_crf.py:ChainCRF._get_edges", "pystruct/models/graph_crf.py:GraphCRF.joint_feature", "pystruct/models/graph_crf.py:GraphCRF._get_pairwise_potentials", "pystruct/models/chain_crf.py:make_chain_edges"]}
{"id": "C190", "title": "Mirrored and turned images", "statement": "Exchange left and right, or rows and columns, of labelled images, any number of times and for every image in its own way (so images are mirrored, put upside down or turned by multiples of 90 degrees). With neighborhood 4 and 8 the score a GridCRF gives to the labelling and the loss between two labellings do not change, so the regularised risk of every weight vector does not, and with inference that finds a best labelling the weights learned from the images and from the turned images agree up to the tolerances of training. What exact AD3 predicts for a moved image is, moved back, a best labelling of the image. With directed pairwise potentials, which GridCRF never uses, scores would change.", "quantifier": "all images, labellings, sequences of moves, weights, class weights, C and parameters of the learners", "why_tests_cant": "a symmetry over all images and all weights, and of the optimum of training; tests do not train on turned images", "anchors": ["pystruct/models/grid_crf.py:GridCRF._get_edges", "pystruct/models/grid_crf.py:GridCRF._get_features", "pystruct/utils/graph.py:make_grid_edges", "pystruct/models/graph_crf.py:GraphCRF.joint_feature"]}
{"id": "C191", "title": "Mirrored and transposed images in a DirectionalGridCRF", "statement": "A DirectionalGridCRF (neighborhood 4) has one table of weights for horizontal and one for vertical pairs of neighbours. Exchanging left and right in all images is matched by transposing the first table, exchanging rows and columns by exchanging the two tables: every labelling keeps its score, the regularised risk at w on the changed images is that at the changed w on the original ones, and with inference that finds a best labelling the weights learned from both data sets correspond in this way up to the tolerances of training. What is predicted for a changed image with w is, changed back, a best labelling of the image with the changed w.", "quantifier": "all images, labellings, weights, class weights, C and parameters of the learners", "why_tests_cant": "a symmetry over all images and all weights, and of the optimum of training; tests do not train on transposed images", "anchors": ["pystruct/models/grid_crf.py:DirectionalGridCRF._get_edges", "pystruct/models/grid_crf.py:DirectionalGridCRF._get_edge_features", "pystruct/models/grid_crf.py:DirectionalGridCRF.joint_feature", "pystruct/utils/graph.py:make_grid_edges", "pystruct/utils/graph.py:edge_list_to_features"]}
