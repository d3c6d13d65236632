# Formal model of pystruct in Lean 4 — design

## Goal
`properties.jsonl` lists semantic properties (C01…) that users of pystruct rely on.
`lean/Verif` contains a function-by-function model of the code in `/repo` and
machine-checked proofs of those properties for all inputs, states and executions.
Where the code violates a property, the violation is a theorem (`C##_violated_…`, a concrete run or a statement
for all inputs), and the part that does hold is proved, with the suffix `_partial` if it replaces the full claim.

## Layout
* `Verif/Basic/*`   numbers, arrays, argmax, exceptions as values.
* `Verif/Model/*`   models of functions of the repository; every definition cites file and lines.
* `Verif/Spec/*`    small specifications (what a labelling's score is, what optimal means, what a cycle is …)
                    written without reference to the model.
* `Verif/Lemmas/*`  helper lemmas.
* `Verif/Props/*`   property theorems, each with a non-vacuity `example`.
* `MANIFEST.json`   which theorems establish which property; `AXIOMS.md` the axioms of each of them.
* `seeded/LOG.jsonl` wrong programs tried against the theorems.

## Modelling decisions
* Numbers: float64 is idealised by exact arithmetic in ℚ (float64 values other than inf/nan are rationals).
  Rounding is not modelled. Where minus infinity matters (Viterbi) scores are `WithBot ℚ`.
  Integer overflow (`int32` in `inference_qpbo`) and dtypes are not modelled.
* Arrays: shape plus an index function on ℕ (row-major for ravel/reshape). Negative (wrap-around) indices
  are not modelled unless stated. Views and aliasing are not modelled; in-place updates become new values.
* Exceptions are values (`Except PyErr`). Loops are folds or structural recursion on the number of iterations.
* Learners are functions from (configuration, attributes left by earlier fits, data) to (attributes, or an
  exception), so that repeated and warm-started fits are covered.
* External solvers (cvxopt QP/LP, ad3, qpbo, opengm, k-means, fmin, random numbers, joblib, pickle) are parameters;
  a contract (e.g. "returns an optimal solution") is an explicit hypothesis of the theorem that needs it,
  and the theorems that need none quantify over arbitrary solver behaviour. Examples show that each contract
  can be met.
* Crash/interrupt points are modelled as explicit positions in the sequence of effects.
* Random visiting orders are parameters: theorems hold for every order, or for every order that is a permutation.

## What is modelled and what is not
| file in `/repo/pystruct` | modelled | not modelled |
|---|---|---|
| `inference/_viterbi.pyx` | all (Model/Viterbi) | memory layout, C integer types |
| `inference/maxprod.py` | all (Model/MaxProd) | sparse-matrix internals: the scipy BFS is a parameter-free model of `breadth_first_order` on an adjacency list |
| `inference/linear_programming.py` | `lp_general_graph` rows, bounds, decoding (Model/LP) | the simplex or interior-point code (parameter) |
| `inference/inference_methods.py` | dispatch, `get_installed`, all branches for one node type (Model/Dispatch, Unaries, LP); ad3+ for several types (Model/Typed) | printing; the packages themselves; cross-type fractional post-processing beyond Model/Typed |
| `inference/common.py` | all (Model/Common) | |
| `models/base.py`, `crf.py`, `graph_crf.py`, `chain_crf.py`, `grid_crf.py` | all methods used by learners and users (Model/GraphCRF, Grid, Init, Loss, Batch) | `__repr__`, `_loss_augmented_djoint_feature` (debugging only); attribute updates before a failing `initialize` |
| `models/edge_feature_graph_crf.py` | features, potentials, size checks, inference, constructor, `initialize` (Model/EdgeFeature, InitMore) | `__repr__`; dtype truncation of integer edge features |
| `models/latent_graph_crf.py`, `latent_grid_crf.py` | state map, `latent`, losses, `kmeans_init`, inference, the same on images, constructors, `initialize` (Model/LatentGraph, LatentInstance, LatentGrid, Grid, InitMore) | k-means itself |
| `models/latent_node_crf.py` | both classes (Model/LatentNode, InitMore) | printing |
| `models/multilabel_svm.py` | all (Model/MultiLabel, Init) | |
| `models/unstructured_svm.py` | all (Model/Unstructured, InitMore) | `__repr__` |
| `models/typed_crf.py`, `node_type_edge_feature_graph_crf.py` | all that is used in training and prediction (Model/Typed) | choice of a default inference method, `setInferenceMethod`, `l_n_features=None`, `__repr__` |
| `learners/ssvm.py`, `utils/inference.py` | all (Model/Learner, Sym, Exhaustive) | joblib (order-preserving map) |
| `learners/one_slack_ssvm.py` | QP, cache, pruning, loop, warm start, interrupts (Model/OneSlack, QP) | printing (the logger calls of all learners: Model/TrainingLog; `timestamps_`: Model/Timing) |
| `learners/n_slack_ssvm.py` | QP, pruning, loop, warm start, interrupts (Model/NSlack, QP) | printing |
| `learners/frankwolfe_ssvm.py` | both modes, averaging (Model/FrankWolfe) | printing |
| `learners/subgradient_ssvm.py` | all modes (Model/Subgradient) | AdaGrad is not in this version; printing |
| `learners/structured_perceptron.py` | all (Model/Perceptron) | |
| `learners/latent_structured_svm.py`, `subgradient_latent_ssvm.py` | loops, scores, prediction (Model/LatentSSVM, SubgradientLatent, LatentFacade) | printing |
| `learners/downhill_simplex_ssvm.py` | objective and fit (Model/PrimalDS) | `fmin` (parameter) |
| `utils/logging.py` | all (Model/Logger) | pickle format |
| `utils/graph.py`, `graph_functions.py` | all (Model/Grid, MaxProd) | |
| `src/utils.pyx` | both functions (Model/Loss, Unstructured), access by access in Model/Memory | labels that do not fit a C int |
| `learners/svm.py` | all (Model/SVM) | printing; integer labels, which cvxopt rejects |
| `datasets/synthetic_grids.py` | all (Model/Datasets) | random number generator (parameter), dtypes |
| `plot_learning.py` | the points that are drawn, exceptions (Model/Plot) | messages, colours, legends, scales |
| `utils/plotting.py`, `datasets/dataset_loaders.py`, `setup.py` | — | plotting, file loading and packaging only |

## Per property: what is modelled, how it is proved
| id | property | model | proof | status |
|----|----------|-------|-------|--------|
| C01 | Chain decoding is exact | Viterbi | in-place dynamic program over `WithBot ℚ`; induction on rows: row i holds prefix maxima; backtracking attains them | proved: exact arithmetic; -inf potentials allowed |
| C02 | Tree max-product returns an optimal labelling | MaxProd (tree) | induction over the BFS order: beliefs are max-marginals up to a constant (Lemmas/TreeBP); concrete tie as witness of the violation; the `_partial` theorem assumes a unique optimum | partial: false as stated: on ties the returned labelling can be suboptimal (C02_violated_ties); proved whenever the optimum is unique |
| C03 | Chain shortcut only taken on the real chain | MaxProd (`is_chain`) | numpy broadcasting modelled as it happens; exact characterisation of the accepted edge arrays, witnesses of wrongly accepted ones | partial: false as stated: broadcasting in is_chain accepts non-chains; exact characterisation proved |
| C04 | Forest test decides acyclicity | MaxProd (`is_forest`), Explore | depth-first search invariant; the specification of a forest removes edges one at a time and asks for disconnection | proved |
| C05 | Max-product on graphs without edges | MaxProd | unfolding; witness for two vertices | partial: false as stated for two or more vertices; characterised |
| C06 | Loopy max-product bookkeeping | MaxProd (loopy) | invariant over single message updates; the iteration is a fold | proved |
| C07 | LP relaxation upper-bounds the best labelling | LP | rows and columns of the constraint matrix are identified with sums of marginals (Lemmas/LP); a labelling encodes a feasible point | proved |
| C08 | Integral LP solutions are MAP labellings | LP | an integral feasible point decodes to a labelling with the same value | proved |
| C09 | LP constraint system is exactly the local polytope | LP | both inclusions between solutions of the rows and the local polytope | proved |
| C10 | Unary inference is per-node optimal | Unaries | argmax lemmas | proved |
| C11 | Exhaustive inference is globally optimal | Exhaustive | induction over the lexicographic product of candidates | proved |
| C12 | Energy computation and pairwise parameter shapes | Common (`_validate_params`, `compute_energy`) | case analysis over shapes | proved |
| C13 | GraphCRF: score of a labelling equals weights times features | GraphCRF | one-hot encodings collapse sums; symmetric packing as a bijection | proved |
| C14 | ChainCRF end to end exactness | GraphCRF, MaxProd, Viterbi | C13 and C01 combined | proved |
| C15 | EdgeFeatureGraphCRF: score equals weights times features | EdgeFeature | sum exchange; witness weights with antisymmetric features | partial: false as stated for arbitrary w with (anti)symmetric edge features; proved without them, and for symmetric weights under C16 |
| C16 | Symmetry of learned edge weights | EdgeFeature | joint features and their differences lie in the symmetric subspace | proved |
| C17 | MultiLabelClf: score equals weights times features | MultiLabel | as C13 | proved |
| C18 | MultiClassClf inference is exact | Unstructured | argmax; a negative class weight as counterexample of the version without the sign hypothesis | proved: class weights nonnegative (needed: C18_negative_weight_counterexample) |
| C19 | BinaryClf inference is exact and total | Unstructured | case analysis on the sign of the margin; witness at the margin | partial: false as stated when <w,x> equals the true label (C19_violated_at_margin); proved otherwise |
| C20 | LatentNodeCRF: score equals weights times features | LatentNode | as C13, with edges to hidden nodes; witnesses | partial: full for LatentNodeCRF; for EdgeFeatureLatentNodeCRF with at least one edge and weights respecting the declared symmetries, false otherwise |
| C21 | NodeTypeEdgeFeatureGraphCRF: score equals weights times features | Typed | offsets of types and pairs of types (Lemmas/TypedEnergy) | proved |
| C22 | joint_feature has the advertised size | all models | sizes of concatenations; witnesses | partial: false for DirectionalGridCRF with neighborhood=8 (C22_violated_directional_8) and for MultiLabelClf given a labelling of the wrong length (C22_violated_multilabel) |
| C23 | Relaxed and discrete joint features agree | GraphCRF, EdgeFeature, MultiLabel | joint features are affine in the marginals | proved: GraphCRF, EdgeFeatureGraphCRF, MultiLabelClf (affine) |
| C24 | Loss augmentation adds exactly the loss | Loss, LatentNode | sum of indicators; witnesses | partial: latent-node models: proved for legal labellings only; false for labellings that put hidden states on visible nodes |
| C25 | Batch operations equal per-sample operations | Batch, Unstructured | induction over samples | proved |
| C26 | Loss is a weighted Hamming loss | Loss | sum of indicators | proved |
| C27 | Continuous loss extends the discrete loss | Loss | one-hot collapse | proved |
| C28 | score is an accuracy | Learner | average of complements of losses | proved |
| C29 | Slack upper-bounds the loss | Learner | the maximum of affine functions dominates the value at the true label | proved: multiClass_exact shows that MultiClassClf meets the exactness hypothesis |
| C30 | Primal objective | Learner | sum of maxima; convexity | proved |
| C31 | Grid edges are exactly the grid neighbours | Grid | membership characterisation, no duplicates, count | proved |
| C32 | Packing of symmetric pairwise weights | Sym | triangular index bijection | proved |
| C33 | Latent state map partitions the states | LatentGraph | cumulative sums | proved |
| C34 | Latent completion respects the given labels | LatentGraph, LatentNode | restriction of the state set; witnesses | partial: consistency proved for all three classes; optimality only without fallback (C34_violated_optimal); LatentNodeCRF.latent may raise |
| C35 | k-means initialisation is consistent with labels | LatentGraph (`kmeans_init`) | k-means is a parameter | proved |
| C36 | flattenY and unflattenY are inverse | Typed | offsets by types; witnesses | partial: the round trips hold; flattenY does not reject a wrong number of types and unflattenY raises AttributeError for None node features |
| C37 | Typed label validation | Typed | ranges of types; violation because lists of samples are never checked | partial: the check itself is exact; initialize on lists never performs it |
| C38 | Typed decoding yields labels in the type's range | Typed | argmax inside the block of a type | proved |
| C39 | One-slack objective is a lower bound | OneSlack, QP | weak duality; invariant: every constraint in the working set is a mean of sample constraints | proved: every value of objective_curve_, for fresh, repeated and warm-started fits with caching, switching, pruning and interrupts; needs only a feasible QP solver and admissible outputs |
| C40 | One-slack stopping rule certifies near-optimality | OneSlack, QP | strong duality from exact optimality (exchange argument in Lemmas/QP); witness with a pruned constraint | partial: holds as long as the constraint of the true outputs is not pruned (always with inactive_window=0); otherwise false (violation proved with exact solver and inference). The bound has an extra term 1e-8 (C n)^2 if the regularised QP is solved |
| C41 | Inference cache stays bounded and valid | OneSlack | invariant over cache insertions; witness | partial: bound inference_cache+1 proved, the documented bound is violated |
| C42 | Working set and dual history stay aligned | OneSlack | invariant over iterations; interrupts are explicit positions | partial: holds unless training is interrupted while or right after the QP is solved |
| C43 | n-slack working set has no duplicates and training terminates | NSlack | working-set invariant, decreasing measure | proved: bookkeeping for fits that are not interrupted |
| C44 | n-slack objective bound and stopping rule | NSlack, QP | weak and strong duality per block; witnesses | partial: bound proved in full; near-optimality when training stops because there are no new constraints, for models in which outputs without loss have the features of the true output; otherwise false (violations proved) |
| C45 | Frank-Wolfe weights stay the sum of per-sample contributions | FrankWolfe | loop invariant | proved |
| C46 | Frank-Wolfe line search never decreases the dual | FrankWolfe | one-dimensional quadratic | proved |
| C47 | Frank-Wolfe duality gap is a certificate | FrankWolfe | the gap is the gap of a dual point; after a second fit the point is no longer dual | partial: certificate proved for fresh learners in both modes; invalid after a second fit (violation proved) |
| C48 | Subgradient steps follow a true subgradient | Subgradient | subgradient inequality of a maximum of affine functions; invariant over passes | proved: online, mini-batch and parallel mode, with momentum and step decay, for every number of passes |
| C49 | Documented weight averaging | Subgradient, FrankWolfe | closed form of running averages (Lemmas/Averaging) | proved: linear and squared averaging of SubgradientSSVM for learners whose step counter is 0 (first fit), and Frank-Wolfe averaging |
| C50 | Every sample is visited exactly once per pass | Subgradient, NSlack | permutations and even slices | proved: SubgradientSSVM and NSlackSSVM |
| C51 | Refitting forgets the past | all learners | fit is a function of configuration and data, or a witness that it is not | partial: holds for the perceptron, OneSlackSSVM and NSlackSSVM without switch_to; violated by SubgradientSSVM and FrankWolfeSSVM, and by switch_to, which changes the model for good |
| C52 | Perceptron mistake bound | Perceptron | Novikoff: two inequalities by induction over visits | proved: Mistake bound for online training without decay under exact inference, for any number of epochs and any averaging; convergence to zero training loss. |
| C53 | Perceptron averaging | Perceptron | independent definition of the run and of its mean; witness | partial: Averages characterised against an independent run of the algorithm whenever at least one epoch counts; the full statement fails after an early stop before epoch k (violation proved). |
| C54 | Perceptron early stop means perfect training predictions | Perceptron | an epoch without loss leaves the weights unchanged | proved: Online and batch, any decay. |
| C55 | Checkpoint schedule | Logger | file system as a map, failures at explicit positions | partial: the schedule is proved; a template name raises TypeError at the final call |
| C56 | Checkpointing is transparent and loadable | Logger | as C55 | partial: transparent as long as opening and dumping succeed; otherwise cache and previous file can be lost, and load fails for template names |
| C57 | Latent SVM objective descends | LatentSSVM | alternating minimisation, induction over outer iterations | proved: base learner and completion are parameters: exact, or (C57_step) at most eps worse than the weights it starts from |
| C58 | Latent learner scores compare labels with labels | LatentSSVM, SubgradientLatent | unfolding; witness | partial: proved for LatentSSVM and for SubgradientLatentSSVM with LatentNodeCRF; refuted for SubgradientLatentSSVM with LatentGraphCRF |
| C59 | Downhill simplex optimises the same objective | PrimalDS | algebra | partial: the function is the objective for C/n; not proportional to the objective for C |
| C60 | Inference dispatch contract | Dispatch | case analysis over methods and keyword dictionaries; external packages are parameters | partial: Routing, option merging and rejection of unknown names are proved; return_energy is proved for lp, ad3, ad3+ and ogm and proved to be ignored by qpbo, unary and max-product. |
| C61 | Negativity-constrained weights are nonpositive | OneSlack, NSlack, QP | rows of the QP | proved |
| C62 | Model size inference from data | Init | case analysis; distinct labels counted by a finite set | partial: holds for labels without gaps; counts distinct labels and looks only at the first sample |
| C63 | Class weights | Init | case analysis | partial: lengths are checked; the uniform flag and MultiLabelClf with one label are wrong |
| C64 | Latent-node decoding respects the kind of a node | LatentNode | any weights above the penalty are a witness; bound on the weights for the positive part | partial: false in general because the penalty is finite |
| C65 | Frank-Wolfe checks can be switched off | FrankWolfe | loops never fail; exact characterisation | partial: exact characterisation: training succeeds iff there are samples, max_iter is not 0, the model has no rescale_C, and check_dual_every is not 0 or batch mode is used; so the claim fails for check_dual_every=0 in block-coordinate mode |
| C66 | Stopping without violated constraints | Subgradient | invariant over a pass | partial: online mode; false for mini-batches |
| C67 | Cutting-plane training returns a result | OneSlack, NSlack | no QP means an unbound variable, for all data; positive part by success of every step | partial: false: UnboundLocalError whenever no QP is solved; proved for both learners: this is the only exception, and the exact condition for it on fresh learners and for warm_start='soft' |
| C68 | cache_tol has its documented effect | OneSlack | two runs with different settings are equal (bisimulation) | partial: false: numbers and None are ignored; for cache_tol=auto the effect is proved |
| C69 | Sign-constrained training is optimal | OneSlack | concrete run with an exact solver | partial: Optimality among sign-constrained weights fails (the dual is restricted instead of the weights; C69_violated is a concrete run). What holds: the weights satisfy the constraint and the reported duality gap bounds their distance from the best constrained weights. |
| C70 | Given constraints as a warm start | NSlack | first access fails for all data | partial: False for fresh learners and for other constraint lists (both exceptions are proved for all data). What holds: constraints given to a fitted learner are accepted if there is one and, with pruning, the counters fit them; in particular the learner's own constraints_ after a fit. |
| C71 | primal_objective_curve_ of NSlackSSVM | NSlack | concrete run | partial: false; the last entry alone is the primal objective; C116_n_slack says what the others are when there is one batch |
| C72 | inactive_window means consecutive inactivity | NSlack | concrete run | partial: False: the counter is never reset. What holds: the working sets are exactly those of a machine that removes a constraint once its total number of inactive programs exceeds inactive_window, consecutive or not; a constraint is never removed while active (C43). |
| C73 | Typed instance check | Typed | the checks seen by `zip` | partial: the arrays that the check sees are checked exactly; surplus arrays are never looked at |
| C74 | Typed loss augmentation | Typed | offsets, sums of indicators | proved |
| C75 | setInferenceException | Typed | the flag is not an input of inference | partial: false: the flag has no effect |
| C76 | One node type is EdgeFeatureGraphCRF | Typed, EdgeFeature | equality of functions on every instance | proved |
| C77 | Installed inference methods and the default method | Dispatch | induction over the list of names | proved: Packages are parameters (importable or not); assumes that ad3 returns one column per state and that the LP solver solves the trial problem. |
| C78 | Logical constraints are honoured or rejected | Dispatch | keyword dictionaries; independence of the constraint argument | partial: Rejected by ad3 and max-product, forwarded by ad3+; lp, qpbo, ogm and unary ignore constraints (proved). |
| C79 | Discretisation error of qpbo | Dispatch | rounding error of one entry times number of terms | partial: Bound and exactness on multiples of 1/1000 proved for an exact integer solver; exactness in general refuted. int32 overflow is not modelled. |
| C80 | Base learners of LatentSSVM | LatentSSVM.fit over the four learners as base learners (Model/LatentBases) | generic induction over the outer loop with an invariant of the base learner; per learner the characterisations of C67, C70, C120 | partial: refuted for FrankWolfeSSVM and StructuredPerceptron; for SubgradientSSVM and NSlackSSVM without pruning it is characterised exactly when fit returns, for OneSlackSSVM (without inference cache) fit returns if there is something to learn; NSlackSSVM with pruning can only raise UnboundLocalError or ValueError (all constraints pruned) |
| C81 | SubgradientLatentSSVM steps along subgradients of the completed risk | SubgradientLatent | invariant over blocks and passes | proved: for models without rescale_C, with exact loss-augmented inference and completion |
| C82 | Objective of SubgradientLatentSSVM | SubgradientLatent | as C30 for completed labels; witness | partial: holds if the loss of a label is the loss of its completions; refuted for LatentGraphCRF |
| C83 | n_jobs of SubgradientLatentSSVM | SubgradientLatent | case analysis | partial: exact characterisation: 1 and -1 work (C120_subgradient_latent, C81_fit describes these runs); every other number raises AttributeError |
| C84 | Converged loopy max-product is locally optimal | MaxProd (loopy) | reparametrisation by messages; a subgraph with at most one cycle per component is oriented so that every node pays for one edge | proved: exact arithmetic; the margin and delta are those of the messages at return |
| C85 | Batch Frank-Wolfe training converges at rate 1/t | FrankWolfe | descent lemma on the dual, induction on 1/(t+2) | proved: exact arithmetic, fresh learner, exact loss-augmented inference; both step rules |
| C86 | Block-coordinate Frank-Wolfe training terminates by tolerance | FrankWolfe | every pass with a large gap increases the dual; counting argument | proved: exact arithmetic, fresh learner, line search without averaging, every pass a permutation of the samples |
| C87 | One-slack cutting-plane training terminates by tolerance | OneSlack, QP | every added constraint increases the optimum of the dual by a fixed amount | proved: exact arithmetic; fresh uninterrupted fit; the QP solver succeeds in the first attempt |
| C88 | Training a ChainCRF end to end | Instances (GraphCRF as learner model) | C01 shows that max-product is an exact solver over label sequences; Lemmas/GraphOutputs lifts this to the hypotheses of C52, C86, C87 | proved: exact arithmetic; for one-slack: fresh uninterrupted fit, exact QP solver, inactive_window=0; returning is proved for two or more states and positive class weights |
| C89 | Sizes of the other model classes after construction and initialisation | InitMore | case analysis over given and derived sizes; sizes compared with the definitions of the features | partial: consistency is proved for every class; the documented meaning of constructor arguments fails for LatentDirectionalGridCRF (neighborhood) and EdgeFeatureLatentNodeCRF (n_features, symmetric indices) |
| C90 | The binary SVM finds the hyperplane of maximal margin | SVM, QP | pairwise exchange of multipliers gives the optimality conditions; an intercept between the two kinds of multipliers; complementary slackness and weak duality; witnesses | partial: exact arithmetic and QP solver; the weights are optimal if the cut-off 1e-5 drops no positive multiplier, the intercept if moreover no support vector is at the bound; otherwise false |
| C91 | Training a GraphCRF on arbitrary graphs end to end | Dispatch, LP, Instances, OneSlack, FrankWolfe | existence of exact rational LP and QP solvers by descent over faces; inference through the dispatcher is optimal over the local polytope; general training theorems | proved: exact arithmetic, exact QP and LP solvers (shown to exist), fresh uninterrupted fits |
| C92 | Caching works with relaxed inference | OneSlackSSVM.fit with inference_cache, constraint_equal | congruence of the loop in the comparison function on the outputs that occur, then the characterisation of C67 | partial: false for fractional labellings of models with one node type: the iteration raises TypeError in the described situation. What holds: if no comparison of outputs that loss-augmented inference returns for training samples fails - always so for discrete labellings and for models with several node types - fit with a cache of any size returns if and only if it returns without cache. |
| C93 | N-slack cutting-plane training stops near the optimum | NSlack, QP, Instances | exact solutions of the QP characterised by values of the primal; each added constraint raises the dual value; sums over one pass bound the slack of every sample; growth of the dual value bounds the number of passes | proved: exact arithmetic; exact QP solver that succeeds in the first attempt (shown to exist), uninterrupted fit, fresh or (C93_given, C93_resumed) on given constraints that hold for the data |
| C94 | N-slack training only discards known constraints | NSlack (plainEq, checkBad) | case analysis; concrete training run for the violation | partial: proved for label arrays; false for tuples of marginals |
| C95 | Synthetic images: labels and features | Datasets (all generators) | Hoare-style rules for programs that draw from a tape; invariants of the loops | proved: random numbers are a parameter |
| C96 | Synthetic images: the generators return | Datasets | rules for total programs; the redrawing loop: no accepted position exists / a fair tape hits one | partial: false for crosses in small images; proved otherwise |
| C97 | Synthetic images: shapes, and bars | Datasets | invariants of the loops; counting of distinct labels | partial: shapes are proved; generate_bars fails if label 2 is drawn and label 1 is not; the exact condition is proved without noise |
| C98 | Synthetic images: fixed patterns | Datasets | case analysis on the pattern, first maximiser | proved: the normal random numbers are a parameter |
| C99 | LP inference is exact on forests | LP, MaxProd (search tree) | dynamic-programming messages along the search tree give a dual solution of the same value; bonus potentials for the states in the support; concrete fractional optima | partial: value and single states are exact; the returned labelling is a best one if the best labelling is unique, otherwise false (violation proved); acyclicity is needed (proved) |
| C100 | Training with relaxed inference is exact on forests | LP, Dispatch, Instances, OneSlack, FrankWolfe | on forests the hinge losses over labellings and over the local polytope agree (C99), so C91 is about the exact risk | proved: exact arithmetic; contracts of the solvers are hypotheses |
| C101 | Subgradient training approaches the minimum of the risk | Subgradient | incremental subgradient descent on a strongly convex function: per-pass recursion for the squared distance, with the drift within a pass bounded by the slopes; averaging by convexity; explicit two-class problem for the violations | partial: proved for one job, batches of equal size and no early stopping; with several jobs the limit is the minimum of another risk (proved, with an example), with break_on_no_constraints training can stop anywhere (example) |
| C102 | When subgradient training raises | Subgradient | case distinction over the modes, induction over the passes | proved: mini-batches for models with the default batch methods |
| C103 | Inference by linear programming is exact for attractive potentials | LP, Dispatch, GraphCRF | threshold rounding: the labellings at the thresholds k/N of a common denominator N score on average at least as much as the point of the polytope (monotone couplings are optimal for Monge potentials); the first-maximum rounding is the threshold 1/2 | proved: optimality of the solver is a hypothesis; the last theorem shows that rounding needs two states |
| C104 | Integral marginals of relaxed inference are right (persistency) | LP, Dispatch, GraphCRF | moving a little mass from the overridden labelling to the given one stays in the local polytope and changes the objective by a multiple of the difference of the scores | proved: optimality of the solver is a hypothesis |
| C105 | Training a MultiClassClf solves the Crammer-Singer problem | Unstructured, OneSlack, NSlack, FrankWolfe | the hinge of the risk is the fold of maxima in the specification; then C87, C93 and C86 with bounds on the features of a MultiClassClf | proved: exactness of the QP solver is a hypothesis |
| C106 | All learners find the same weights | Learner, OneSlack, NSlack, FrankWolfe | the objective is strongly convex: at the midpoint it is lower than the mean by |w - v|^2 / 8, and both are near-optimal | proved: Trained lists the settings of the three learners; exact loss-augmented inference and QP solver are hypotheses |
| C107 | Subgradient training converges to the one minimiser of the risk | Subgradient, Unstructured, GraphCRF | existence: the risk is the minimum of a quadratic program with finitely many rational constraints, which is attained at a rational point (Model/QP); uniqueness and distance: strong convexity; rate: C101 | proved: one job; batches of equal size |
| C108 | Training a BinaryClf solves the linear SVM problem | Unstructured, BinaryInstance, OneSlack | two labels, case distinction on the sign of w.x - y; the violations are runs with an exact QP solver, evaluated by the kernel | partial: off the margin everything holds; what happens on the margin is characterised and violates the claim |
| C109 | The perceptron learns separable data with a BinaryClf | Unstructured, BinaryInstance, Perceptron | instance of the mistake bound C52: inference of a BinaryClf is exact over the two labels | proved |
| C110 | All four learners minimise the regularised risk of any exactly solvable model | Learner, OneSlack, NSlack, FrankWolfe, Subgradient | combination of C67 (fit returns), C87, C93, C86, C104/C107 (what it returns), for a training problem stated once | proved: the conditions on the constructor parameters are part of the definitions OneSlackTrains, NSlackTrains, FrankWolfeTrains, SubgradientTrains |
| C111 | Training an EdgeFeatureGraphCRF minimises its risk | EdgeFeature, EdgeInstance, Dispatch, MaxProd, learners | score of an output = weights times joint feature, also for marginals; loss augmentation adds the Hamming loss; then C110 | proved: inference methods are assumed to solve what they are documented to solve; for max-product on chains this is C01/C02 |
| C112 | Learned weights are combinations of differences of joint features | Learner, OneSlack, NSlack, FrankWolfe, Subgradient, Perceptron, EdgeInstance, Instances | any linear space that contains the differences is invariant under every step of every learner (Lemmas/Span); take the space of all combinations | proved: for models without rescaled joint features; FrankWolfeSSVM and SubgradientSSVM start without weights from an earlier fit |
| C113 | Training an EdgeFeatureGraphCRF with symmetric and antisymmetric features minimises its risk | EdgeFeature, EdgeInstance, learners | a model that symmetrises the weights before inference is exact for all weights; by C112's invariance the learners never see a difference (Lemmas/Span, Agree); then C110 | proved: SubgradientSSVM may continue from earlier weights if these respect the declared symmetries |
| C114 | Training a MultiLabelClf minimises its risk | MultiLabel, MultiLabelInstance, learners | joint feature and potentials written with marginals; loss-augmented inference maximises over the outputs; then C110 | proved: class weights are indexed by the states 0 and 1, so at least two entries are needed (a MultiLabelClf has one entry per label) |
| C115 | GridCRF and DirectionalGridCRF score image labellings as described and their training minimises the risk | Grid, EdgeFeature, GridInstance, learners | sums over the listed edges become double sums over rows and columns; a learner for a model is pulled back along the map from images to graphs, then C110 | proved: DirectionalGridCRF only with the 4-neighbourhood (the 8-neighbourhood fails, see C22) |
| C116 | What the training curves contain | Subgradient.fit, SubgradientLatent.fit, OneSlack.fit, NSlack.fit with computeTrainingLoss and objectivePrimal; spec Verif/Spec/Curve.lean | every loop is an instance of one loop with early exit (Lemmas/Trace.lean), whose runs are traces; the loop does not depend on max_iter, so states in between are results of fit with smaller max_iter; the curves grow by one entry per step | proved: without interrupts and without switch_to; one-slack from scratch, n-slack without given constraints |
| C117 | Malformed input is reported, and by which exception | GraphCRF, EdgeFeature, LatentNode, InitMore, Subgradient.fit, Dispatch.dispatch | the checks come first: unfold up to the check that fails | proved: labels and node numbers are natural numbers: negative indices are not modelled |
| C118 | Constructors store what they are given, and sizes may be left to initialize | Init.efConstruct/efInitialize, lgConstruct/lgInitialize, lnConstruct/lnInitialize, mcConstruct/mcInitialize | closed forms of initialize up to uniform_class_weight, depending only on given index lists and effective class weights; construction changes class weights only to what initialize would choose | partial: proved but for the attribute uniform_class_weight, which differs (C118_violated_uniform) |
| C119 | The reported duality gap is a certificate | OneSlackSSVM.fit and NSlackSSVM.fit with all options, solver only assumed to return feasible points | lower bound of every dual value (C39, C44) combined with the contents of the curves (C116) | proved: With inference_cache the model must not rescale C (rescale_C=False), because cached constraints are otherwise scaled wrongly (C39). |
| C120 | When the subgradient learners return | SubgradientSSVM.fit, SubgradientLatentSSVM.fit with all options | case analysis of one pass (even slices exist iff data and size are positive), induction over the iterations | proved |
| C121 | LatentSSVM over the cutting-plane learners lowers the latent objective up to the tolerance | `LatentSSVM.fit`, `OneSlackSSVM.fit` (soft warm start), `NSlackSSVM.fit` (given constraints) | The soft warm start is shown equal to a fresh run with prepended curves by induction on the loop. For NSlackSSVM the constraints recomputed for new completions hold for them, and C93_given bounds the dual gap; an ignored output without loss is itself a completion, for which the hinge is small. The general theorem takes any base learner whose weights are nearly optimal for the latent objective. | proved: exact arithmetic, exact QP solver (shown to exist); inactive_window=0; NSlackSSVM: outputs without loss are the completions of the label |
| C122 | A warm start resumes training where it was left | fit with warm_start of Model/OneSlack and Model/Subgradient; the learner object carries max_iter | the loop splits at any iteration (loop_split, oneslack_split); what a warm start rebuilds (gradient, tolerance, cached sums) is shown not to matter for the later iterations; the failures are computed | partial: SubgradientSSVM: exact for every split without momentum and averaging (both break it). OneSlackSSVM: exact for every split without inference cache and switch_to, as long as the first part did not end by itself; a warm start of a converged learner raises UnboundLocalError. The other learners have no warm start of this kind. |
| C123 | The logger sees every iteration and its checkpoints can be resumed | Model/TrainingLog.lean: the logger calls of each fit with the learner as it is at the call; Model/Logger for SaveLogger | the calls follow the loop by induction; the file contents by C55; resuming by C122's splitting lemmas applied at the state of the checkpoint | partial: Order and number of the calls for OneSlackSSVM, NSlackSSVM (both without switch_to), SubgradientSSVM, FrankWolfeSSVM, LatentSSVM; resuming from a checkpoint after a crash for OneSlackSSVM and SubgradientSSVM under the conditions of C122. LatentSSVM makes no final call, so the file need not hold the trained learner; the checkpoints of a first NSlackSSVM training have no constraints_. |
| C124 | Separable data: training reproduces the training labels | Spec/Separable, Trained of C106, Learner.predict/score | The hinge loss of a sample bounds the loss of its prediction and every violation; near-optimality compares the risk of w with that of u, which is |u|^2/2 if u separates. | proved: Weights come from `Trained` of C106: a run of one of the three learners whose iteration bound suffices for its tolerance. Exact arithmetic and exact QP solver as in C106. |
| C125 | predict under constraints | Model/PredictConstraints (predict, utils.inference, batch_inference, signatures of the model classes), Model/Dispatch | Keyword arguments that differ only in relaxed=None/False give the same dispatch (a relation preserved by every branch); then both paths of predict are the same comprehension over the zipped lists. | partial: zip drops the samples for which there are no constraints, so there may be fewer predictions than samples (C125_violated_length). Falsy constraints for a grid model raise TypeError with n_jobs=1 and are ignored with other n_jobs (C125_violated_jobs). The rest is proved; if several parallel tasks raise, which exception is seen is not modelled. |
| C126 | switch_to and the inference method of the model | Model/SwitchTo (the attribute inference_method as input and output of fit) over Model/OneSlack and Model/NSlack | loop_end of the two learners: without interrupts the loop ends by exhausting max_iter or after switching. | partial: Proved except for repeatability: the method is not restored, so later trainings are those of a model with method t and no switch_to (C126_later) and may give other weights (C126_violated_refit). |
| C127 | LatentSSVM exposes the attributes of its base learner | Model/LatentFacade: LatentSSVM object as base attributes plus number of outer iterations, one definition per property getter and setter, predict, predict_latent | laws of attributes (Spec/Attribute) by computation; prediction by induction on the samples; fit ignores the weights it starts from by congruence of the first call of the base learner | partial: Proved for model, w, n_jobs, verbose and for prediction. False for C as stated: the setter stores the value in base_ssvm.w; the C127_violated_ theorems say exactly what happens instead (C unchanged, prediction raises, training as if nothing had been assigned). |
| C128 | Training a LatentGraphCRF | Model/LatentInstance.lean puts the functions of Model/LatentGraph.lean behind the interfaces of SModel and LModel; Spec/LatentGraphs.lean says which states a label owns, what a completion is and when two latent labellings differ in a label | C121 generalised to exact completion at the weights that are reached; near-optimal weights have norm at most rho because the zero vector has risk at most the number of vertices; for such weights switching a state of a foreign label to the right one raises the penalised score, so latent is exact | proved: LatentSSVM on LatentGraphCRF, instantiating C121 with the model code of LatentGraphCRF: C128_problem says in terms of graphs which problem is solved, C128_ad3 and C128_chain discharge the hypothesis on inference, the other two are the claim for the two base learners. The condition on the size of the features is what makes the constant 100 of `latent` large enough for all weights that training can reach; without it `latent` can raise (C34). |
| C129 | Latent states of images | Model/LatentGrid.lean follows latent_grid_crf.py on top of LatentGraph, GridCRF and DirectionalGridCRF; Spec/LatentImages.lean speaks of images indexed by row and column | the flat functions are exact (Lemmas/LatentDecode, for potentials shared by all edges and for one table per edge); a pixel has at most 4 or 8 neighbours, which bounds what couplings can outweigh; flat and two-dimensional indices are in bijection | proved: Both classes; the scores are those of Spec/Grid (sums over pixels and pairs of neighbouring pixels). The neighbourhood of 8 is broken for the directional class (C89_violated_latent_directional), so its theorems are about 4. |
| C130 | Prediction and score of the pairwise models | Spec/Prediction.lean states PredictsBest and ScoresShare for any model behind the learner interface; losses, maximal losses, predict and score are those of the models used for training | inference maximises the score of the potentials, which is w.joint_feature (value_output, edge_value, symmetric weights); the share of wrong weight is between 0 and 1 as each term is; images are pulled back along the map to graphs | proved: The condition on the inference method is met by an exact AD3 on all graphs and by max-product on chains (C128_ad3, C128_chain, ad3_decodes_edges; see the examples). |
| C131 | Training of images with hidden states | Model/LatentGridInstance.lean puts both classes behind the interface of LatentSSVM; samples, labels and states are images as in the code | ImageLatent collects what C115 (scores), C129 (latent, loss-augmented inference, loss, initial states) and the feature bounds give; from it the hypotheses of C121_one_slack and C121_n_slack follow once for both classes | proved: The condition on the inference method is met by an exact AD3 (see the example). |
| C132 | Training a typed CRF minimises its risk | Model/TypedInstance.lean puts NodeTypeEdgeFeatureGraphCRF behind the learner interface; Lemmas/TypedTraining.lean has labellings as choices of states, exact solvers, and loss-augmented inference | C21 (features times weights is the energy), C74 (loss augmentation adds the loss) and C38 (decoding) give exact loss-augmented inference and bounds on features; C110 does the rest | proved: n-slack needs a node whose label weighs at least 1e-5 (the code drops smaller slacks). Relaxed solutions of AD3 are excluded by the hypothesis on the solver; exact_typed_exists shows it can be met. |
| C133 | First states of hidden nodes | Model/LatentNodeInit.lean: kmeans_init with adjacency counts, normalisation, the checks and their exceptions; k-means is a parameter that returns the prediction function | Spec/NeighborShare.lean states shares over lists of neighbours; the row sums of the sparse product are counts of that list (induction over edges) | partial: Holds for samples with hidden nodes. For n_hidden = 0 the slice [-n_hidden:] is the whole matrix, and every visible node gets a hidden state on top of its label (C133_violated_without_hidden). |
| C134 | Training models with hidden nodes | Model/LatentNodeInstance.lean puts the functions of Model/LatentNode.lean and Model/LatentNodeInit.lean behind the interfaces of SModel and LModel; outputs are labellings with labels at visible and hidden states at hidden nodes | cutting-plane iterates have norm at most sqrt(2 C L), so the model can be exchanged outside that ball for one with exact inference without changing any run (Lemmas/Ball, Lemmas/BallLatent); inside the ball switching a forbidden state to an allowed one raises the score, so inference returns legal labellings (Lemmas/HiddenNodes) | proved: LatentSSVM on LatentNodeCRF: C134_latent_node_problem says in terms of graphs with hidden nodes which problem is solved, the next two are the claim for the two base learners. C134_one_slack and C134_n_slack are general: loss-augmented inference need only be exact for weights in a ball that training provably never leaves. |
| C135 | Training models with hidden nodes and edge features | Model/LatentNodeInstance.lean puts the functions of Model/LatentNode.lean behind the interfaces of SModel and LModel; outputs are labellings with labels at visible and hidden states at hidden nodes | as C134, and the weights stay in the linear space of weights with the declared symmetries, so the model can be exchanged outside this space as well without changing any run (Lemmas/SpanLatent); there w * joint_feature is the score that inference maximises (C20) | proved: LatentSSVM on EdgeFeatureLatentNodeCRF: C135_edge_latent_node_problem says in terms of graphs with hidden nodes and edge features which problem is solved, the next two are the claim for the two base learners. C135_one_slack and C135_n_slack are general: inference need only be exact for weights in a ball and in a linear space that contains all joint features. |
| C136 | Predictions and score of latent models | LatentSSVM.predict and score on the instances of Model/LatentInstance, LatentGridInstance and LatentNodeInstance | inference finds a labelling of maximal score (C129, C130); for models with hidden nodes the penalty of forbidden states outweighs everything else if weights are short, so the best labelling is legal; the score is arithmetic on lists of losses | proved: One theorem per class, each about predict_latent, predict and score. Best completions are stated with the scores of graphs and images of Spec; OwnsState says which label a state belongs to. |
| C137 | Relaxed outputs of latent models | LatentGraph.continuousLoss, LatentGrid (reshapeY, losses, inference), LatentNode.continuousLoss and augment, joint features of flat marginals | the fold over states sums the mass per label; loss augmentation is linear in marginals, so the objective of the backend is score plus mass; reshaping and flattening are inverse to each other entry by entry | proved: otherMass and pixelMass of Spec are the mass on states of wrong labels; IsRelaxedImage are images of states and points of the local polytope of an image. The directional class is covered with 4-neighbourhoods. |
| C138 | timestamps_ holds the total training time, in step with the curves | Timing: for every learner the appended times, driven by the loops of the learner models; a clock is an arbitrary sequence of readings | by induction over the loop, the number of readings equals the number of entries added to the curves; n appended readings give totalTimes in closed form | partial: Everything is proved for a first fit, and for continued training of SubgradientLatentSSVM. The last sentence is false for the others: OneSlackSSVM and NSlackSSVM count the pause between the calls as training; SubgradientSSVM makes all earlier entries negative and adds the time of day to the new ones. The _partial theorems say exactly what is stored. |
| C139 | plot_learning draws the curves of every trained learner | Plot: attributes read by plot_learning, numpy masks and slices, matplotlib's length check; Timing for the attributes after fit | an invariant over histories of fits relates the lengths of curves, flags and timestamps; the mask, slice and zip operations are computed entry by entry; the loss slice has the right length iff show_loss_every does not divide the number of iterations | partial: Proved for one-slack, n-slack and Frank-Wolfe learners. Missing because false: a structured perceptron has no objective_curve_ (AttributeError); a subgradient learner without a complete pass raises IndexError; after an interrupt of the one-slack QP the curves differ in length (ValueError); losses are drawn at their index, on an axis labelled as time, whenever show_loss_every divides the number of iterations, so always for show_loss_every=1. |
| C140 | Predictions and score of typed CRFs | Typed, TypedInstance, Learner.predict and score | the potentials handed to the solver have the energy of weights times joint feature (C21), so the decoded solution is optimal; flat labels and states by type are in bijection (C36), losses and max_loss are sums over types and nodes | proved: AD3 is a parameter that is assumed to solve its problems (such a solver exists). The by-type statements need node features for all types (None raises in unflattenY, C36). |
| C141 | Interrupting StructuredPerceptron.fit | Interrupt (percPass, percLoop, percFit), Perceptron | the loop up to the interrupt is the loop of fit with fewer epochs; the online invariant of C50 (weights and running mean after t visits) is carried through the started epoch | partial: Holds without averaging and once averaging has begun. The code violates it otherwise: with average=-1 an interrupt during the first prediction of an epoch (in batch mode, during any) leaves zero weights, as does an interrupt before averaging begins. Interrupts arrive while inference runs. |
| C142 | Interrupting SubgradientSSVM.fit | Interrupt (subSteps, subLoop, subFit), Subgradient | the interrupted loop is the uninterrupted one for `stop` iterations followed by a prefix of the steps; the descent invariant of C48 holds at every step | partial: All but the count of timestamps is proved; the code violates it for interrupts while the objective is computed (one timestamp too many). Resumption under the conditions of C122. Interrupts arrive while inference runs; an interrupt of the final objective after the loop is not caught by the code and not modelled. |
| C143 | Interrupting FrankWolfeSSVM.fit | Interrupt (fwBatchLoop, fwBcLoop, fwFit), FrankWolfe | the interrupted loop is the loop of fit with fewer iterations followed by a prefix of the visits; the invariants of C45 to C47 and C49 hold after every visit | partial: Proved for interrupts after the first iteration. The code violates it in the first iteration, where fit fails with IndexError. Interrupts arrive while inference runs. |
| C144 | Interrupting SubgradientLatentSSVM.fit | Interrupt (latSteps, latLoop, latFit), SubgradientLatent | the interrupted loop is the loop of fit with fewer iterations followed by a prefix of the steps of a pass; the descent of C81 is proved for lists of blocks | partial: The objective needs the loss of a label to agree with that of its completions (C82). The code violates the claim on timestamps for interrupts while a step is prepared: there is one too many (C144_violated_timestamp). |
| C145 | A warm start of SubgradientLatentSSVM resumes training | SubgradientLatent, Interrupt | two loops whose states agree up to grad_old end alike; a loop not left early splits; C144 turns the interrupted training into a shorter one | partial: Proved without momentum and averaging, with show_loss_every dividing a. The code violates it with momentum or averaging. The objective curve has one entry more, the final objective of the first training. |
| C146 | Memory safety of the compiled functions | Memory (csRun, laRun, vRun), Init, InitMore | a guarded loop is a pure loop if all guards hold and an error otherwise; the pure loops are those of the models of C01, C11, C14; the labels of a training set with k different labels fill 0, ..., k-1 if none lies outside | partial: The functions are characterised completely. Their callers are safe exactly if the labels are 0, ..., k-1 (MultiClassClf, GraphCRF, ChainCRF) or there are two labels (MultiLabelClf); initialize does not check this, so labels 1 and 2, or a single label, lead outside the arrays. For viterbi called by inference_max_product see C03_violated_no_edges. |
| C147 | Batch training depends on the samples, not on their order or multiplicity | OneSlack, FrankWolfe, Subgradient, Perceptron | sums over the repeated data are k times the sums over the data; a simulation relates the two runs, in which the caches of the samples are copies of each other | proved: Exact equality of the runs, in exact arithmetic. The comparison of outputs used by the cache may raise one kind of exception (C147_constraint_equal: it does). |
| C148 | Numbering of nodes, order of edges and names of states do not matter | `joint_feature` of `GraphCRF` and `EdgeFeatureGraphCRF`, `loss`; specification of moved rows, edges and labels in `Spec/Symmetry.lean`. | Case analysis over the checks gives the value in closed form; sums over nodes and edges are reindexed by the permutation, symmetrised counts do not see the direction of an edge; for edge features equality of all scores gives equality of entries. Renamed weights are defined through the (symmetrically expanded) pairwise matrix, and the norm of a packed symmetric matrix is expressed by its full matrix. | proved: Whole result including exceptions. C148_directed_flip shows that turning edges round is not allowed in directed models. Label arrays; tuples of marginals are not covered. |
| C149 | Grid models refuse images with the wrong number of features per pixel | `Model/GridCalls.lean`: the methods of the grid models on images, composed of the reshaping of the features, the edges of the image and the methods of `GraphCRF`/`EdgeFeatureGraphCRF`. | The reshaped array has as many entries as the image, so the number of rows differs from the number of pixels; the label check, the reading of labels in the loss augmentation, or the final reshaping fail accordingly. | partial: joint_feature always raises ValueError. inference is refused at the latest when the result is reshaped, if the method returns one label per row. Violated: loss_augmented_inference reads beyond the label array when there are too many features per pixel (divisible case); with too few the inference method gets edges to nodes that do not exist. |
| C150 | Units of features and losses do not matter for training | `Spec/Units.lean`: one model in other units than another one. The learners are those of `Model/Perceptron`, `Subgradient`, `FrankWolfe`, `OneSlack`, `NSlack`; the solver of quadratic programs is any exact and complete one. | Simulation: every step preserves that weights are multiples by a/b, constraints by (b, a), objectives by (a/b)^2. For the quadratic program, scaling maps feasible points to feasible points and scales the objective, and optimal dual points give the same weights because the objective is a norm of the weights plus a linear term. | partial: FrankWolfeSSVM only without line search, or with line search if a = 1 (batch) or a = b (block-coordinate): the constant 1e-15 has units (C150_violated_line_search). OneSlackSSVM from scratch with inactive_window=0, check_constraints=False, tol <= 1 and a*tol <= 1 (last_slack_ starts at -1), no switch_to. tol is in units of losses for OneSlackSSVM and batch Frank-Wolfe, in units of the objective for block-coordinate Frank-Wolfe. NSlackSSVM with inactive_window=0 and C >= 0, only if losses keep their units (a = 1): the threshold 1e-5 for slacks has units (C150_violated_n_slack). |
| C151 | Printing a model never fails | `Model/Repr.lean` over the states of `Model/Init.lean` and `Model/InitMore.lean`. | Case distinction on which sizes are known; what `initialize` leaves behind is C89. | partial: Holds for every class that inherits the form of CRF, and for the others exactly if all sizes are known, which is so after initialize; before that printing raises TypeError (C151_violated_fresh, C151_violated_latent). |
| C152 | Images of words | `Model/Helpers.lean`: `np.hstack` and `reshape` on index functions. | Induction over the letters and over the words. | proved: The content of the pickle is arbitrary. |
| C153 | solve_lp is relaxed inference with one matrix for all edges | `Model/Helpers.lean`, `Model/LP.lean`: the solver of linear programs is a parameter. | Both functions hand the same program to the solver; the bound is C07. | proved |
| C154 | Graphs of edges and lines of grids | `Model/Helpers.lean`. | Induction over the edges. | proved: Vertices are natural numbers. matplotlib is not modelled: the theorem is about the positions passed to set_xticks and set_yticks. |
| C155 | Labels that are no states are reported | `Model/SignedLabels.lean`: labels are integers, and every use as an index follows numpy's rule for negative indices. | The one-hot encoding equals that of the labelling where each label is replaced by the state it is taken for; for edge features arithmetic of the flattened pair index; inner products with suitable weights for the joint feature of no labelling. | partial: Labels out of reach raise IndexError, labels that are states give the joint feature of the other models; negative labels are characterised exactly. The edge-feature characterisation is for models without symmetric or antisymmetric features. |
| C156 | Training is stable | The learner models of C86, C87 and C93 through the predicate `Trained` of C106; `Spec/Stability.lean` for the total hinge loss. | Strong convexity at the midpoint for both problems; the terms of common samples cancel; hinge losses are Lipschitz in the weights. | proved: SubgradientSSVM is not among the learners of the inductive predicate Trained; for it C107 gives the limit. |
| C157 | The effect of C | As for C156. | The same two inequalities with two values of C; comparison with zero weights. | proved: As for C156. |
| C158 | Perceptron on data that cannot be separated | The perceptron model of C52 (`Model/Perceptron.lean`), online and batch, any rates. | Two invariants carried through the epochs: the product of the weights with u grows by the margin minus what is missed, the squared norm by at most N R2 times the squared rate; Cauchy-Schwarz. | proved: C158_rates states the bound for arbitrary nonnegative rates without square roots. |
| C159 | Without latent states the latent learners are the plain ones | `Model/LatentGraphSL.lean` puts `LatentGraphCRF` behind the interface of `SubgradientLatentSSVM`; the rest are the models of C34, C52, C86. | Simulation of the two training loops step by step; for one state per label the state map is the identity, both branches of `latent` return the labels, and the two loss augmentations agree in range; Viterbi reads its tables in range only. | proved: C159_subgradient and C159_latent_ssvm are for any latent model that behaves like a model without latent states; the others instantiate LatentGraphCRF with one state per label. |
| C160 | A GraphCRF on graphs without edges is a multi-class classifier | `graphModel` and `multiClassModel` (`Model/Instances.lean`), unary inference through `Dispatch.backend`. | The violation of a labelling is a sum over vertices, so its maximum is the sum of the multi-class hinge losses; pairwise weights only cost norm, so setting them to zero is an improvement. | proved: Trained to accuracy eps is the predicate of C106, which covers OneSlackSSVM, NSlackSSVM and FrankWolfeSSVM. |
| C161 | A MultiLabelClf without edges is one binary classifier per label | `multiLabelModel` (`Model/MultiLabelInstance.lean`), unary inference through `Dispatch.backend`, `binInference` (`Model/Unstructured.lean`), `linearSVM` (`Spec/Classification.lean`). | The violation of a 0/1 array is a sum over labels, so its maximum is a sum of hinge losses; replacing one block of weights changes one summand only. | proved: Trained to accuracy eps is the predicate of C106 (OneSlackSSVM, NSlackSSVM, FrankWolfeSSVM). |
| C162 | The snake images are turned into valid instances | `Model/Snakes.lean`: the nine slice assignments, the end point features, `prepareData`; grid edges from `Model/Grid.lean`. | Case analysis over the nine cells of the window; the rest from C31 (grid edges) and C111. | proved: label_binarize of scikit-learn is modelled by its documentation. |
| C163 | The check for snakes and the images without snakes | `Model/SnakeWalk.lean`: walk, check, distortion, augmentation; random numbers as arguments. `Spec/SnakePaths.lean` defines snakes and closed snakes without the model. | Induction on the steps of the walk: its list is the trail of the start cell as long as it meets neither background nor itself. A step changes the parity of i + j, hence closed paths are even. Fewer cells than ten: pigeonhole. | partial: True for nCell=10. For odd nCell a closed path of nCell - 1 cells is taken for a snake. The check in augmentWithNoSnakeImages ignores nCell and looks for ten cells, so below ten nothing is discarded, also not images that still show a snake. |
| C164 | Constraining the weight of disagreement makes prediction of a binary GraphCRF exact | The learners of C61, the graph model of C112, the linear program of C103. | The dual keeps weights combinations of differences of joint features, so pairwise weights add up to zero (C112); with the sign constraint (C61) this gives the Monge inequality, and C103 applies. | proved: QP solver assumed to return feasible points, lp / ad3 optima of the relaxation. |
| C165 | Typed snake data, and renaming the types of nodes | prepare_picture_data, convertToTwoType and swap_node_types of the typed snake example, statement by statement (Model/TypedSnakes); constraints with abstract entries, their loop with a bound on the rounds. | Invariant of the loop that moves slices of labels: the slices written so far are disjoint from the next (blocks are determined by their positions); tables by label are looked up block by block; energies (C21) are re-indexed by the permutation; existence of the weights from injectivity of their layout. | partial: Proved for permutations that are their own inverse (all permutations of two types). The code violates the rest: for a permutation in a circle labels and arrays go different ways (C165_violated_circle) or ValueError is raised (C165_violated_sizes), and the loop over constraints never ends because it appends to the list it runs over (C165_violated_constraints). Besides, the example itself unpacks the three returned values into two names. |
| C166 | A soft warm start of OneSlackSSVM with an inference cache | fit, _constraint_from_cache and _update_cache of OneSlackSSVM with the kept inference_cache_ (Model/OneSlack), and LatentSSVM.fit on top of it. | The invariants of C39, C40 and C87 are stated relative to the curve at the start of the loop; a cache linked to one data set is linked to every data set with the same losses; a soft start shares its first search with a fresh start, so it finds a constraint when that does; the outer loop by C121. | partial: Proved if the admissible outputs cost the same against the old and the new labels, as for the completions of a label in latent models. The code violates the rest: losses in the kept cache belong to the old labels, so that after a change of label training stops with zero weights and an objective above the minimum of the risk (C166_violated_labels). |
| C167 | Graphs side by side in one instance are independent | joint_feature of GraphCRF and EdgeFeatureGraphCRF, loss and continuous_loss, inference with method 'unary', one-slack training with the LP relaxation. | Sums over nodes and edges split at the border between the parts; points of the local polytope of the union are pairs of points of the parts, so the largest violation is a sum; induction over the merges for whole data sets; one-slack training by C91. | proved: C167_connected shows that the absence of edges between the parts is needed. |
| C168 | Only differences between potentials matter, not their scale | viterbi, tree_max_product, iterative_max_product, inference_max_product, inference_unaries, lp_general_graph (program), GraphCRF.inference and loss_augmented_inference, MultiClassClf.inference, BinaryClf.inference. | argmax and max commute with increasing affine maps; invariant for each message passing scheme: messages of the second run are the factor times those of the first, plus a constant per message; on the local polytope the constants contribute a fixed amount. Violation: two nodes, two edges, first round shown up to constants by evaluation, second one by the invariant. | partial: Max-product on graphs with cycles violates it (C168_violated_loopy): messages from edge[1] to edge[0] are reduced by the maximum of the old message instead of the new one, so they carry the constants, and the stopping rule compares absolute changes with 1e-5. C168_loopy_partial: without the stopping rule the labels agree after every number of rounds. |
| C169 | The hard constraints of the snake examples say what they are meant to say | buildConstraints, buildConstraintsFromSingleTyped, convertToSingleTypeX, listConstraints, listConstraints_ATMOSTONE, swapConstraint. | Meaning of the operators on lists of truth values in Spec/Logic.lean; counts of true literals are cardinalities of label classes; pigeonhole for graphs that are too small. | proved: The operators have the meaning of the AD3 documentation, stated in Spec/Logic.lean (the package itself is not modelled). C169_order_matters: the output of an operator is its last variable, so the constraints of listConstraints mean something else once the types are swapped. |
| C170 | Relaxed labellings of models with hidden nodes are scored by the potentials of inference | Relaxed branches of LatentNode.marginals, jointFeature, continuousLoss, eMarginals, eJointFeature; nodeInference, edgeNodeInference, latentNodeModel, edgeLatentNodeModel. | Penalties meet marginals that are zero, so the unary part is the one of joint_feature; for legality of optimal outputs mass on a penalised state is moved to an allowed one (push-forward of marginals stays in the local polytope, Lemmas/Pushforward.lean). | proved: Weights without the declared symmetries: see C20_violated_symmetric. Outputs that are labellings need an edge for EdgeFeatureLatentNodeCRF (C20_violated_no_edges), marginals do not. |
| C171 | A GraphCRF is an EdgeFeatureGraphCRF whose edges all have the one feature 1 | GraphCRF and EdgeFeature models as they are; the translation of instances and weights is part of the specification. | Potentials are computed entry by entry; joint features follow by testing with unit weights; risks agree hinge by hinge, closeness of weights is strong convexity (C156). | proved: For directed=False the scores and predictions agree but the regulariser of the full matrix counts the weights of two different states twice, so learned weights need not. |
| C172 | shorten_snakes keeps exactly the first N cells of the snakes | New model Model/ShortenSnakes of the function, with Python's slices (negative bounds count from the end) and np.where; specification Spec/ShortSnakes. | Minimum and maximum by induction over the list of cells; slices by cases; snakes of the part by translating cells; isSnakePresent by C163. | partial: The part is as claimed when no cell that stays is in the first row or column; otherwise the code returns an (almost) empty part, which C172_violated_first_row and C172_violated_first_column prove for all such images. That the arrays returned are views of the arguments is not modelled. |
| C173 | A MultiClassClf with two classes is a BinaryClf, and the weights of the classes add up to zero | Unstructured models as they are; the two training problems are those of Spec/Classification. | Hinge of two classes computed; parallelogram identity; strong convexity (C156) for closeness; subtraction of the mean over classes for the sum. | proved: The binary side is stated for any solution of the binary problem, because the cutting-plane learners can stop elsewhere with a BinaryClf (C108). |
| C174 | Samples beyond the margin do not matter for training | Learners and models as in C106 and C156; specification Spec/Margin. | Strong convexity of the risk along segments; Cauchy-Schwarz keeps samples beyond the margin for weights nearby; C156 bounds the distance in advance. | proved: C174_trained is about the learners as modelled (C106); the others are about the regularised risk they minimise. |
| C175 | The tree of the multi-label example | Model/ChowLiu; scipy and scikit-learn functions are parameters. Specification Spec/SpanningForest: spanning forest of least weight. | Every forest of dependent pairs extends to a spanning forest (adding an edge between two components makes no cycle), so the least weight of the negated informations is the largest sum over all forests. Existence of a least one: finitely many forests. Prediction from C02. | partial: Everything about the tree is proved, with scipy's minimum_spanning_tree specified as returning a spanning forest of least weight of the nonzero entries, and mutual information as symmetric and nonnegative. Prediction is optimal if the best set of labels is unique; otherwise each decision is that of some best set (C02). If all labels are independent the tree has no edges and max-product raises. |
| C176 | Generated snakes | `Model/GenSnakes.lean`: board, loop over directions, loop over cells, drawing, dictionary of known snakes; the draws are parameters; a list of attempts stands for the endless loop, `none` for not finished | invariant of the loop over cells: the marked pixels are the cells so far, and the distance from the border is at least the number of cells left plus one; drawing by a lemma about writing to different places; label arrays determine the cells up to a shift, the common first cell fixes the shift | proved: genSnakes of the typed snake example, with the random orders of the directions as parameters; that the loop over attempts ends is not claimed (it depends on the draws, and C176_violated_endless shows a case where it cannot). random.shuffle of range(4) is modelled as in Python 2. C176_violated_labels and C176_violated_endless are the limits named in the statement. |
| C177 | A GridCRF is a DirectionalGridCRF with the same weights for both directions | `Model/EdgeFeature.lean`, `Model/GraphCRF.lean`, `Model/GridInstance.lean`: both classes as they are | the tied weights make every row of the pairwise weights the matrix of the GridCRF; the edge features of an edge are one-hot, so their product with the weights is that matrix; the rest by the value lemmas of C13 and C111 | proved: 4-neighbourhood; with 8 neighbours DirectionalGridCRF does not work (C22_violated_directional_8). |
| C178 | Overviews of snake images | `Model/PlotSnakes.lean`: the pages as arrays, with the numpy rule for assigning to slices; the page loop with its running offsets | induction over the images of a page with the offsets as quotient and remainder of the tile number; tiles do not overlap because every image fits; the straight walk through C176_every and its portrait | partial: The layout is proved for images that fit their tiles; generated images need not fit (C178_violated_straight), and then the call fails in the last column. The drawing by matplotlib is not modelled. |
| C179 | A MultiLabelClf is an EdgeFeatureGraphCRF on the graph of its labels | `Model/MultiLabel.lean`, `Model/EdgeFeature.lean`: both classes as they are | one-hot blocks select the weights of a label, one-hot edge features the weights of an edge; the difference to half the differences is a constant because marginals of a node add up to one | proved: At least one edge where the code of EdgeFeatureGraphCRF needs an edge feature (potentials, inference); without edges see C161. |
| C180 | The order of the features does not matter for training | `Spec/Reordered.lean`: one model is another one with its features in another order; learners as in C150. | The simulation of C150 with weights in another order and factors one; permuting the columns permutes each block of unary weights and leaves pairwise weights alone. | proved: OneSlackSSVM and NSlackSSVM with exact solvers of the quadratic programs, from scratch, inactive_window=0 (OneSlackSSVM also check_constraints=False and tol <= 1), no switch_to. |
| C181 | Lists shuffled together stay together | `Model/SnakeWalk.lean`: `zip(*args)` as rows up to the shortest list, `random.shuffle` as an order of the positions | rows of rows are columns; the order is a permutation of the range | proved: random.shuffle is a parameter: any permutation of the positions. Lists of one element type. |
| C182 | Copies of a feature get the same weight | Learners and models as in C180. | C180 with the exchange of the two columns: the data are the same, training is a function of the data, so the weights equal their exchange. | proved: OneSlackSSVM and NSlackSSVM under the conditions of C180, without negativity_constraint; OneSlackSSVM with class weights that are not negative. |
| C183 | A LatentNodeCRF without hidden nodes is an undirected GraphCRF | LatentNodeCRF (Model/LatentNode) and GraphCRF (Model/GraphCRF). | The slices of visible and hidden nodes are everything and nothing; nothing is forbidden, so the arrays of potentials have the same entries. | proved: Marginals as output of a relaxation are covered by C183_joint_feature. The inference method may be any function of the entries of the arrays and the edges. |
| C184 | An EdgeFeatureLatentNodeCRF without hidden nodes is an EdgeFeatureGraphCRF | EdgeFeatureLatentNodeCRF (Model/LatentNode) and EdgeFeatureGraphCRF (Model/EdgeFeature, Model/EdgeInstance). | As C183; the products of one-hot rows are the indicators of pairs of states. | proved: On graphs without edges, joint_feature of the EdgeFeatureLatentNodeCRF raises (C20_violated_no_edges). The inference method may be any function of the entries of the unary potentials, the pairwise potentials and the edges. |
| C185 | Order and copies of edge features | EdgeFeatureGraphCRF behind the interface of the learners (Model/EdgeInstance). | The order of the edge features is an order of the rows of pairwise weights, with which potentials stay the same; then C180 and C182. | proved: C185_edge_features states that the two models are related as C180 requires, so C180_perceptron, C180_subgradient, C180_frank_wolfe, C180_one_slack and C180_n_slack apply under their conditions. The method of inference may look at nothing but the entries of the potentials, which is proved for max-product. |
| C186 | The score of a data set is an average | Learner.score, Learner.predict | The score is 1 minus a quotient of two sums over the samples; the sums are invariant under permutations and additive over concatenation, and the mean lies between the parts by nonlinear arithmetic. | partial: All but the last sentence is proved. The code violates the last one for models that inherit batch_loss: zip ends with the shorter list, so labels without an instance count as predicted without loss (C186_violated_lengths). BinaryClf and MultiClassClf compare arrays in batch_loss; what numpy does there for unequal shapes is not modelled. |
| C187 | A ChainCRF without arguments decodes exactly, whatever is installed | ChainInit.chooseMethod, ChainInit.crfInit, ChainInit.graphInit, ChainInit.chainInit, Init.initializeCRF, Dispatch.backend | The constructors are unfolded; the default method makes the back end of the dispatch equal to max-product with its default options, so C14 and C88 apply; sizes by C62. | proved: For GraphCRF the trial of the installed packages must raise nothing but ImportError (the structure Working of C77); for ChainCRF nothing is assumed about the packages. |
| C188 | Integer class weights with rescale_C are numbers of copies | multiClassModel, Learner.score, Learner.predict, the learners behind Trained | Both risks are the Crammer-Singer objective by C105; the sum over copies is the weighted sum. Two near-minimisers of one risk are close (RiskClose). | proved: Trained (C106) collects the conditions under which training is proved to reach its tolerance: exact QP solver, no pruning of constraints, enough iterations. |
| C189 | Chains read backwards | graphModel with chainX and maxProductInfer, the learners behind Trained | Both sums of a score are reflected; transposition permutes the weights, so norms and the sets of violations agree. Two near-minimisers of one risk are close (RiskClose). | proved: Trained (C106) collects the conditions under which training is proved to reach its tolerance: exact QP solver, no pruning of constraints, enough iterations. Predictions may differ between equally good label sequences, so the claim is about their scores. |
| C190 | Mirrored and turned images | gridModel (GridInstance), gridX, Grid.gridEdges, the learners behind Trained | C115 writes the score as sums over pixels and pairs of neighbours. A move reflects or exchanges these sums, and the weight of a pair does not depend on its order. Labellings correspond one to one, so hinge losses agree; two near-minimisers of one risk are close (RiskClose). | proved: One move is a mirror image or a transposition; Turned closes under sequences of moves. Competing outputs are the labellings of the image, inference is assumed to find a best one (SolvesOver, true of exact AD3). Trained (C106) collects the conditions under which training is proved to reach its tolerance. |
| C191 | Mirrored and transposed images in a DirectionalGridCRF | directionalGridModel (GridInstance), directionalX, Grid.right, Grid.down, Grid.edgeListToFeatures, the learners behind Trained | C115 writes the score as sums over pixels and over horizontal and vertical pairs. A move reflects or exchanges these sums; what it does to the weights keeps their norm and is its own inverse, so minimisers correspond. | proved: Neighborhood 4 (with 8 the model cannot be used, C22). Competing outputs are the labellings of the image, inference is assumed to find a best one (SolvesEdges, true of exact AD3). Trained (C106) collects the conditions under which training is proved to reach its tolerance. |

## Disagreements between code and documentation that the proofs exposed
Every item marked (T) is a theorem.
* `is_chain` compares arrays of different shapes by broadcasting and accepts graphs that are not the chain (T, C03);
  without edges and with two or more nodes max-product uses an unrelated result (T, C05).
* `tree_max_product` decodes nodes independently; with ties the labelling can be suboptimal (T, C02).
* `inference_max_product` does not pass `tol` on; in the loopy variant the second message of an edge is normalised by
  the old value of the first.
* `return_energy` is ignored by qpbo, unary and max-product (T, C60); constraints are ignored by lp, qpbo, ogm, unary
  (T, C78); on forests with ties `inference_lp` rounds an optimal point to a suboptimal labelling (T, C99); unknown opengm algorithms raise UnboundLocalError (T, C60); qpbo rounds potentials (T, C79).
* `DirectionalGridCRF(neighborhood=8)` has inconsistent sizes (T, C22); `LatentDirectionalGridCRF` drops `neighborhood`
  (T, C89); EdgeFeatureLatentNodeCRF reads `n_features=None` as `n_labels` and accepts out-of-range indices (T, C89).
* EdgeFeatureGraphCRF and EdgeFeatureLatentNodeCRF: the score identity fails for general weights with (anti)symmetric
  features (T, C15, C20); the latent one fails without edges (T).
* LatentNodeCRF: the penalty against hidden states on visible nodes is finite (T, C64); `latent` may raise (T, C34);
  the loss of illegal labellings is misaligned (T, C24).
* BinaryClf: loss-augmented inference returns 0 at the margin (T, C19); batch features accept label 0 (T, C25).
* FrankWolfeSSVM: `check_dual_every=0` raises UnboundLocalError (T, C65); `max_iter=0` raises IndexError (T, C65); a
  second fit keeps the old weights and its gap is not a certificate (T, C47, C51); no `warm_start` argument, so
  LatentSSVM cannot use it (T, C80).
* OneSlackSSVM: the constraint of the true outputs can be pruned, after which the stopping rule certifies nothing
  (T, C40); the cache exceeds its bound by one (T, C41); interrupts break warm starts (T, C42); `cache_tol` given as a
  number has no effect (T, C68); training on perfectly fitted data raises UnboundLocalError (T, C67); with a
  negativity constraint the dual is restricted instead of the primal (T, C69).
* NSlackSSVM: outputs without loss are ignored even if violated (T, C44); given constraints fail on fresh learners
  (T, C70); recorded primal objectives mix two weight vectors (T, C71); inactivity need not be consecutive (T, C72);
  fractional outputs with equal unary marginals count as the same constraint (T, C94).
* SubgradientSSVM: a second fit continues from the old weights (T, C51); mini-batch training never stops early (T, C66);
  with `n_jobs` other than 1 the minimum of the risk with C·n/⌈n/n_jobs⌉ is approached (T, C101); the default `break_on_no_constraints` can stop
  far from the minimum (T, C101).
* StructuredPerceptron: averaging from epoch k returns zero weights after an earlier stop (T, C53).
* SubgradientLatentSSVM: typo `j_jobs` (T, C83); true labels are passed to the latent loss (T, C58, C82).
* SVM: the intercept averages over support vectors at the bound; one class divides by zero (T, C90).
* PrimalDSStructuredSVM minimises the objective for C/n (T, C59).
* SaveLogger: template names fail at the final call; a failing dump loses the previous file (T, C55, C56).
* TypedCRF: samples given as lists are never checked (T, C37); surplus arrays are dropped by `zip` (T, C73);
  `setInferenceException` has no effect (T, C75).
* `CRF.initialize` counts distinct labels and looks at the first sample only (T, C62); calling `_set_class_weight` twice
  changes the uniform flag (T, C63).
* `generate_crosses` and `generate_crosses_explicit` loop forever in small images (T, C96); `generate_bars` raises `IndexError`
  if only vertical bars are drawn (T, C97); `generate_crosses_latent` announces four states, label 1 never occurs (T, C95).

## Trusted base
* Lean's kernel (Lean 4.33.0). No `sorry`, `admit`, `native_decide`, `bv_decide`, no axioms of our own.
* Lean's standard axioms `propext`, `Classical.choice`, `Quot.sound`; `AXIOMS.md` lists the axioms of every theorem of
  the manifest (output of `#print axioms`).
* The reading of the Python code recorded in the comments of `Verif/Model` (the code was read, not run).
* The specifications in `Verif/Spec` and the statements in `Verif/Props`.
