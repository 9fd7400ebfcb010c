{"id": "C01", "title": "Box concretisation is sound and exact", "statement": "BoxDomain.get_upper(x,w,b) is at least w.x'+b for every point x' of the box [x_min,x_max], BoxDomain.get_lower is at most it, and both values are reached at a corner of the box (when w is a full weight tensor).", "quantifier": "for every dimension n, every box with x_min<=x_max, every weight, bias and every real point of the box", "why_tests_cant": "The box is a continuum and the weights are arbitrary; tests sample a few points.", "anchors": ["src/decomon/core.py: BoxDomain.get_upper, BoxDomain.get_lower, get_upper_box, get_lower_box"]}
{"id": "C02", "title": "Ball concretisation is sound and exact for p in {1,2,inf}; other p raise", "statement": "BallDomain(eps,p).get_upper / get_lower bound w.x'+b over the Lp ball of radius eps around x_0, the value is reached in the ball, and any p other than 1, 2 and inf raises NotImplementedError; the BallDomain constructor refuses p that is neither inf nor a positive integer.", "quantifier": "for every dimension, centre, radius eps>=0, weight, bias and point of the ball", "why_tests_cant": "Needs Hoelder / Cauchy-Schwarz for all vectors; sampling cannot show a supremum.", "anchors": ["src/decomon/core.py: BallDomain, get_upper_ball, get_lower_ball, get_lq_norm"]}
{"id": "C03", "title": "Mode flags and tensor lists round-trip", "statement": "get_mode(get_ibp(m),get_affine(m)) gives m back; extracting the tensors for a mode from a full list and rebuilding the full list gives back every component that the mode carries; the list length equals nb_tensors (7/2/5, +2 with dc_decomp); splitting a merge input gives back the concatenated lists.", "quantifier": "for every mode, dc_decomp flag, list of tensors and number of merged inputs", "why_tests_cant": "Unbounded number of merged inputs; slicing arithmetic with strides.", "anchors": ["src/decomon/core.py: ForwardMode, get_mode, get_ibp, get_affine, InputsOutputsSpec.nb_tensors, get_fullinputs_from_inputsformode, extract_inputsformode_from_fullinputs, split_inputsformode_to_merge"]}
{"id": "C04", "title": "Tightening keeps soundness and never loosens", "statement": "In hybrid mode get_fullinputs_from_inputsformode(tight=True) returns constant bounds that are still valid and never looser than the given ones; in affine mode the constant bounds recomputed from the affine ones are valid.", "quantifier": "for every domain with sound concretisation, every set of valid bounds and every point of the domain", "why_tests_cant": "Holds over a continuum of points and arbitrary tensors.", "anchors": ["src/decomon/core.py: InputsOutputsSpec.get_fullinputs_from_inputsformode"]}
{"id": "C05", "title": "ReLU linear hull encloses ReLU on the whole interval", "statement": "get_linear_hull_relu(u,l,slope,finetune=gamma) returns w_u,b_u,w_l,b_l with w_l z+b_l <= relu(z) <= w_u z+b_u for all z in [l,u]. (The upper side is false when 0<u-l<epsilon and l<0<u because of the division guard; a witness is proved, and soundness is proved outside that sliver.)", "quantifier": "for all l<=u, all five slopes, all gamma in [0,1], all z in [l,u]", "why_tests_cant": "Interval and pre-activation range are unbounded; failing sliver is narrower than any test step.", "anchors": ["src/decomon/utils.py: get_linear_hull_relu"]}
{"id": "C06", "title": "ReLU propagation keeps the LiRPA invariant in every mode", "statement": "relu_ maps valid bounds of y to valid bounds of relu(y), in ibp, affine and hybrid mode and every slope, and with dc_decomp the sum h+g of the output is relu(y).", "quantifier": "for every mode, slope, domain with sound concretisation, every input bound list and every point of the domain (outside the epsilon sliver)", "why_tests_cant": "Soundness over all points and all weights.", "anchors": ["src/decomon/utils.py: relu_", "src/decomon/layers/activations.py: relu"]}
{"id": "C07", "title": "Addition, negation and subtraction keep the invariant", "statement": "add, minus and subtract return valid constant and affine bounds of y0+y1, -y and y0-y1, and h+g of the result is exactly that value.", "quantifier": "for every mode, dimension, pair of valid inputs and point of the domain", "why_tests_cant": "Continuum of points, arbitrary tensors.", "anchors": ["src/decomon/utils.py: add, minus, subtract"]}
{"id": "C08", "title": "Element-wise maximum and minimum keep the invariant", "statement": "maximum / minimum return valid bounds of max(y0,y1) / min(y0,y1) and h+g equals that value.", "quantifier": "for every mode, every pair of valid inputs, every point of the domain (outside the epsilon sliver of the ReLU hull)", "why_tests_cant": "Continuum of points, arbitrary tensors; minimum is reached only through two negations and a ReLU.", "anchors": ["src/decomon/utils.py: maximum, minimum"]}
{"id": "C09", "title": "Element-wise product keeps the invariant (McCormick)", "statement": "multiply returns valid constant and affine bounds for y0*y1.", "quantifier": "for every mode, all sign patterns of the four interval ends, every point of the domain", "why_tests_cant": "Sign case explosion over real intervals; tests sample boxes.", "anchors": ["src/decomon/layers/utils.py: multiply"]}
{"id": "C10", "title": "Dense layer keeps the invariant", "statement": "DecomonDense.call returns valid constant and affine bounds of x.kernel+bias and its h+g is exactly that value.", "quantifier": "for every input/output width, kernel, bias, mode, valid input and point of the domain", "why_tests_cant": "Arbitrary matrices and sizes.", "anchors": ["src/decomon/layers/decomon_layers.py: DecomonDense.call"]}
{"id": "C11", "title": "Conv2D layer keeps the invariant", "statement": "DecomonConv2D.call returns valid constant and affine bounds of the convolution of its input (any stride, padding and dilation, expressed as a linear index map), and h+g is exactly the convolution.", "quantifier": "for every image size, kernel, stride, padding, dilation, bias, mode, valid input and point of the domain", "why_tests_cant": "Arbitrary tensors and geometry.", "anchors": ["src/decomon/layers/decomon_layers.py: DecomonConv2D.call"]}
{"id": "C12", "title": "BatchNormalization keeps the invariant", "statement": "DecomonBatchNormalization.call (inference) returns valid bounds of gamma*(y-mean)/sqrt(var+eps)+beta, also for negative gamma.", "quantifier": "for every gamma, beta, mean, var>=0, mode, valid input and point of the domain", "why_tests_cant": "Sign of gamma per channel and continuum of points.", "anchors": ["src/decomon/layers/decomon_layers.py: DecomonBatchNormalization.call"]}
{"id": "C13", "title": "Shape-only layers commute with bounds", "statement": "Flatten, Reshape, Permute and Dropout(inference) return bounds that are valid for the re-indexed tensor; bounds are neither mixed nor changed. Dropout in training mode raises.", "quantifier": "for every shape, permutation, mode, valid input and point of the domain", "why_tests_cant": "Arbitrary ranks and permutations.", "anchors": ["src/decomon/layers/decomon_layers.py: DecomonFlatten, DecomonDropout", "src/decomon/layers/decomon_reshape.py: DecomonReshape, DecomonPermute"]}
{"id": "C14", "title": "n-ary merge layers keep the invariant", "statement": "Add, Average, Subtract, Maximum, Minimum, Multiply and Concatenate Decomon layers return valid bounds of the merged value for any number of merged inputs; Subtract with a number of inputs other than two raises ValueError.", "quantifier": "for every number of inputs, every mode, all valid inputs, all points of the domain", "why_tests_cant": "Unbounded number of inputs.", "anchors": ["src/decomon/layers/decomon_merge_layers.py: DecomonAdd, DecomonAverage, DecomonSubtract, DecomonMaximum, DecomonMinimum, DecomonMultiply, DecomonConcatenate"]}
{"id": "C15", "title": "Fast max pooling keeps the invariant", "statement": "DecomonMaxPooling2D with fast=True returns constant bounds of the pooled value, and affine bounds with zero weights and the same constants.", "quantifier": "for every window set, every mode, every valid input and point of the domain", "why_tests_cant": "Continuum of points, arbitrary windows.", "anchors": ["src/decomon/layers/maxpooling.py: DecomonMaxPooling2D._pooling_function_fast"]}
{"id": "C16", "title": "Max pooling with fast=False selects every element of the window once", "statement": "The one-hot filters built by DecomonMaxPooling2D send window element (i,j) to its own channel, so that the maximum over channels is the maximum over the window. (False for non-square windows: the index uses pool_size[0] instead of pool_size[1]; collisions and IndexError are proved.)", "quantifier": "for every pool_size (p0,p1)", "why_tests_cant": "Tests use square windows only.", "anchors": ["src/decomon/layers/maxpooling.py: DecomonMaxPooling2D.__init__ (filters)"]}
{"id": "C17", "title": "Linear hull of max: upper and lower", "statement": "get_upper_linear_hull_max / get_lower_linear_hull_max bound the maximum over the box of inputs. (Lower without finetuning is proved. Upper is refuted: the collapse indicator is 2 where it should be 0.)", "quantifier": "for every number of inputs n, every box l<=u and every point of the box", "why_tests_cant": "The hull is a solved linear system; sampled boxes do not show failure for all boxes.", "anchors": ["src/decomon/layers/utils_pooling.py: get_upper_linear_hull_max, get_lower_linear_hull_max"]}
{"id": "C18", "title": "Sigmoid, tanh and softsign linear hull", "statement": "get_linear_hull_s_shape returns lines enclosing the function on [l,u]. (Secant branch and constant branch are proved; the tangent-search branch is refuted by an exact witness with softsign on [-1,1].)", "quantifier": "for every l<=u, every z in [l,u], for sigmoid, tanh and softsign", "why_tests_cant": "The violation is tiny and lies between sampled points.", "anchors": ["src/decomon/utils.py: get_linear_hull_s_shape, get_t_upper, get_t_lower"]}
{"id": "C19", "title": "Monotone activations propagate constant bounds", "statement": "In ibp mode sigmoid, tanh, softsign, exponential and softplus layers return func(u_c), func(l_c), which bound func(y).", "quantifier": "for every l<=y<=u", "why_tests_cant": "Continuum.", "anchors": ["src/decomon/layers/activations.py: linear_hull_s_shape, sigmoid, tanh, softsign, exponential, softplus"]}
{"id": "C20", "title": "Softplus linear hull", "statement": "get_linear_softplus_hull encloses softplus on [l,u]. (False: the secant is taken on softsign and the dead branch returns 0; refuted.)", "quantifier": "for every l<=u and z in [l,u]", "why_tests_cant": "Tests only compare with loose tolerances.", "anchors": ["src/decomon/utils.py: get_linear_softplus_hull"]}
{"id": "C21", "title": "Exponential and logarithm relaxations", "statement": "exp and log in layers/utils return valid constant and affine bounds of exp(y), log(y) (log needs l_c>0).", "quantifier": "for every valid input and point of the domain (outside the epsilon sliver for the exp secant)", "why_tests_cant": "Needs convexity of exp and concavity of log on all intervals.", "anchors": ["src/decomon/layers/utils.py: exp, log"]}
{"id": "C22", "title": "Softmax bounds", "statement": "activations.softmax returns bounds of softmax(y). (False: it negates its input, so it bounds the soft-min; refuted even on a single point.)", "quantifier": "for every valid input and point of the domain", "why_tests_cant": "Tests compare with the wrong reference or only check ordering of bounds.", "anchors": ["src/decomon/layers/activations.py: softmax"]}
{"id": "C23", "title": "Absolute value bounds", "statement": "layers.utils.abs returns bounds of |y|. (False: it subtracts instead of adding, and returns bounds of y; refuted.)", "quantifier": "for every valid input and point of the domain", "why_tests_cant": "A test on non-negative data would pass.", "anchors": ["src/decomon/layers/utils.py: abs"]}
{"id": "C24", "title": "Reciprocal of a positive quantity", "statement": "frac_pos returns bounds of 1/y when l_c>0. (Constant bounds proved; affine bounds refuted.)", "quantifier": "for every 0<l<=y<=u", "why_tests_cant": "Continuum; wrong coefficient is invisible at many points.", "anchors": ["src/decomon/layers/utils.py: frac_pos"]}
{"id": "C25", "title": "Sorting bounds", "statement": "layers.utils.sort returns, in ibp mode, bounds of the sorted vector: the selection sort network on maximum/minimum sorts every vector.", "quantifier": "for every length n and every vector", "why_tests_cant": "All lengths and all orders.", "anchors": ["src/decomon/layers/utils.py: sort"]}
{"id": "C26", "title": "Chaining of affine bounds (merge_with_previous) is sound", "statement": "If the first bounds enclose h(x) and the second enclose g(h), merge_with_previous returns bounds that enclose g(h(x)); a two-dimensional (diagonal) weight is treated as the diagonal matrix.", "quantifier": "for all sizes, all weights of any sign, all points", "why_tests_cant": "Arbitrary matrices and signs.", "anchors": ["src/decomon/models/crown.py: merge_with_previous, MergeWithPrevious, Fuse", "src/decomon/keras_utils.py: BatchedDiagLike"]}
{"id": "C27", "title": "Forward LiRPA of a whole network is sound", "statement": "The bounds computed by convert_forward on a sequential network of Dense, ReLU, BatchNormalization and linear layers enclose the network output for every point of the perturbation domain, in each of the three forward methods.", "quantifier": "for every depth, widths, weights, every mode, slope, domain with sound concretisation and point of the domain", "why_tests_cant": "Unbounded depth and a continuum of inputs: this is the purpose of the library.", "anchors": ["src/decomon/models/forward_cloning.py: convert_forward_functional_model", "src/decomon/models/convert.py: convert, clone", "src/decomon/models/utils.py: get_input_tensors"]}
{"id": "C28", "title": "CROWN of a whole network is sound", "statement": "The bounds computed by crown_model / convert_backward on a sequential network enclose the network output, both with intermediate bounds from a forward pass (crown-forward-*) and with intermediate bounds computed by CROWN itself.", "quantifier": "for every depth, widths, weights, mode, slope, domain with sound concretisation and point of the domain", "why_tests_cant": "Unbounded depth, recursion in the recursion.", "anchors": ["src/decomon/models/backward_cloning.py: crown_, get_input_nodes, crown_model, convert_backward", "src/decomon/backward_layers/backward_layers.py: BackwardDense, BackwardActivation"]}
{"id": "C29", "title": "Conversion between modes keeps the invariant", "statement": "Convert2Mode and Convert2BackwardMode turn valid bounds in one mode into valid bounds in the other one.", "quantifier": "for all nine pairs of modes, all valid bounds and all points of the domain", "why_tests_cant": "Continuum; nine pairs with different code paths.", "anchors": ["src/decomon/models/utils.py: Convert2Mode.call", "src/decomon/models/crown.py: Convert2BackwardMode.call"]}
{"id": "C30", "title": "back_bounds C bounds the linear combination", "statement": "convert(..., back_bounds=[C]) gives bounds of y.C (y the network output) with zero bias.", "quantifier": "for every C, network and point of the domain", "why_tests_cant": "Arbitrary C.", "anchors": ["src/decomon/models/backward_cloning.py: convert_backward, crown_model"]}
{"id": "C31", "title": "Hybrid bounds are at least as tight as interval bounds", "statement": "On the same network and box, the constant bounds of forward-hybrid lie inside those of forward-ibp.", "quantifier": "for every sequential Dense/ReLU network, every box", "why_tests_cant": "Unbounded depth.", "anchors": ["src/decomon/layers/decomon_layers.py: DecomonDense.call", "src/decomon/utils.py: relu_", "src/decomon/core.py: get_fullinputs_from_inputsformode"]}
{"id": "C32", "title": "Interval bounds are monotone in the box", "statement": "In forward-ibp mode a smaller box gives tighter (or equal) bounds.", "quantifier": "for every sequential network and every pair of nested boxes", "why_tests_cant": "Unbounded depth.", "anchors": ["src/decomon/layers/decomon_layers.py: DecomonDense.call", "src/decomon/utils.py: relu_"]}
{"id": "C33", "title": "A negative get_adv_box score certifies robustness", "statement": "For a model whose bounds are valid on the boxes it is called on: if get_adv_box returns a negative score for a sample then no point of the box makes any target label score at least as high as any source label; for a sample with at least one target/source pair the score is the largest value over its pairs, so the penalty mask never hides a pair and never lets a discarded pair decide. (Labels given as integers: see C73.)", "quantifier": "for every model with valid bounds, box, label mask and batch", "why_tests_cant": "The claim quantifies over all points of the box.", "anchors": ["src/decomon/wrapper.py: get_adv_box, get_ibp_score, get_affine_score"]}
{"id": "C34", "title": "get_range_box bounds the model outputs and does not depend on batch_size", "statement": "Without sub-boxes get_range_box returns valid bounds, and the result with batch_size=k equals the result without splitting.", "quantifier": "for every number of samples, every batch_size>0, every model with valid bounds", "why_tests_cant": "All batch sizes and remainders.", "anchors": ["src/decomon/wrapper.py: get_range_box"]}
{"id": "C35", "title": "refine_boxes covers the box", "statement": "The sub-boxes returned by refine_boxes cover the original box, lie inside it, and their number is the largest power of two not above n_sub_boxes. (Only for flat inputs; for inputs of rank above 2 x_max is overwritten by x_min: refuted.)", "quantifier": "for every dimension, box, n_sub_boxes>=1 and every point of the box", "why_tests_cant": "Continuum of points and any number of splits.", "anchors": ["src/decomon/wrapper.py: refine_boxes"]}
{"id": "C36", "title": "get_range_box with sub-boxes is sound", "statement": "With n_sub_boxes>1 get_range_box returns valid bounds of each output. (Proved for one output; refuted for two outputs: the reshape mixes outputs and sub-boxes.)", "quantifier": "for every model with valid bounds, box, n_sub_boxes", "why_tests_cant": "Tests use models with one output.", "anchors": ["src/decomon/wrapper.py: get_range_box"]}
{"id": "C37", "title": "refine_box covers the box when deterministic and always raises when random", "statement": "With random=False the n_split boxes built by refine_box cover the box; with the default random=True and n_split>=2 the call np.random.randint(0) raises ValueError.", "quantifier": "for every dimension, box, n_split and every point of the box", "why_tests_cant": "Unbounded n_split.", "anchors": ["src/decomon/wrapper.py: refine_box"]}
{"id": "C38", "title": "Sign of check_adv_box", "statement": "A negative check_adv_box score means that there is no adversarial example. (Refuted. What does hold is proved: a positive score proves that an adversarial example exists.)", "quantifier": "for every model with valid bounds, box, label mask", "why_tests_cant": "Quantifies over all points of the box.", "anchors": ["src/decomon/wrapper.py: check_adv_box"]}
{"id": "C39", "title": "get_range_noise bounds the model over the ball", "statement": "get_range_noise returns valid bounds over the Lp ball for p in {1,2,inf}. (Refuted for a DecomonModel and negative eps; proved for eps>=0.)", "quantifier": "for every model with valid bounds over the ball, centre, eps and point of the ball", "why_tests_cant": "Continuum of points.", "anchors": ["src/decomon/wrapper.py: get_range_noise, _get_dual_ord"]}
{"id": "C40", "title": "get_adv_noise succeeds for every DecomonModel", "statement": "get_adv_noise returns a score for ibp, affine and hybrid models. (Refuted: it raises NotImplementedError for every affine or hybrid model and AttributeError for every Keras model; for ibp models a negative score is a certificate.)", "quantifier": "for every kind of model", "why_tests_cant": "A decision table over all combinations.", "anchors": ["src/decomon/wrapper.py: get_adv_noise"]}
{"id": "C41", "title": "get_adv_box with backward_bounds can certify", "statement": "For a DecomonModel built with back_bounds, get_adv_box can return a negative score. (Refuted: the matrix C contains the column of the source label minus itself, so with valid bounds the score is never negative.)", "quantifier": "for every one-hot source label, every model with valid bounds", "why_tests_cant": "A score that is never negative looks like a weak bound, not like a bug, in any finite test.", "anchors": ["src/decomon/wrapper.py: get_adv_box"]}
{"id": "C42", "title": "Sign of the adversarial metric layers", "statement": "AdversarialScore: a negative score certifies robustness (proved for both the ibp and affine scores). AdversarialCheck: docstring says negative means robust (refuted).", "quantifier": "for every valid bounds, one-hot label and point of the domain", "why_tests_cant": "Continuum of points.", "anchors": ["src/decomon/metrics/metric.py: AdversarialScore.call, AdversarialCheck.call, _get_ibp_score, _get_affine_score"]}
{"id": "C43", "title": "Loss packing round-trips", "statement": "The slices taken by get_upper_loss, get_lower_loss and get_adv_loss from the single tensor built by get_model give back x, w_u, b_u, w_l, b_l, u_c, l_c exactly, in each mode.", "quantifier": "for every n_in, n_comp, n_out and tensor values", "why_tests_cant": "Index arithmetic for all sizes.", "anchors": ["src/decomon/metrics/loss.py: get_model, get_upper_loss, get_lower_loss, get_adv_loss"]}
{"id": "C44", "title": "Cross-entropy fusion is an upper bound", "statement": "DecomonLossFusion (not asymptotic, not backward) returns a value at least -y_i+log(sum_j exp(y_j)) for each i and all y between l_c and u_c.", "quantifier": "for every number of classes and all l_c<=y<=u_c", "why_tests_cant": "Continuum; stabilised formula must equal the plain one.", "anchors": ["src/decomon/metrics/loss.py: DecomonLossFusion.call_no_backward"]}
{"id": "C45", "title": "DecomonRadiusRobust below zero certifies the box", "statement": "If the radius score of label i is negative then no point of the box makes any other label reach label i.", "quantifier": "for every valid affine bounds, box and point", "why_tests_cant": "Continuum of points.", "anchors": ["src/decomon/metrics/loss.py: DecomonRadiusRobust.call_no_backward"]}
{"id": "C46", "title": "Tuned bounds are never worse than the baseline", "statement": "get_upper_box_tuning returns at most the baseline upper bound; get_lower_box_tuning returns at least the baseline lower bound. (Second part refuted: it takes the minimum, so tuning can only loosen the lower bound.)", "quantifier": "for every baseline and tuned bounds", "why_tests_cant": "Depends on the optimiser run; tests see one run.", "anchors": ["src/decomon/wrapper_with_tuning.py: get_upper_box_tuning, get_lower_box_tuning"]}
{"id": "C47", "title": "Graph traversal visits parents first and returns every output", "statement": "get_depth_dict gives every node a depth strictly below the depth of all its parents, so the traversal by decreasing depth meets parents first; the (single) output has depth 0. (For several outputs at different depths the shallower ones are dropped: refuted.)", "quantifier": "for every finite acyclic graph", "why_tests_cant": "All graphs.", "anchors": ["src/decomon/models/utils.py: get_depth_dict", "src/decomon/models/forward_cloning.py: convert_forward_functional_model"]}
{"id": "C48", "title": "Symbolic output shapes are the real shapes", "statement": "DecomonLayer.compute_output_shape returns one shape per tensor of the mode, with the shape that call() produces: (batch, input_dim)+out for weights, out for constants.", "quantifier": "for every mode, dc_decomp, rank and sizes", "why_tests_cant": "All ranks.", "anchors": ["src/decomon/layers/core.py: DecomonLayer.compute_output_shape", "src/decomon/core.py: get_fullinputshapes_from_inputshapesformode, extract_inputshapesformode_from_fullinputshapes"]}
{"id": "C49", "title": "freeze then unfreeze restores the trainable weights", "statement": "freeze_weights is idempotent, removes exactly the kernel and bias from the trainable weights; unfreeze_weights after it restores the same trainable list; unfreeze without freeze changes nothing. (Under Keras 3 the list trainable_weights never changes: restoring and idempotence are proved, removing is refuted for every layer with a kernel. For the attribute _trainable_weights, which decomon manages itself, proved for forward models; refuted for batch normalisation and backward layers.)", "quantifier": "for every layer state and every sequence of freeze/unfreeze calls", "why_tests_cant": "All call sequences.", "anchors": ["src/decomon/layers/decomon_layers.py: freeze_weights, unfreeze_weights, freeze_alpha, unfreeze_alpha", "src/decomon/models/models.py: DecomonModel"]}
{"id": "C50", "title": "Weight constraints project into their set", "statement": "ClipAlpha, ClipAlphaGrid, NonPos, NonNeg and ClipAlphaAndSumtoOne return weights in [0,1], <=0, >=0, and summing to at most one; projecting twice changes nothing for the clips.", "quantifier": "for every weight tensor", "why_tests_cant": "Continuum.", "anchors": ["src/decomon/layers/utils.py: NonPos, NonNeg, ClipAlpha, ClipAlphaGrid, ClipAlphaAndSumtoOne, MultipleConstraint"]}
{"id": "C51", "title": "set_domain makes later bounds valid for the new domain", "statement": "After DecomonModel.set_domain(new) the model's bounds are valid over the new domain. (Refuted: the layers' InputsOutputsSpec and the input closure keep the old domain.) A domain of another type is refused with NotImplementedError.", "quantifier": "for every model, old and new domain", "why_tests_cant": "Depends on internal copies of the domain that no test inspects.", "anchors": ["src/decomon/models/models.py: DecomonModel.set_domain, _check_domain", "src/decomon/models/utils.py: get_input_tensors", "src/decomon/layers/core.py: DecomonLayer.__init__"]}
{"id": "C52", "title": "Method names select mode and direction consistently", "statement": "get_ibp_affine_from_method and get_direction agree with the method name for all seven methods; clone accepts upper-case names as convert does. (Last part refuted: clone raises ValueError.)", "quantifier": "for every method and every string", "why_tests_cant": "Decision table over an infinite set of strings.", "anchors": ["src/decomon/models/utils.py: ConvertMethod, get_ibp_affine_from_method, get_direction", "src/decomon/models/convert.py: clone, convert"]}
{"id": "C53", "title": "Splitting activations keeps the network function; softmax is replaced by identity", "statement": "preprocess_keras_model replaces each layer with an activation by two layers whose composition is the same function; clone then bounds the logits: the last softmax is turned into a linear activation, in place on the layer object.", "quantifier": "for every sequence of layers", "why_tests_cant": "Unbounded number of layers; in-place effect on a shared object.", "anchors": ["src/decomon/models/utils.py: split_activation", "src/decomon/models/convert.py: preprocess_keras_model", "src/decomon/layers/utils.py: softmax_to_linear"]}
{"id": "C54", "title": "Backward merge operations are sound per operand", "statement": "backward_add, backward_subtract, backward_maximum, backward_minus, backward_scale return, for each operand, affine bounds in that operand alone. (backward_minimum, backward_scale with negative factor and BackwardAverage with three or more inputs are refuted.)", "quantifier": "for all sizes, weights, valid operand bounds and points", "why_tests_cant": "Arbitrary weights of any sign.", "anchors": ["src/decomon/backward_layers/utils.py: backward_add, backward_subtract, backward_maximum, backward_minimum, backward_minus, backward_scale", "src/decomon/backward_layers/backward_merge.py: BackwardAverage, BackwardAdd"]}
{"id": "C55", "title": "Finetuned ball bound is an upper bound", "statement": "get_upper_ball_finetune returns an upper bound over the ball. (Refuted: it concretises with the lower bound.)", "quantifier": "for every weight, finetune parameters in [0,1] and point", "why_tests_cant": "Only wrong when finetuning is active.", "anchors": ["src/decomon/core.py: get_upper_ball_finetune, get_lower_ball_finetune"]}
{"id": "C56", "title": "permute_dimensions moves the chosen axis of weights and constants together", "statement": "permute_dimensions(axis,axis_perm) applies the same permutation to the constant tensors and (shifted by one) to the weights. (Refuted for axis other than -1.)", "quantifier": "for every rank and axis", "why_tests_cant": "All ranks and axes.", "anchors": ["src/decomon/layers/utils.py: permute_dimensions"]}
{"id": "C57", "title": "The Toeplitz matrix represents the convolution", "statement": "get_toeplitz returns a matrix whose product with the flattened image is the flattened convolution.", "quantifier": "for every image size, kernel, stride and padding", "why_tests_cant": "All sizes.", "anchors": ["src/decomon/backward_layers/utils_conv.py: get_toeplitz, get_toeplitz_channels_last"]}
{"id": "C58", "title": "Models with merge layers are refused by backward methods", "statement": "The conversion of a model containing a merge layer by a backward method never returns a result: it raises NotImplementedError at an Add or Average layer, KeyError at another merge layer; with crown-forward-* that layer is the first merge layer from the output. Conversions of chains succeed.", "quantifier": "for every graph of layers", "why_tests_cant": "All graphs.", "anchors": ["src/decomon/models/backward_cloning.py: crown_", "src/decomon/backward_layers/backward_merge.py: constructors, compute_output_shape"]}
{"id": "C59", "title": "Sum along an axis keeps the invariant", "statement": "layers.utils.sum returns valid constant and affine bounds of the sum of the entries along the axis.", "quantifier": "for every mode, every shape and summed axis, every valid input and point of the domain", "why_tests_cant": "Quantifies over all shapes, bounds and points.", "anchors": ["src/decomon/layers/utils.py: sum"]}
{"id": "C60", "title": "The square keeps the invariant", "statement": "layers.utils.pow (element-wise square) returns valid constant and affine bounds of y*y, also when the interval contains zero.", "quantifier": "for every mode, every valid input and point of the domain", "why_tests_cant": "Quantifies over all intervals, weights and points.", "anchors": ["src/decomon/layers/utils.py: pow, multiply"]}
{"id": "C61", "title": "Dense with backward bounds (ibp) bounds the linear combination", "statement": "DecomonDense with has_backward_bounds=True returns, in ibp mode, constant bounds of C^T(x.kernel+bias), and never looser than applying the layer first and combining afterwards; in affine and hybrid mode it raises NotImplementedError. set_back_bounds(True) switches this on. (Refuted: the entries of the bias are multiplied with the columns of C instead of the rows, so the bounds are wrong unless the two sums agree, as for a layer without bias or a constant bias; set_back_bounds raises AttributeError on every DecomonDense, which has no activation_name.)", "quantifier": "for every width, kernel, bias, matrix C, valid input and point", "why_tests_cant": "Quantifies over all matrices, biases and intervals; a test with an identity matrix or a zero bias does not see the wrong axis.", "anchors": ["src/decomon/layers/decomon_layers.py: DecomonDense.call", "src/decomon/layers/decomon_layers.py: DecomonDense.set_back_bounds"]}
{"id": "C62", "title": "Dot layer keeps the invariant", "statement": "DecomonDot with the default axes returns valid bounds of the contraction of its two inputs over the last axis.", "quantifier": "for every pair of shapes, mode, valid inputs and point of the domain", "why_tests_cant": "Quantifies over all shapes, signs and points.", "anchors": ["src/decomon/layers/decomon_merge_layers.py: DecomonDot.call"]}
{"id": "C63", "title": "Maximum and minimum along an axis", "statement": "layers.utils.max_ and min_ return bounds of the maximum (minimum) along the axis in every mode, with h+g equal to the maximum when dc_decomp is set; in ibp mode the bounds are the maxima of the bounds. (Affine and hybrid modes: outside the sliver of the ReLU hull.)", "quantifier": "for every axis length n>=1, every valid input, every point of the domain", "why_tests_cant": "tests try axis lengths 2 and 3 on a few boxes; the fold over n slices and the rounding-free validity need a proof for all lengths and boxes", "anchors": ["src/decomon/layers/utils.py:max_", "src/decomon/layers/utils.py:min_"]}
{"id": "C64", "title": "Activation names: accepted, callable, rejected", "statement": "`activations.get(name)` resolves a string exactly when its lower-case form is one of softmax, elu, selu, softplus, softsign, sigmoid, tanh, relu, exponential, linear, and raises ValueError otherwise; in particular the documented \"GroupSort2\" and \"hard_sigmoid\" are never resolved, whatever the casing. Of the resolved functions elu and selu always raise NotImplementedError, and with dc_decomp=True only relu and linear return. relu accepts only its default parameters.", "quantifier": "every string, every resolved function, every value of dc_decomp and of the relu parameters", "why_tests_cant": "the set of strings is infinite; tests try a handful of names", "anchors": ["src/decomon/layers/activations.py:504-581", "src/decomon/layers/activations.py:34-83"]}
{"id": "C65", "title": "Backward bounds of the maximum over an axis", "statement": "backward_max_ returns affine bounds of the maximum over an axis in terms of all the entries of the axis. (Refuted: it adds up the bounds obtained for each entry separately.)", "quantifier": "for every number of entries, every weights, valid bounds and points", "why_tests_cant": "Unbounded number of entries and a continuum of values; a test on positive entries does not show the error.", "anchors": ["src/decomon/backward_layers/utils.py: backward_max_"]}
{"id": "C66", "title": "A nested model is bounded like its layers in line", "statement": "A model used as a layer of another model is replaced by its layers in line before any bound is computed by clone or convert: the same layer objects in the same order, computing the same function, at every depth of nesting. The backward pass itself (convert_backward called directly) never returns bounds for a model that contains another one: it raises. (So the claim that the backward pass bounds nested models is refuted; the raised error is ValueError, seven tensors being unpacked into nine names.)", "quantifier": "for every nesting of models with one output, every graph inside them, every input, every mode of the backward pass, and all layers above and below the nested model", "why_tests_cant": "A test nests one model once and calls clone; the branch of the backward pass for nested models is not reached by it.", "anchors": ["src/decomon/models/convert.py:35-77,121", "src/decomon/models/forward_cloning.py:140-228", "src/decomon/models/backward_cloning.py:38-64,123-137", "src/decomon/core.py:426-438"]}
{"id": "C67", "title": "CROWN over a ball domain is sound", "statement": "With a BallDomain, the bounds of crown and crown-forward-* enclose the network output on every point of the ball. (Refuted for the methods in ibp mode, where the bounds are concretised with the stacked interval taken for the centre.)", "quantifier": "for every network, every centre, radius and point of the ball", "why_tests_cant": "Continuum of points.", "anchors": ["src/decomon/models/backward_cloning.py: crown_model, convert_backward", "src/decomon/models/crown.py: Convert2BackwardMode", "src/decomon/core.py: BallDomain"]}
{"id": "C68", "title": "BackwardPermute represents Permute", "statement": "The affine bounds of BackwardPermute on a rank-2 input of shape (a, b) are the permutation done by the layer if and only if a = b.", "quantifier": "for all two-dimensional shapes a x b with a, b at least 2", "why_tests_cant": "All shapes; tests on square or one-dimensional shapes pass.", "anchors": ["src/decomon/backward_layers/backward_layers.py: BackwardPermute"]}
{"id": "C69", "title": "backward_multiply returns bounds that can be chained", "statement": "backward_multiply returns per-operand affine bounds of the product with weights of rank 3. (Refuted: rank 4 or ValueError.)", "quantifier": "for every batch size and every sizes", "why_tests_cant": "All sizes; broadcasting hides the error on some of them.", "anchors": ["src/decomon/backward_layers/utils.py: backward_multiply", "src/decomon/backward_layers/backward_merge.py: BackwardMultiply"]}
{"id": "C70", "title": "BackwardConcatenate returns bounds in each input", "statement": "BackwardConcatenate returns for each input affine bounds of the concatenation in terms of that input. (Refuted for two inputs or more: the identity it cuts into pieces is that of the last input, not of the concatenation.)", "quantifier": "for every number of inputs and every list of sizes (inputs of rank 2, last axis)", "why_tests_cant": "All sizes and numbers of inputs.", "anchors": ["src/decomon/backward_layers/backward_merge.py: BackwardConcatenate", "src/decomon/backward_layers/utils.py: get_identity_lirpa"]}
{"id": "C71", "title": "CROWN is at least as tight as interval propagation", "statement": "The constant bounds of crown lie inside those of forward-ibp. (Holds, with exact bounds, without ReLU; refuted with one ReLU.)", "quantifier": "for every network and box", "why_tests_cant": "Continuum of weights and boxes; users choose the slower method because of this expectation.", "anchors": ["src/decomon/models/backward_cloning.py: convert_backward", "src/decomon/models/crown.py: Convert2BackwardMode"]}
{"id": "C72", "title": "The adversarial score of a sample does not depend on the rest of the batch", "statement": "The score get_adv_box returns for a sample is a function of that sample only. (Proved when the sample has at least one target/source pair; refuted when it has none, because the penalty is computed from the extremes of the whole batch.)", "quantifier": "for all models, all batches and all samples", "why_tests_cant": "The penalty constant is a max and min over the whole batch; a test compares a few batches only.", "anchors": ["src/decomon/wrapper.py: get_adv_box, get_ibp_score, get_affine_score"]}
{"id": "C73", "title": "Labels given as an integer", "statement": "get_adv_box accepts a source label given as an integer, as its docstring says, and its negative score is then a certificate for that label. (Refuted: it raises ValueError unless there is one output or as many samples as outputs, and in the latter case the mask is constant and a negative score certifies nothing.)", "quantifier": "for all numbers of samples and outputs and all integer labels", "why_tests_cant": "The accepted shapes form an infinite family; the failure is silent when the batch has as many samples as outputs.", "anchors": ["src/decomon/wrapper.py: prepare_labels, get_adv_box"]}
{"id": "C74", "title": "UpperScore is an upper bound of the linear form", "statement": "The value of the UpperScore layer is at least the sum of the outputs weighted by the given coefficients, at every point of the domain, in every mode. (Proved for non-negative coefficients in ibp and hybrid mode, forward and backward; in affine mode the layer always raises ValueError; refuted for a negative coefficient.)", "quantifier": "for all valid bounds, all coefficients and all points of the domain", "why_tests_cant": "Continuum of points and of coefficients; the failing sign is a matter of quantification over coefficients.", "anchors": ["src/decomon/metrics/metric.py: UpperScore.call, UpperScore.get_upper_score"]}
{"id": "C75", "title": "Metric models can be built and read the right tensors", "statement": "build_formal_adv_check_model, build_formal_adv_model and build_formal_upper_model accept a converted model and feed each bound to the argument of that name. (Refuted: they raise AttributeError on every converted model; and with such an attribute the layer would read each tensor one position too far.)", "quantifier": "for every converted model and mode", "why_tests_cant": "The list of outputs differs per mode and every mode would need a model; the failure in the position of tensors gives plausible numbers.", "anchors": ["src/decomon/metrics/metric.py: build_formal_adv_check_model, build_formal_adv_model, build_formal_upper_model, AdversarialCheck.call", "src/decomon/models/models.py: DecomonModel"]}
{"id": "C76", "title": "Losses bound the worst excess over the reference", "statement": "get_upper_loss (get_lower_loss) returns at least the batch mean of the largest value over outputs of F(x)-ref (ref-F(x)), for every choice of one point per box, from the packed tensor.", "quantifier": "for every batch, box, point, reference and mode", "why_tests_cant": "Continuum of points; batches of any size.", "anchors": ["src/decomon/metrics/loss.py: get_upper_loss, get_lower_loss, get_model"]}
{"id": "C77", "title": "Adversarial loss bounds the margin", "statement": "get_adv_loss without softmax returns at least the mean of the largest margin of a wrong label over the true one, and clip and sigmoid keep it an upper bound. (Proved in ibp and affine mode; refuted in hybrid mode, where the softmax is applied although softmax=False and the loss never exceeds 1.)", "quantifier": "for every batch, one-hot labels, clip value and point of the domain", "why_tests_cant": "Continuum of points; the failure needs large logits.", "anchors": ["src/decomon/metrics/loss.py: get_adv_loss"]}
{"id": "C78", "title": "Asymptotic cross-entropy is the clipped worst margin", "statement": "Entry i of DecomonLossFusion(asymptotic=True) bounds y_j-y_i for all j other than i, is never below -1, and is either -1 or attained by some pair of bounds.", "quantifier": "for every number of classes, all l_c<=y<=u_c and labels", "why_tests_cant": "Continuum; masks with penalties must not leak.", "anchors": ["src/decomon/metrics/loss.py: DecomonLossFusion.call_no_backward"]}
{"id": "C79", "title": "categorical_cross_entropy returns valid bounds", "statement": "The tensors returned bound -y+log(sum exp y) on the last axis, in each mode. (Proved in ibp mode; in hybrid and affine mode outside the cases where exp and log are refuted.)", "quantifier": "for all valid bounds and all points", "why_tests_cant": "Continuum; composition of four relaxations.", "anchors": ["src/decomon/metrics/utils.py: categorical_cross_entropy"]}
{"id": "C80", "title": "Cross-entropy fusion in backward mode", "statement": "DecomonLossFusion with backward=True returns an upper bound of the cross-entropy. (Refuted: it returns the softmax of the upper bounds, never above 1.)", "quantifier": "for all bounds and labels", "why_tests_cant": "Continuum; values look like probabilities.", "anchors": ["src/decomon/metrics/loss.py: DecomonLossFusion.call_backward"]}
{"id": "C81", "title": "Every output of the model gets its bounds", "statement": "convert with a forward method returns, for a model with several outputs, the bounds of each output. (Refuted: the last layer Convert2Mode keeps the tensors of the first output only.)", "quantifier": "for every number of outputs, mode and final mode", "why_tests_cant": "The lost outputs raise no error; the number of outputs is unbounded.", "anchors": ["src/decomon/models/convert.py: convert", "src/decomon/models/utils.py: Convert2Mode.call", "src/decomon/models/forward_cloning.py: convert_forward_functional_model"]}
{"id": "C82", "title": "Conversion leaves the user's model as it was", "statement": "After clone or convert, the Keras model given by the user has the same layer names and computes the same function. (Refuted: layers without activation to split are renamed, and a final Activation(\"softmax\") is turned into a linear one in the user's own model.)", "quantifier": "for every chain of layers, shared layers included", "why_tests_cant": "A side effect on objects the caller still holds; tests look at the returned model.", "anchors": ["src/decomon/models/convert.py: _clone_keras_model, preprocess_keras_model", "src/decomon/models/forward_cloning.py: convert_forward_functional_model", "src/decomon/layers/utils.py: softmax_to_linear"]}
{"id": "C83", "title": "Operations along an axis use the same axis for the weights", "statement": "sum, max_, expand_dims, broadcast and Concatenate along an axis process, for every model input, the weights along the axis along which the constants are processed. (Refuted for negative axes other than -1: the weights are processed along the next axis.)", "quantifier": "for every rank, axis, size and weights", "why_tests_cant": "All ranks and axes; wrong results have the right shape when the sizes agree.", "anchors": ["src/decomon/layers/utils.py: sum, max_, expand_dims, broadcast", "src/decomon/layers/decomon_merge_layers.py: DecomonConcatenate"]}
{"id": "C84", "title": "Bounds collapse to the value of the model on a single point", "statement": "On a box with equal bounds, or a ball of radius 0, the upper and lower bounds computed by a converted model are both the output of the model at that point: forward in every mode for every graph of layers, and CROWN for every chain.", "quantifier": "for every mode, slope, point, graph (forward) or chain (backward), weights and p in {1,2,inf}", "why_tests_cant": "Tests compare with a tolerance on one model; exact equality for all graphs is an induction.", "anchors": ["src/decomon/layers/decomon_layers.py", "src/decomon/layers/decomon_merge_layers.py", "src/decomon/models/forward_cloning.py", "src/decomon/models/backward_cloning.py", "src/decomon/core.py: BoxDomain, BallDomain"]}
{"id": "C85", "title": "The ReLU relaxation is the tightest one", "statement": "On [l,u] the upper line of get_linear_hull_relu is below every line above ReLU, the lower line of the default slope has the smallest area to ReLU among the lines below ReLU, and V_SLOPE and A_SLOPE give the same relaxation. (Refuted for l < 0 < u with u - l < epsilon.)", "quantifier": "for all l <= u, all competing lines, all slopes for the upper line", "why_tests_cant": "A comparison with every other line cannot be enumerated.", "anchors": ["src/decomon/utils.py: get_linear_hull_relu"]}
{"id": "C86", "title": "More sub-boxes never loosen the bounds", "statement": "For a converted model, increasing n_sub_boxes never loosens a bound returned by get_range_box (one output) and never raises a score returned by get_adv_box. (Proved in ibp mode; refuted in affine and hybrid mode.)", "quantifier": "for every network, batch of boxes, labels, batch sizes and two numbers of sub-boxes", "why_tests_cant": "Monotonicity in a parameter over all networks; the failure in hybrid mode needs a box where the ReLU slope changes.", "anchors": ["src/decomon/wrapper.py: get_range_box, get_adv_box, refine_boxes", "src/decomon/utils.py: get_linear_hull_relu"]}
{"id": "C87", "title": "Refining the box converges to the exact range", "statement": "For a forward-ibp model and every tolerance there is a number of sub-boxes from which get_range_box (one output) returns bounds that enclose the output and are within the tolerance of values taken by the model, and the score of get_adv_box is within the tolerance of the true worst margin; in particular a sample that is robust with a margin gets a negative score. In hybrid mode (without Multiply) the bounds are also within the tolerance of values of the model.", "quantifier": "for every network, box, labels, tolerance; over any Archimedean ordered field", "why_tests_cant": "A limit statement; no finite number of runs settles it.", "anchors": ["src/decomon/wrapper.py: refine_boxes, get_range_box, get_adv_box"]}
{"id": "C88", "title": "The order of the inputs of a commutative merge layer does not matter", "statement": "Add, Average, Maximum, Minimum and Multiply return the same bounds when their inputs are given in another order. (Refuted for Maximum, Minimum, and for Multiply in the upper affine bound or with three inputs.)", "quantifier": "for every mode, number of inputs, permutation and tensors", "why_tests_cant": "All permutations and tensors.", "anchors": ["src/decomon/layers/decomon_merge_layers.py", "src/decomon/utils.py: maximum, minimum", "src/decomon/layers/utils.py: multiply"]}
{"id": "C89", "title": "Interval bounds of one operation are the exact range", "statement": "In ibp mode the bounds of ReLU, Add, Subtract, Maximum, Multiply are the extreme values of the operation on independent inputs in the given intervals. (Exact conditions proved for Maximum and Multiply; e.g. the maximum of two values in [0,1] is reported to be at most 2.)", "quantifier": "for all intervals and any ordered field", "why_tests_cant": "Exactness over all intervals; tests only check soundness.", "anchors": ["src/decomon/utils.py: relu_, add, subtract, maximum", "src/decomon/layers/utils.py: multiply"]}
{"id": "C90", "title": "The lower relaxation of a maximum selects an entry that can be the maximum", "statement": "get_lower_linear_hull_max bounds the maximum of several entries from below by one entry. The entry is one that can attain the maximum (its upper bound reaches every lower bound), and the relaxation is not looser than the largest constant lower bound. (Proved under a condition that excludes a tie; refuted in general, and the tightness is refuted.)", "quantifier": "for every number of entries, all lower and upper bounds, over any ordered field", "why_tests_cant": "The failures need a tie in the penalised score or a fixed entry; a test on sampled values only sees that the bound is valid.", "anchors": ["src/decomon/layers/utils_pooling.py: get_lower_linear_hull_max"]}
{"id": "C91", "title": "Bounds follow the weights of the original model", "statement": "A model is converted with the default shared=True, then the weights of the original Keras model change (training, set_weights). The bounds computed afterwards enclose the outputs of the original model with its current weights. (Proved for networks without BatchNormalization, for all networks with crown; refuted with BatchNormalization for the forward methods and for crown-forward-ibp.)", "quantifier": "for every chain of layers, all weights at the conversion and later, all inputs of the domain, over any ordered field", "why_tests_cant": "A test checks one update of one network; the failure needs an update of a BatchNormalization after the conversion.", "anchors": ["src/decomon/layers/decomon_layers.py:133-137", "src/decomon/layers/decomon_layers.py:396-405", "src/decomon/layers/convert.py:70-77", "src/decomon/models/backward_cloning.py"]}
{"id": "C92", "title": "Without sharing, the converted model is isolated from the original", "statement": "With shared=False, the bounds of the converted model do not change when the weights of the original Keras model change afterwards, and stay valid for the model as it was at the conversion. (Proved for the forward methods; refuted for crown and crown-forward-ibp, whose backward layers read the original weights.)", "quantifier": "for every chain of layers, all weights at the conversion and later, all inputs of the domain, over any ordered field", "why_tests_cant": "A test checks one update; the claim is about every later state of the original model.", "anchors": ["src/decomon/layers/decomon_layers.py:111-137", "src/decomon/layers/decomon_layers.py:323-405", "src/decomon/backward_layers/convert.py:16-45", "src/decomon/models/backward_cloning.py"]}
{"id": "C93", "title": "reset_layer copies the named weights and nothing else", "statement": "After reset_layer(new, original, names) every named weight of the new layer has the value of the weight of that name in the original layer, and no other variable has changed. When it raises, no variable has changed. (Atomicity is proved when the shapes agree and refuted otherwise.)", "quantifier": "for all layers, lists of weights, names and values, shared variables included", "why_tests_cant": "A test copies one layer; the frame and the state after an exception are about all variables and all failures.", "anchors": ["src/decomon/keras_utils.py:76-141"]}
{"id": "C94", "title": "to_decomon bounds the layer that it is given or raises", "statement": "When to_decomon(layer) returns, the decomon layer bounds the function computed by the layer. It returns exactly when the layer is built, of a supported class, called with one input shape, and has one input if dc_decomp. (Refuted for a Dense or Conv2D with an activation argument, which is dropped without error.)", "quantifier": "for every layer, activation, sequence of calls and value", "why_tests_cant": "Tests convert layers with a linear activation; the claim covers every layer that is accepted.", "anchors": ["src/decomon/layers/convert.py:20-186"]}
{"id": "C95", "title": "to_backward uses the mode and the domain that it is given", "statement": "The layer returned by to_backward(layer, mode, perturbation_domain) propagates in that mode and that domain, for every class that to_decomon supports. (Refuted for decomon layers, whose own attributes win, for MaxPooling2D and Dot, which are always refused, and for five other merge layers, refused with KeyError as Keras layers.)", "quantifier": "for every class name, mode, domain, and wrapped layer", "why_tests_cant": "A test checks some classes; a conflict between the arguments and the layer is not observed by comparing bounds.", "anchors": ["src/decomon/backward_layers/convert.py:16-45", "src/decomon/backward_layers/core.py:25-51", "src/decomon/backward_layers/backward_merge.py:44-70", "src/decomon/backward_layers/backward_maxpooling.py:23-40"]}
{"id": "C96", "title": "A layer made again from its configuration behaves as before", "statement": "from_config(get_config()) gives a layer with the same parameters. (Proved for BackwardActivation; for DecomonActivation up to the slope, for Convert2Mode up to input_dim, for Dense and Conv2D without shared weights; refuted in the other cases.)", "quantifier": "for all values of the parameters", "why_tests_cant": "A test reloads with default parameters; the lost ones are visible only with other values.", "anchors": ["src/decomon/layers/core.py:75-87", "src/decomon/layers/decomon_layers.py:545-571", "src/decomon/backward_layers/backward_layers.py:232-269", "src/decomon/models/utils.py:285-355"]}
{"id": "C97", "title": "Batched identity and diagonal tensors", "statement": "BatchedIdentityLike and BatchedDiagLike return tensors of the shape that they announce, with the identity, respectively the input, on the diagonal of the last two dimensions. check_if_single_shape recognises the shape of one tensor. (Refuted for BatchedDiagLike from rank 3 on, and for the shape of a scalar.)", "quantifier": "for all shapes, entries and indices", "why_tests_cant": "A test checks some shapes; the rank is a parameter.", "anchors": ["src/decomon/keras_utils.py:16-63", "src/decomon/keras_utils.py:225-240"]}
{"id": "C98", "title": "The parameters of Dot are respected", "statement": "A converted Dot layer encloses the output of keras.layers.Dot built with the same parameters (normalize included), accepts exactly the inputs that Keras accepts, and its tensors have the announced shape. (Proved for normalize=False and for shapes when an input has rank at least 3; refuted for normalize=True and for the product of two vectors.)", "quantifier": "for all inputs, ranks, axes positive or negative, sizes, modes", "why_tests_cant": "normalize=True and vector inputs are two values of parameters among many; a test with the defaults passes.", "anchors": ["src/decomon/layers/decomon_merge_layers.py:540-633", "src/decomon/layers/utils.py:540-640"]}
{"id": "C99", "title": "The cross-entropy models bound the cross-entropy over the domain of the model", "statement": "build_crossentropy_model and build_asymptotic_crossentropy_model give, for every label, an upper bound of the cross-entropy (resp. of the margins) over the perturbation domain of the given model. (Proved for boxes in every mode and for balls in ibp mode; refuted for balls in affine and hybrid mode.)", "quantifier": "for all modes, boxes, balls, radii, norms, labels and points", "why_tests_cant": "The result is a number of plausible size; whether it is a bound over the whole ball needs the worst point of the ball.", "anchors": ["src/decomon/metrics/loss.py:372-425", "src/decomon/metrics/loss.py:595-639", "src/decomon/core.py:59-71"]}
{"id": "C100", "title": "Tuning returns and leaves the finetuning parameters at their initial value", "statement": "get_upper_box_tuning and get_lower_box_tuning return bounds on every consistent box, and reset_finetuning sets every finetuning parameter back to one. (Refuted: with Keras 3 every call of the tuning functions raises, reset_finetuning raises on every forward activation that has parameters, and the parameters of backward activations are never reset. Proved for forward activations when Variable.value is a method.)", "quantifier": "for all models, modes, activations, values of the parameters, boxes and batch sizes", "why_tests_cant": "Depends on the layers of the model and on the methods of another library; a test sees one model.", "anchors": ["src/decomon/wrapper_with_tuning.py:14-96", "src/decomon/wrapper_with_tuning.py:100-183", "src/decomon/layers/decomon_layers.py:624-631", "src/decomon/backward_layers/core.py:118-134", "src/decomon/models/models.py:93-96"]}
{"id": "C101", "title": "get_AB and get_AB_finetune find the parameters of the backward activations", "statement": "For a model converted with a grid domain and the option milp, get_AB and get_AB_finetune return the parameters of each of its backward activations. (Refuted for every model whose Keras layers have no name containing backward_activation: the dictionary is empty, because the conversion appends _backward to the name. What is proved: exactly the layers whose Keras name contains the pattern are found.)", "quantifier": "for all names, models and domains", "why_tests_cant": "Over all names of layers.", "anchors": ["src/decomon/models/models.py:131-163", "src/decomon/backward_layers/convert.py:16-45"]}
{"id": "C102", "title": "The target labels of get_adv_noise and check_adv_box are used", "statement": "With target labels, get_adv_noise and check_adv_box give the score of the pairs made of a source and a target label of the same sample, for every batch size. (Refuted: an integer target of get_adv_noise is replaced by the source labels, integer label arrays are not split into batches, and check_adv_box ignores the targets.)", "quantifier": "for all labels, batch sizes, models and boxes", "why_tests_cant": "The score has the right shape and sign in a single batch; the claim is about all labels and splits.", "anchors": ["src/decomon/wrapper.py:289-418", "src/decomon/wrapper.py:912-1112"]}
{"id": "C103", "title": "The lists by type agree with the inputs taken one by one", "statement": "get_fullinputs_by_type_from_inputsformode_to_merge gives, for every input to merge, the tensors that get_fullinputs_from_inputsformode gives for this input alone, with and without compute_ibp_from_affine. (Proved in ibp and hybrid mode, and in affine mode without the computation; refuted in affine mode with it: the upper constants are overwritten by the lower ones.)", "quantifier": "for all modes, numbers of inputs and tensors", "why_tests_cant": "Needs distinct upper and lower values in affine mode with several inputs; aliasing of lists is not visible in the shapes.", "anchors": ["src/decomon/core.py:286-420"]}
{"id": "C104", "title": "Forward bounds are sound up to an explicit multiple of epsilon", "statement": "For a network of Dense, convolution, ReLU, BatchNormalization, Reshape, Permute, Flatten, Dropout, Add, Average, Subtract, Maximum and Minimum layers, converted with a forward method, every bound returned by the decomon model (constant or affine, and the constant bounds obtained by concretising the affine ones) holds up to keras.config.epsilon() times a number computed from the weights alone: a linear layer multiplies the error by the absolute values of its weights, a ReLU doubles it and adds one quarter. No hypothesis on the intermediate bounds is needed, and one quarter is the smallest possible constant.", "quantifier": "for all networks without Multiply, weights, modes, slopes, finetuning values, input sets (box or ball) and inputs in them", "why_tests_cant": "The bounds are not exactly sound (C27); a test can neither find the inputs where they fail nor show how far they can fail for all weights.", "anchors": ["src/decomon/utils.py:128-202", "src/decomon/utils.py:343-399", "src/decomon/layers/decomon_layers.py:1-982", "src/decomon/models/forward_cloning.py:140-228"]}
{"id": "C105", "title": "CROWN bounds are sound up to an explicit multiple of epsilon", "statement": "For a chain of the same layers, the conversions crown and crown-forward-* succeed and their bounds hold up to the same multiple of keras.config.epsilon(), with intermediate bounds from either pass. With back_bounds = [C] the error in a column is the sum of the errors of the outputs weighted by the absolute values of the column. So a returned upper bound of y.C below minus this error certifies y.C <= 0 on the whole input set.", "quantifier": "for all chains, weights, modes, slopes, finetuning values, boxes (balls in affine and hybrid mode), matrices C and inputs", "why_tests_cant": "The bounds are not exactly sound (C28); only a proof gives the margin after which a verdict can be trusted.", "anchors": ["src/decomon/models/crown.py:18-186", "src/decomon/models/backward_cloning.py:82-282", "src/decomon/backward_layers/activations.py:42-87"]}
{"id": "C106", "title": "The grid search returns the best value of the required sign", "statement": "get_lower_bound_grid(x, W, b, n) returns the largest value that is not positive of W x + b over the regular grid with n steps per coordinate of the box, and get_upper_bound_grid the smallest value that is not negative. (Proved: the value is attained on the grid and has the right sign, it is within one step of the best one, it is the best one when all the steps are equal, and it is 0 when there is no such value. Refuted: the best value in general; the pair of get_bound_grid does not bound W x + b.)", "quantifier": "for all boxes, weights, biases and numbers of steps", "why_tests_cant": "The number of grid points is exponential and the greedy choice is right on regular examples; the claim is about all weights.", "anchors": ["src/decomon/utils.py:79-124"]}
{"id": "C107", "title": "Sharing weights makes the new layer use and track exactly the variables of the original layer", "statement": "After share_weights_and_build, share_layer_all_weights or the split of a layer and its activation, each shared name of the new layer denotes the very variable of the original layer, the new layer tracks exactly these variables (and its own other ones), and no variable made by build for a shared name is left; reset_layer_all_weights copies every value. Unbuilt or uncalled original layers and built new layers raise ValueError, a weight whose name is not an attribute raises AttributeError. (Refuted when build of the new layer does not set the attribute: the shared variable is no longer tracked.)", "quantifier": "for all layers, sets of variables, names (including read-only properties such as kernel) and orders", "why_tests_cant": "Tests share one Dense layer; tracking is by identity and depends on the order of tracking, locking and untracking for every layer class.", "anchors": ["src/decomon/keras_utils.py:144-217", "src/decomon/models/utils.py:187-218"]}
{"id": "C108", "title": "Forward interval bounds of networks of any supported layers are sound, monotone, exact on a point and converge", "statement": "Let a functional Keras model be built from Dense, Conv2D, Flatten, Reshape, Permute, Dropout, BatchNormalization (inference), MaxPooling2D (fast), Activation relu / linear / sigmoid / tanh / softsign / exponential / softplus, Add, Average, Subtract, Maximum, Minimum, Multiply, Concatenate (any number of inputs) and Dot (last axes). For clone(model, method='forward-ibp'): (1) for every box or Lp ball (p = 1, 2, inf) and every point of it, l_c <= model(x) <= u_c; (2) on a box inside another one the bounds are at least as tight; (3) on a box reduced to a point both bounds are the prediction; (4) with n_sub_boxes large enough get_range_box is within any tolerance of the exact range, and get_adv_box is negative for every sample on which each source logit beats each target logit at every point of the box.", "quantifier": "for all networks of these layers (any depth, sharing, sizes, weights), all boxes or balls, all points, all tolerances, all batch sizes and all numbers of sub-boxes above a threshold", "why_tests_cant": "tests try a few architectures with random weights and sample points; soundness at all points, monotonicity, and convergence as the number of sub-boxes grows are limits over infinite sets", "anchors": ["src/decomon/models/forward_cloning.py:132-228", "src/decomon/layers/decomon_layers.py", "src/decomon/layers/decomon_merge_layers.py", "src/decomon/layers/activations.py:94-440", "src/decomon/layers/maxpooling.py:158-185", "src/decomon/wrapper.py"]}
{"id": "C109", "title": "clone checks its input and describes the model that it returns", "statement": "clone succeeds on every functional or sequential model with one flattened input of known size, for box domains and balls of norm 1, 2 or inf, when the layers can be converted; it raises ValueError, NotImplementedError or TypeError on the other ones, in a fixed order. The input of the returned model has the shape of the domain, and its attributes ibp and affine tell get_range_box how many outputs to read. (Last part refuted for final_ibp=False, final_affine=False: five outputs, attributes that announce none, and get_range_box raises.)", "quantifier": "for every object given as model, every method string, domain, final mode, layer_fn, and every outcome of the conversion of the layers", "why_tests_cant": "The checks combine a dozen independent conditions whose order decides the exception; tests try each of them alone.", "anchors": ["src/decomon/models/convert.py:clone", "src/decomon/models/utils.py:check_model2convert_inputs", "src/decomon/models/utils.py:get_input_dim", "src/decomon/models/utils.py:get_input_tensors", "src/decomon/models/utils.py:ensure_functional_model"]}
{"id": "C110", "title": "The options of clone reach the converted layers", "statement": "Each layer of the forward pass is converted by the given layer_fn, each layer of the backward pass by to_backward, with the slope, domain, mode, sharing and finetuning asked for; an unknown option is an error; softmax_to_linear=False keeps the softmax. (Proved for the default layer_fn and for those with a parameter input_dim; refuted for other callables, which receive nothing, for crown, which ignores layer_fn, for misspelt options, which are ignored, for softmax_to_linear in the backward pass, and for the attribute finetune.)", "quantifier": "for every combination of the options of clone and every model that it accepts", "why_tests_cant": "The options form a large product and are dropped silently: a dropped option still gives bounds, only not the ones asked for.", "anchors": ["src/decomon/models/convert.py:convert", "src/decomon/models/convert.py:clone", "src/decomon/models/forward_cloning.py:include_dim_layer_fn", "src/decomon/models/forward_cloning.py:convert_forward", "src/decomon/models/backward_cloning.py:convert_backward", "src/decomon/models/backward_cloning.py:crown_model"]}
{"id": "C111", "title": "The error of a refined range is known in advance", "statement": "For models of dense, convolution, batch normalization, ReLU, reshaping and merge layers other than Multiply, let S be the number obtained by replacing every weight by its absolute value and every box by its width (Maximum and Minimum count their first input twice). The forward-ibp bounds on a box of widths s are at most S(s) wide, exactly S(s) when the model has no ReLU, Maximum or Minimum. With 2^(e n) sub-boxes (n input coordinates) get_range_box is within S W / 2^e of the exact range, W the largest width of the box, and get_adv_box certifies every sample whose margin is more than 2 S W / 2^e.", "quantifier": "for every such model, weights, batch of boxes, exponent e, number of sub-boxes at least 2^(e n), and batch size", "why_tests_cant": "A rate of convergence speaks of all numbers of sub-boxes and of the exact extrema, which no test computes.", "anchors": ["src/decomon/wrapper.py:get_range_box", "src/decomon/wrapper.py:get_adv_box", "src/decomon/wrapper.py:refine_boxes", "src/decomon/models/convert.py:clone"]}
{"id": "C112", "title": "dc_decomp=True gives a convex and a concave part that sum to the value", "statement": "With dc_decomp=True a chain of Dense, Conv2D, ReLU, Flatten, Reshape, Permute and Dropout layers returns two more tensors h and g: as functions of the model input h is convex, g is concave, h + g is the value of the network, and all bounds are the same as without them; BatchNormalization and merge layers raise NotImplementedError. The functions add, minus, subtract, maximum, minimum and max_ keep h convex and g concave. (The sum is refuted in affine mode when a ReLU meets a sliver; the bounds of max_ in ibp mode are refuted: they are wider with dc_decomp=True.)", "quantifier": "for every chain of layers, weights, mode, slope, convex set of inputs, and every convex h and concave g given for the input", "why_tests_cant": "Convexity relates all pairs of inputs; tests only compare h + g with the output at sampled points.", "anchors": ["src/decomon/utils.py:relu_", "src/decomon/layers/decomon_layers.py:DecomonDense.call", "src/decomon/layers/decomon_layers.py:DecomonConv2D.call", "src/decomon/layers/utils.py:max_", "src/decomon/utils.py:maximum"]}
{"id": "C113", "title": "The backward pass through sigmoid, tanh, softsign and softplus", "statement": "BackwardActivation accepts the Keras names, raises NotImplementedError for elu, selu, exponential and softmax, and returns bounds that hold at all the vectors within the constant bounds of its input, of the announced shapes, so that crown of a chain of layers with such activations is sound, and exact on a single point. (Soundness is refuted: for sigmoid, tanh and softsign it holds exactly when each interval is a point or is at least epsilon wide and does not meet zero; for softplus the upper bound is always wrong. The shapes are refuted: for bounds of rank 3 or more sigmoid, tanh and softplus do not flatten them, and chaining raises ValueError.)", "quantifier": "for every activation name, mode, slope, finetuning variables, bounds of the input, shape of the input, and every chain of layers and box", "why_tests_cant": "Whether the lines enclose the function is a statement about all points of all intervals; tests sample a few intervals and compare within a tolerance, and use inputs of rank 2.", "anchors": ["src/decomon/backward_layers/activations.py", "src/decomon/backward_layers/backward_layers.py:BackwardActivation.call", "src/decomon/utils.py:get_linear_hull_s_shape", "src/decomon/utils.py:get_linear_softplus_hull", "src/decomon/models/crown.py:MergeWithPrevious"]}
{"id": "C114", "title": "Backward Dense, BatchNormalization and Permute on tensors of any rank", "statement": "The backward layers of Dense, BatchNormalization and Permute return the affine map of their layer over the flattened tensor, of the announced sizes, whatever the rank of the input, by every backward method. (Refuted for pure crown: there the bounds of the input come flattened, so Dense with two rows or more and BatchNormalization with several channels raise when the model is run, BatchNormalization with axis -2 scales each sample by one channel when the batch is as large as the number of channels, and Permute raises; with a forward pass Dense and BatchNormalization are right for every rank and axis.)", "quantifier": "for every rank and shape of the input, number of units or channels, axis, kernel, bias, batch size and backward method", "why_tests_cant": "The model is built without an exception from the announced shapes; the layer tests call the backward layers with bounds of the full shape, and the tests of crown use inputs of rank 2 only.", "anchors": ["src/decomon/backward_layers/backward_layers.py:BackwardDense.call", "src/decomon/backward_layers/backward_layers.py:BackwardBatchNormalization.call", "src/decomon/backward_layers/backward_layers.py:BackwardPermute.call", "src/decomon/models/backward_cloning.py:get_input_nodes", "src/decomon/models/crown.py:Convert2BackwardMode"]}
{"id": "C115", "title": "Max pooling with fast=False bounds the max pooling", "statement": "DecomonMaxPooling2D(fast=False) returns valid bounds of keras MaxPooling2D on an image, for every pool_size, strides, padding, mode and dc_decomp. (Proved for square windows and windows of height one: in ibp mode without padding or on images without negative entry, in the other modes outside the sliver of the ReLU hull; with padding=\"same\" the ibp bounds are right exactly when no negative maximum is taken over a window that sticks out of the image. Refuted for negative images with padding=\"same\", for wider windows, whose bounds count entries twice, and for higher windows, which raise IndexError.)", "quantifier": "for every image size, number of channels, window, strides, padding, mode, valid input and point of the domain", "why_tests_cant": "The tests use the default 2x2 windows without padding on non-negative or small sampled images; the zeros of the padding only show on a window over negative entries.", "anchors": ["src/decomon/layers/maxpooling.py:DecomonMaxPooling2D._pooling_function_not_fast", "src/decomon/layers/maxpooling.py:DecomonMaxPooling2D.__init__", "src/decomon/layers/utils.py:max_"]}
{"id": "C116", "title": "build_radius_robust_model certifies labels, and fractions of the box", "statement": "A negative entry i of the model returned by build_radius_robust_model means that label i is strictly above every other label at every point of the box given as input, and an entry below 1 - s means the same on the box shrunk by the factor s around its centre; with backward bounds of margins against a label, only the entry of that label can be negative. The model can be built from any model returned by clone over a box. (Refuted: with the default final mode, the methods crown, crown-forward-ibp and forward-ibp give models on which it raises NotImplementedError; with crown and crown-forward-ibp and final_affine=True the model is built but raises when it is run, unless the numbers of inputs and outputs agree or one is 1.)", "quantifier": "for every network (a chain for the backward methods), box, point of the box, label, fraction s in (0,1], method with affine bounds, final mode and slope, outside the sliver of the ReLU hull", "why_tests_cant": "A certificate is about the continuum of points of a box; the repository has no test of the radius layer against points of a shrunk box, and none of the models that cannot be built.", "anchors": ["src/decomon/metrics/loss.py:DecomonRadiusRobust", "src/decomon/metrics/loss.py:build_radius_robust_model", "src/decomon/models/convert.py:clone", "src/decomon/models/backward_cloning.py:convert_backward"]}
{"id": "C117", "title": "The layers of the preprocessed model have distinct names", "statement": "The first step of clone, preprocess_keras_model, does not raise over the names of the layers: the layers of the model that it builds have names that differ from each other and from those of the inputs, whatever the names in the model given, with shared layers, nested models and repeated conversions of the same model. (Refuted: a functional model with three layers with a fused activation used as a layer, or a Sequential one with two, gives a ValueError when the last of these has the name of the next layer of the outer model, and so does an input named n_0 before a layer named n.)", "quantifier": "for every chain of layers and nested models, sharing of layers, names of the layers and of the inputs", "why_tests_cant": "Keras checks the names when the model is built, and whether they clash depends on the names, on the nesting and on the number of fused activations; the tests use models with generated names.", "anchors": ["src/decomon/models/convert.py:preprocess_keras_model", "src/decomon/models/convert.py:_clone_keras_model", "src/decomon/models/forward_cloning.py:convert_forward_functional_model", "src/decomon/models/utils.py:get_inner_layers", "src/decomon/models/utils.py:split_activation"]}
{"id": "C118", "title": "Interval bounds hold for the numbers that are actually computed", "statement": "In rounded arithmetic, the outputs that the Keras model computes at the points of the box lie within the bounds that the forward-ibp model computes for the box. (Refuted in float32: one Dense layer with weights 2^25, -2^25, 1 returns 1 at the point (1,1,1), where both computed bounds are 0. Proved up to an explicit slack, proportional to the rounding error and read off the weights and the computed bounds, whatever the order of the sums; so a computed margin larger than the slack is a certificate. Proved without slack when the weights of each unit have one sign and the sums are computed in the same order.)", "quantifier": "for every chain of Dense and ReLU layers, weights, box, point of the box, order of the sums and rounding (for the slack: with a bounded relative error; without slack: monotone); binary formats with any number of digits are shown to be such roundings", "why_tests_cant": "A test compares with a tolerance at a few points, so it can neither see an enclosure that fails by rounding nor bound by how much it can fail.", "anchors": ["src/decomon/layers/decomon_layers.py:DecomonDense.call", "src/decomon/utils.py:relu_", "src/decomon/models/convert.py:clone"]}
{"id": "C119", "title": "The bounds do not depend on the units nor on the numbering of the neurons", "statement": "If a network is rewritten in other units (inputs, hidden neurons and outputs multiplied by non-zero factors, shifted and renumbered, the weights absorbing the change) then its bounds over the box written in the new units are the images of the bounds of the original network, with upper and lower exchanged for negative factors. In particular normalised and raw inputs give the same bounds when the first layer absorbs the normalisation. (Proved without condition when the factors at the ReLU, maximum and minimum layers are 1; with other positive factors, when no ReLU meets the epsilon guard of the hull; refuted for intervals shorter than the guard, and for a change of sign in a product.)", "quantifier": "for every network of Dense, convolution-like, ReLU, BatchNormalization, reshaping and merge layers, every rewriting, every box, every mode and slope, forward; without merge layers for crown and crown-forward methods", "why_tests_cant": "A test checks one network over one box; that the result is independent of a choice of units is a relation between the results of two conversions, for all networks and all choices.", "anchors": ["src/decomon/models/convert.py:clone", "src/decomon/models/forward_cloning.py:convert_forward", "src/decomon/models/backward_cloning.py:crown_model", "src/decomon/layers/decomon_layers.py:DecomonDense.call", "src/decomon/utils.py:get_linear_hull_relu", "src/decomon/layers/utils.py:multiply"]}
{"id": "C120", "title": "Folding BatchNormalization and merging consecutive linear layers", "statement": "Folding a BatchNormalization into the Dense or Conv2D layer next to it, and removing reshapings, Dropout and linear activations, leaves the bounds returned by every method unchanged. Merging any two consecutive linear layers into the one layer that computes the same function leaves the bounds of crown (and its exceptions) unchanged and can only tighten the intervals of forward-ibp; it can change the bounds of crown-forward-ibp, and can loosen those of forward-affine.", "quantifier": "for every network of the modelled layers and every sequence of mergings anywhere in it, every box (every ball with p = 1, 2, inf for the forward methods; every domain for crown), every mode and slope", "why_tests_cant": "A test compares two given networks on given boxes; that the result does not depend on how linear layers are grouped is a relation between the conversions of all equivalent networks.", "anchors": ["src/decomon/layers/decomon_layers.py:DecomonDense.call", "src/decomon/layers/decomon_layers.py:DecomonConv2D.call", "src/decomon/layers/decomon_layers.py:DecomonBatchNormalization.call", "src/decomon/backward_layers/backward_layers.py:BackwardBatchNormalization.call", "src/decomon/models/crown.py:merge_with_previous", "src/decomon/models/backward_cloning.py:crown_", "src/decomon/models/forward_cloning.py:convert_forward"]}
{"id": "C121", "title": "Small changes of the box or of the weights change the bounds little", "statement": "When the corners of the box and the parameters of the network move by small amounts, the bounds returned by a method move by a small amount, so a certificate with a margin survives small changes of the weights (quantisation, storage in another format, a further training step). (Proved for forward-ibp with an explicit bound on the movement, read off the weights and the box and proportional to the changes; a certificate for the original network then bounds the margins of the changed network. Refuted for forward-affine, forward-hybrid and crown with the default slope: on ReLU(x) + ReLU(10 - x) the lower bound is 9 on [-1, 1] and 10 on every slightly longer interval, or as soon as the first bias is slightly raised.)", "quantifier": "for every network of the modelled layers, every box, all changes of the corners and of the parameters, standard deviations bounded below", "why_tests_cant": "A test perturbs one network by one amount; continuity speaks about all perturbations, and the jump only appears at the exact tie of the two areas of the ReLU relaxation.", "anchors": ["src/decomon/layers/decomon_layers.py:DecomonDense.call", "src/decomon/layers/decomon_layers.py:DecomonConv2D.call", "src/decomon/layers/decomon_layers.py:DecomonBatchNormalization.call", "src/decomon/layers/activations.py:relu", "src/decomon/utils.py:get_linear_hull_relu", "src/decomon/utils.py:relu_", "src/decomon/wrapper.py:get_lower_box"]}
{"id": "C122", "title": "The lower bounds returned never exceed the upper bounds", "statement": "get_upper_box and get_lower_box (get_upper_noise and get_lower_noise) return the two arrays of get_range_box (get_range_noise), raise together and the same exception, and at every place the lower bound is at most the upper bound. (Proved for any model whose bounds are valid, any number of outputs, samples and sub-boxes and any batch_size, and without condition for forward-ibp. Refuted for forward-affine, forward-hybrid and crown: on the box [-1e-9, 1e-9] the ReLU relaxation guarded by epsilon makes the lower bound of a small network exceed its upper bound by any amount. Refuted for a negative eps in the noise functions.)", "quantifier": "for every model, all lists of boxes, every n_sub_boxes and batch_size; all balls with p = 1, 2, inf; every mode", "why_tests_cant": "Tests check the order of the bounds on a few boxes of ordinary width; the crossing needs a box narrower than epsilon, and the guarantee is about all of them.", "anchors": ["src/decomon/wrapper.py:get_upper_box", "src/decomon/wrapper.py:get_lower_box", "src/decomon/wrapper.py:get_upper_noise", "src/decomon/wrapper.py:get_lower_noise", "src/decomon/wrapper.py:get_range_box", "src/decomon/wrapper.py:get_range_noise", "src/decomon/utils.py:get_linear_hull_relu"]}
{"id": "C123", "title": "Interval certificates survive inexact computations in any network", "statement": "When the layers of the Keras model and of its forward-ibp conversion do not compute exactly, each with an error bounded in terms of the size of its inputs, the computed outputs at every point of the box (or a little outside of it) lie within the computed bounds up to a slack that is computed from the network layer by layer; a computed margin between two classes larger than their two slacks is a certificate for the computed outputs, and the computed bounds hold for the exact function up to the same slack. In rounded arithmetic, with sums in any order and the operations of the code one by one, the errors are explicit powers of one plus the unit roundoff. Without errors the slack is zero and the computed bounds are those of the exact model.", "quantifier": "for every network of Dense, Conv2D, ReLU, BatchNormalization, Flatten, Reshape, Dropout and the merge layers Add, Average, Subtract, Maximum, Minimum, Multiply on two inputs, with branches and skip connections; all weights, boxes and points; every error model that grows with the size of the inputs; every rounding with bounded relative error", "why_tests_cant": "A test runs one backend on one machine with a tolerance; the claim is about every backend, order of summation and precision, and says which tolerance is justified.", "anchors": ["src/decomon/layers/decomon_layers.py:DecomonDense.call", "src/decomon/layers/decomon_layers.py:DecomonConv2D.call", "src/decomon/layers/decomon_layers.py:DecomonBatchNormalization.call", "src/decomon/layers/decomon_merge_layers.py", "src/decomon/layers/utils.py:multiply", "src/decomon/utils.py:maximum", "src/decomon/models/forward_cloning.py:convert_forward_functional_model"]}
{"id": "C124", "title": "A backward pass after a forward pass does not lose to the forward pass", "statement": "The methods crown-forward-affine and crown-forward-hybrid return affine bounds that lie, at every point of the perturbation domain, between the affine bounds of the forward pass they start from; hence the ranges read off the affine bounds over a box or a ball are at least as tight, also for bounds on linear combinations of the outputs (back_bounds). With at most one activation layer the method crown gives the same result.", "quantifier": "for every chain of Dense, Conv2D, ReLU, BatchNormalization, Flatten, Reshape, Dropout layers outside the sliver of the ReLU hull, with the same finetuning parameters in both passes; every slope, weights, box and ball with p in {1, 2, inf}", "why_tests_cant": "Tests compare the methods on a few small networks; whether the more expensive method can ever be worse is a statement about all networks, and for the method crown it is false only from a certain depth on.", "anchors": ["src/decomon/models/backward_cloning.py:crown_", "src/decomon/models/backward_cloning.py:get_input_nodes", "src/decomon/models/crown.py:MergeWithPrevious", "src/decomon/models/crown.py:Convert2BackwardMode", "src/decomon/models/convert.py:clone", "src/decomon/layers/decomon_layers.py"]}
{"id": "C125", "title": "Bounds of every method shrink in proportion to the input region", "statement": "For a network without Multiply the bounds returned by any method on a box of widths w are at most N.spread(w) apart, a number read off the weights that is linear in w; on a ball of radius eps they are at most 2 * eps * N.spread(1) apart, and with back_bounds the widths are weighted by the absolute values of the given matrix. Hence, with 2^(j*n) sub-boxes, get_range_box of every method is within spread * W / 2^j plus the epsilon error of the ReLU relaxation of the exact range, and get_adv_box in affine and hybrid mode certifies every sample whose margin exceeds twice that.", "quantifier": "for every network of the modelled layers without Multiply in forward conversion and every chain in backward conversion, all weights, slopes, finetuning parameters in [0, 1], modes, boxes and balls with p in {1, 2, inf}, numbers of sub-boxes", "why_tests_cant": "Tests look at a few boxes of fixed size; that linear relaxations cannot amplify the width of the input region beyond a factor given by the weights, and that splitting therefore converges for every method, concerns all boxes and all networks.", "anchors": ["src/decomon/models/forward_cloning.py:convert_forward", "src/decomon/models/backward_cloning.py:crown_", "src/decomon/utils.py:get_linear_hull_relu", "src/decomon/core.py:get_upper_box", "src/decomon/core.py:get_upper_ball", "src/decomon/wrapper.py:get_range_box", "src/decomon/wrapper.py:get_adv_box", "src/decomon/wrapper.py:refine_boxes"]}
{"id": "C126", "title": "A ball for the sup norm and the box with the same points get the same bounds", "statement": "A conversion over BallDomain(eps, p=inf) evaluated at z returns the same constant and affine bounds as a conversion over BoxDomain evaluated at [z - eps, z + eps], for every method; get_range_noise of the one equals get_range_box of the other. For p in {1, 2, inf} the bounds of a single affine function are nested like the balls, and interval propagation gives the three norms the bounds of the box. (A smaller ball does not always get tighter bounds, and the backward methods in ibp mode do not agree: both refuted.)", "quantifier": "for every network of the modelled layers, all weights, slopes, modes, centres, radii eps >= 0 and p in {1, 2, inf}", "why_tests_cant": "Tests compare each domain with sampled points; that two domains with the same points are treated alike through every layer and every method, and that the norm does or does not matter, concerns all networks and all centres.", "anchors": ["src/decomon/core.py:BallDomain", "src/decomon/core.py:BoxDomain", "src/decomon/core.py:get_upper_ball", "src/decomon/core.py:get_lower_ball", "src/decomon/core.py:get_lq_norm", "src/decomon/models/utils.py:get_input_tensors", "src/decomon/models/forward_cloning.py:convert_forward", "src/decomon/models/backward_cloning.py:crown_", "src/decomon/wrapper.py:get_range_noise", "src/decomon/wrapper.py:get_adv_noise"]}
{"id": "C127", "title": "On a region where no activation switches the affine and the backward bounds are exact", "statement": "When no ReLU changes sign on the region (and the same input of every Maximum/Minimum stays the greater one), the upper and the lower affine bounds of a model converted with forward-affine, forward-hybrid, crown (any mode), crown-forward-affine or crown-forward-hybrid are both the network itself on the region; the range read by get_range_box or get_range_noise is the exact range; with back_bounds [C] the bounds of C^T y are exact. With sub-boxes it is enough that no activation switches inside each of them: get_range_box then returns the exact range and the score of get_adv_box (affine or hybrid) is the greatest margin that is reached, so it is negative exactly when no adversarial point exists. (forward-ibp and crown-forward-ibp are not exact on such regions: witness.)", "quantifier": "for every network of the modelled layers without Multiply (chains for the backward methods), all weights, slopes, non-empty boxes and Lp balls with p in {1, 2, inf}, all numbers of sub-boxes and batch sizes; stability is a condition on the values of the network, not on its bounds", "why_tests_cant": "A test can only compare a few regions with sampled extrema; exactness means that the extremum of an uncountable set is reached and never exceeded, and that the bounds recognise the stability of every neuron of an arbitrary network.", "anchors": ["src/decomon/utils.py:relu_", "src/decomon/utils.py:get_linear_hull_relu", "src/decomon/utils.py:maximum", "src/decomon/backward_layers/activations.py:backward_relu", "src/decomon/models/forward_cloning.py:convert_forward", "src/decomon/models/backward_cloning.py:crown_", "src/decomon/models/crown.py:Convert2BackwardMode", "src/decomon/wrapper.py:get_range_box", "src/decomon/wrapper.py:get_range_noise", "src/decomon/wrapper.py:get_adv_box"]}
{"id": "C128", "title": "The affine and hybrid forward bounds are right through every combination of the supported layers", "statement": "Converting with forward-ibp, forward-affine or forward-hybrid a model that combines the layers of C31 with sigmoid, tanh, softsign, exponential, softplus, max pooling, Concatenate, Subtract, Dot and the n-ary Add, Average, Maximum, Minimum, Multiply gives constants and affine bounds that hold at every point of the region; get_range_box and get_adv_box on it are right; the hybrid constants are inside the interval ones; on a single point every bound is the prediction.", "quantifier": "for every network of these layers, all weights, every mode and slope, every sound perturbation domain (boxes and Lp balls in particular), provided no activation receives an interval on which its own lines are wrong (an s-shaped one a proper interval that meets zero or is shorter than epsilon, the exponential a proper interval shorter than epsilon, softplus any interval)", "why_tests_cant": "A test runs a few architectures on a few boxes; the claim is about every composition of layers and every point of an uncountable region, and says exactly for which boxes one s-shaped activation is wrong.", "anchors": ["src/decomon/models/forward_cloning.py:convert_forward_functional_model", "src/decomon/layers/activations.py:sigmoid", "src/decomon/layers/activations.py:tanh", "src/decomon/layers/activations.py:softsign", "src/decomon/layers/activations.py:exponential", "src/decomon/layers/activations.py:softplus", "src/decomon/layers/decomon_merge_layers.py:DecomonMultiply", "src/decomon/layers/decomon_merge_layers.py:DecomonDot", "src/decomon/layers/decomon_merge_layers.py:DecomonConcatenate", "src/decomon/layers/maxpooling.py:DecomonMaxPooling2D"]}
{"id": "C129", "title": "Flatten reads its input in the order of its data format", "statement": "Converting a model with Flatten(data_format=f) (forward methods or crown) bounds the values in the order in which the Keras layer puts them: the constants are right for both formats; the affine bounds and the backward layer are right if and only if the format is channels_last or the image has one channel or one place (with channels_first the biases are moved and the weights are not).", "quantifier": "for every image with c channels and s places, every mode, every box with an interior, every sound perturbation domain", "why_tests_cant": "The library tests use the default format; the claim quantifies over all sizes, weights and boxes, and says exactly when the layer is right.", "anchors": ["src/decomon/layers/decomon_layers.py:DecomonFlatten", "src/decomon/backward_layers/backward_layers.py:BackwardFlatten"]}
{"id": "C130", "title": "BackwardPermute represents Permute at any rank", "statement": "The affine bounds of BackwardPermute are the permutation done by the layer whenever the permutation keeps the shape of the input; for Permute((2, 3, 1)) and Permute((3, 1, 2)) on images with all sizes at least 2, if and only if the first and the last size are equal.", "quantifier": "for every rank, every shape and every permutation (sufficient condition); for every three-dimensional shape with sizes at least 2 (exact condition for the two permutations that move the channels)", "why_tests_cant": "All ranks and shapes; tests on square shapes pass.", "anchors": ["src/decomon/backward_layers/backward_layers.py:BackwardPermute"]}
{"id": "C131", "title": "A converted graph of layers bounds the Keras graph", "statement": "clone(model, method=forward-ibp/affine/hybrid) on a functional model in which nodes may share parents (residual branches, layers with many inputs) raises nothing, passes to every node the tensors of its own parents in the order of its arguments, and returns tensors that bound the output of the Keras model at every point of the domain, in the final mode asked for; on a single point they are equal to the output.", "quantifier": "for every finite directed graph of the supported layers and merge layers with one input and one output, all shapes and weights, all three modes and final modes (except from ibp to another one), every sound perturbation domain (boxes, Lp balls), every point; in ibp mode with no exception, in the other modes when no activation is given an interval on which its own lines are wrong", "why_tests_cant": "The graphs, shapes, weights and points are unbounded; the tests convert a few fixed models and compare on sampled points.", "anchors": ["src/decomon/models/forward_cloning.py:convert_forward_functional_model", "src/decomon/models/convert.py:clone", "src/decomon/models/utils.py:Convert2Mode", "src/decomon/core.py:InputsOutputsSpec"]}
{"id": "C132", "title": "From the Keras graph to the bounds and the certificates that the user reads", "statement": "Let dm = clone(model, method=forward-...). get_range_box(dm, x_min, x_max, batch_size) returns, at the position of every sample and of every entry of the output (row-major order when the output has several axes), numbers that enclose the output of the Keras model over the whole box; a negative score of get_adv_box (with or without sub-boxes) means that every source label is strictly above every target label over the whole box; get_range_noise encloses the outputs over the ball. Nothing raises. (get_adv_box in ibp and hybrid mode raises ValueError for outputs with several axes: refuted there.)", "quantifier": "for every graph of the supported layers, all shapes and weights, every batch and batch size, every list of boxes, every label vectors, all forward methods and final modes, every point; in ibp mode with no exception, in the other modes when no activation is given an interval on which its own lines are wrong", "why_tests_cant": "The chain from the model to the returned arrays crosses the conversion, the lists of tensors, the unpacking by mode, the reshapes and the batches; tests check single combinations of them on sampled points.", "anchors": ["src/decomon/wrapper.py:get_range_box", "src/decomon/wrapper.py:get_adv_box", "src/decomon/wrapper.py:get_range_noise", "src/decomon/models/convert.py:clone", "src/decomon/models/models.py:DecomonModel.predict_on_single_batch_np"]}
{"id": "C133", "title": "Maximum, Minimum, max_, min_ and sort are right up to an explicit multiple of epsilon, in every mode", "statement": "The bounds returned by DecomonMaximum and DecomonMinimum on any number of inputs, by max_ and min_ along an axis, and by sort at each position, enclose the maximum, the minimum and the i-th smallest value up to eps * e, where eps = keras.config.epsilon() and e depends only on the number of inputs and on the error s of the inputs: e = (2*3^n - 1)*s + (3^n - 1)/8 for the maximum of n + 1 inputs, e = 5^(n(n-1)/2)*s + (5^(n(n-1)/2) - 1)/16 for the sort of n inputs.", "quantifier": "for every mode (ibp, affine, hybrid), every perturbation domain whose two functions are sound, all input tensors that are right up to eps * s, every number of inputs, every point of the domain; no interval is excluded", "why_tests_cant": "The error comes from intervals of width below epsilon met inside the chained ReLU hulls, which sampled inputs do not hit, and it grows with the number of inputs.", "anchors": ["src/decomon/layers/utils.py:max_", "src/decomon/layers/utils.py:min_", "src/decomon/layers/utils.py:sort", "src/decomon/layers/decomon_merge_layers.py:DecomonMaximum", "src/decomon/layers/decomon_merge_layers.py:DecomonMinimum"]}
{"id": "C134", "title": "A negative AdversarialCheck.linear_adv certifies the source label", "statement": "For bounds that are valid over the perturbation domain and a one-hot source label, linear_adv(z, y, w_u, b_u, w_l, b_l) < 0 implies that the source label is strictly above every other label over the whole domain. (Refuted: line 111 leaves the bias of the source out of the score of the other labels; true when the lower bias of the source is non-negative, and the score minus that bias always bounds the margin.)", "quantifier": "for every number of labels and inputs, every perturbation domain with sound functions, all valid affine bounds, every source label, every point of the domain", "why_tests_cant": "Tests compare signs on a few models whose biases are small; the sign of the bias of the source decides.", "anchors": ["src/decomon/metrics/metric.py:AdversarialCheck.linear_adv"]}
{"id": "C135", "title": "backward_linear_prod composes backward bounds with the bounds of the layer before", "statement": "If bounds_x are a lower and an upper line of the values y at a point of the perturbation domain and back_bounds hold at y, then backward_linear_prod(x_0, bounds_x, back_bounds) holds at the point. (Proved for backward bounds with the extra axis of size one; refuted for the shape the backward layers return: the call raises or the weights carry the batch axis twice.)", "quantifier": "for every perturbation domain with sound functions, all numbers of inputs, entries and outputs, all weights, every point of the domain; every batch size for the shapes", "why_tests_cant": "The function is not called by the tests; the masks matter exactly where two lines meet, and the shapes only fail for particular sizes.", "anchors": ["src/decomon/backward_layers/utils.py:backward_linear_prod"]}
{"id": "C136", "title": "backward_sort returns backward bounds of the sorted values", "statement": "backward_sort(inputs, w_u_out, b_u_out, w_l_out, b_l_out) returns one set of backward bounds per sample for every batch. (Refuted: it raises ValueError unless the number of entries divides the batch size, in particular on every single sample with two or more entries.)", "quantifier": "for every batch size, number of entries and number of outputs", "why_tests_cant": "The function is not called by the tests; whether it raises depends on a divisibility between the batch size and the number of entries.", "anchors": ["src/decomon/backward_layers/utils.py:backward_sort"]}
{"id": "C137", "title": "frac_pos_hull returns lines around the reciprocal of a positive quantity", "statement": "For 0 < l_c <= y <= u_c, frac_pos_hull returns w_u, b_u, w_l, b_l with w_l*y + b_l <= 1/y <= w_u*y + b_u. (Refuted: it always raises TypeError, K.power has two arguments; with the square in its place the lines are bounds for l_c >= 1, and false for every l_c < 1 < u_c because of the clip.)", "quantifier": "for every interval and every point of it", "why_tests_cant": "The function is not called by the tests, and the clip at one only shows for intervals that reach below one.", "anchors": ["src/decomon/layers/utils.py:frac_pos_hull"]}
{"id": "C138", "title": "backward_softsign_ carries backward bounds through softsign", "statement": "backward_softsign_(inputs, w_u_out, b_u_out, w_l_out, b_l_out) returns backward bounds in terms of the input of the activation that hold whenever the backward bounds given hold at its output and the lines of softsign hold. (Proved for one sample and weights with the extra axis of size one; refuted for weights of the shape the backward layers return, where the biases are summed over the outputs, and for several samples, where the batch axis comes twice.)", "quantifier": "for every number of entries and outputs, all bounds and weights; every batch size for the shapes", "why_tests_cant": "The function is not called by the tests; with one sample, or equal numbers of entries and outputs, no exception shows that the wrong axis is summed.", "anchors": ["src/decomon/backward_layers/activations.py:backward_softsign_"]}
{"id": "C139", "title": "A backward conversion of a graph of layers bounds each output of the Keras model", "statement": "clone with the methods crown and crown-forward-* on a functional model: get_input_nodes, crown_ and crown_model, with their dictionaries and lists of tensors, return for each output node the tensors of the backward pass of that output, which bound the output of the Keras model (and, with back_bounds, the linear functions given by back_bounds of the output) at every point of the region, and equal it on a single point. A model with a merge layer, a pooling layer or an exponential activation raises. (Soundness is proved when the bounds that reach the activations are outside the ranges on which their lines are wrong.)", "quantifier": "for every graph of layers in any topological numbering, any number of outputs of the same depth, shapes, weights, mode and final mode, slope, box or ball, method crown with or without a forward pass, and all points of the region", "why_tests_cant": "Whether the dictionaries shared by the passes hand each node the tensors of its own parents depends on the shape of the graph; the tests use a few chains with one output.", "anchors": ["src/decomon/models/backward_cloning.py:crown_model", "src/decomon/models/backward_cloning.py:crown_", "src/decomon/models/backward_cloning.py:get_input_nodes", "src/decomon/models/backward_cloning.py:convert_backward", "src/decomon/models/crown.py"]}
{"id": "C140", "title": "The bounds and the certificates are right with every method of clone", "statement": "Let dm = clone(model, method) with any of the seven methods (the default is crown). Nothing raises when dm is built and called, get_range_box(dm, x_min, x_max, batch_size) encloses the output of the Keras model over every box, at the position of every sample and entry; a negative score of get_adv_box, with or without sub-boxes, means that every source label is strictly above every target label over the whole box; get_range_noise encloses the outputs over the ball. On single points all seven methods return the output of the model itself, so they agree there. For models of linear layers all this holds for every method and every box. (With activations, soundness is proved when no activation is given an interval on which its own lines are wrong, and the crown methods need layers that have a backward layer.)", "quantifier": "for every method, every graph of the supported layers, all shapes and weights, every batch and batch size, every list of boxes or balls, all label vectors, final modes and points", "why_tests_cant": "The method chooses between different traversals, modes, and lists of tensors; tests compare a few methods on small models at sampled points.", "anchors": ["src/decomon/models/convert.py:clone", "src/decomon/models/convert.py:convert", "src/decomon/models/utils.py:get_ibp_affine_from_method", "src/decomon/wrapper.py:get_range_box", "src/decomon/wrapper.py:get_adv_box", "src/decomon/wrapper.py:get_range_noise"]}
{"id": "C141", "title": "Walking the graph of the model is the same as following its formula", "statement": "Let a Keras model be made of linear layers, ReLUs and merge layers on two inputs, with layers that may be used several times. Each node has a formula: the formulas of its parents put into its layer. clone with the methods forward-* returns, tensor for tensor, what is obtained by converting the formula of the output step by step, and the methods crown* (models without merge layers) what is obtained by propagating backward along the formula, for the model itself and with back_bounds. So sharing, memorising, the order of the nodes, their depths and names, and the packing of tensors into lists have no influence on any returned number.", "quantifier": "for every graph of these layers, all shapes and weights, every perturbation domain, mode, final mode, slope, order in which the nodes are listed, and back_bounds", "why_tests_cant": "The traversal is written with dictionaries indexed by node identifiers and lists of tensors; tests compare a few architectures with hand-made conversions.", "anchors": ["src/decomon/models/forward_cloning.py:convert_forward_functional_model", "src/decomon/models/backward_cloning.py:crown_", "src/decomon/models/backward_cloning.py:crown_model", "src/decomon/models/backward_cloning.py:retrieve_layer", "src/decomon/models/convert.py:convert"]}
{"id": "C142", "title": "Every method is right up to an explicit multiple of epsilon over every box", "statement": "Let the model be made of linear layers, ReLUs and, for the methods forward-*, merge layers on two inputs other than Multiply. Each entry c of the output has a number gain(c), computed from the weights alone. With dm = clone(model, method) for any of the seven methods, nothing raises and get_range_box(dm, x_min, x_max) returns bounds which, widened by keras.config.epsilon() * gain(c), enclose the output of the Keras model over every box; a score of get_adv_box, with or without sub-boxes, below -epsilon * (gain(t) + gain(s)) for the source label s and target label t means that s is strictly above t over the whole box; get_range_noise widened in the same way encloses the outputs over the ball for every method other than crown and crown-forward-ibp. No condition is put on the intervals that reach the ReLUs.", "quantifier": "for every method, every graph of these layers, all shapes and weights, every box (also the boxes on which the ReLU lines are wrong), every ball in the norms 1, 2 and infinity, batch size, number of sub-boxes, labels and final mode", "why_tests_cant": "The bounds of a ReLU are wrong by a fraction of epsilon on narrow intervals around zero that sampling never meets; how far the error grows through the layers cannot be sampled either.", "anchors": ["src/decomon/models/convert.py:clone", "src/decomon/wrapper.py:get_range_box", "src/decomon/wrapper.py:get_adv_box", "src/decomon/wrapper.py:get_range_noise", "src/decomon/utils.py:get_linear_hull_relu"]}
{"id": "C143", "title": "With forward-ibp on any model, a smaller box gives tighter bounds and splitting the box is a complete method", "statement": "Let a Keras model be a graph of the supported layers (linear layers, activations, MaxPooling, merge layers, Concatenate, Dot, shared layers) and dm = clone(model, method=\"forward-ibp\"). (1) Over a box included in another one the bounds of get_range_box are at least as tight. (2) Over boxes whose width goes to zero around a point, the two bounds go to the value of the Keras model at that point. (3) More sub-boxes never increase a score of get_adv_box and, for a model with one output, never loosen get_range_box. (4) The score of get_adv_box is never below the largest difference (target minus source) over the box, and from some number of sub-boxes on it is within any d > 0 of a difference that the Keras model reaches. (5) If no target label reaches the source label over the boxes, all the scores are negative from some number of sub-boxes on. (6) The bounds of get_range_box (one output) approach the extrema of the output in the same way.", "quantifier": "for every graph of these layers, all shapes and weights, every family of boxes, all labels, batch sizes, numbers of sub-boxes and tolerances d", "why_tests_cant": "Convergence is a limit over infinitely many sub-divisions and monotonicity is about all pairs of boxes; a test runs a few n_sub_boxes on one network.", "anchors": ["src/decomon/models/convert.py:clone", "src/decomon/models/forward_cloning.py:convert_forward_functional_model", "src/decomon/wrapper.py:get_range_box", "src/decomon/wrapper.py:get_adv_box", "src/decomon/wrapper.py:refine_boxes"]}
{"id": "C144", "title": "forward-hybrid is never looser than forward-ibp on any model without products", "statement": "Let a Keras model be a graph of the supported layers. With the same box, get_range_box of clone(model, method=\"forward-hybrid\") returns bounds at least as tight as those of clone(model, method=\"forward-ibp\"), whatever the slopes of the ReLU lines; with the same number of sub-boxes, the scores of get_adv_box are at most those of forward-ibp. This holds over every box for models without Multiply and Dot, and for the other models over the boxes on which the lines of the activations are right. So forward-hybrid is also a complete method: if no target label reaches the source label over the boxes, all its scores are negative from some number of sub-boxes on.", "quantifier": "for every graph of these layers, all shapes and weights, every family of boxes, all slopes, labels, batch sizes and numbers of sub-boxes", "why_tests_cant": "It compares two conversions for all weights and all boxes; tests compare the methods, if at all, on a few networks and up to a tolerance.", "anchors": ["src/decomon/models/convert.py:clone", "src/decomon/models/forward_cloning.py:convert_forward_functional_model", "src/decomon/wrapper.py:get_range_box", "src/decomon/wrapper.py:get_adv_box", "src/decomon/models/utils.py:Convert2Mode"]}
{"id": "C145", "title": "How far the bounds and the scores are from the exact ones is known before running, for every method", "statement": "Let a Keras model be a graph of linear layers, ReLUs and merge layers (no Multiply), dm = clone(model, method). From the weights alone one computes a number per output, the spread, such that: (1) without sub-boxes the upper and the lower bound of get_range_box are at most spread * (width of the box) apart, whatever the method and the slope; (2) for a model with one output and 2^(j*n) sub-boxes, the bounds of get_range_box are within spread * width / 2^j (up to a known multiple of K.epsilon()) of a value that the model reaches; (3) a score of get_adv_box is never below the largest difference (target minus source) over the box, and it is at most (spread of the target + spread of the source) * width / 2^j above a difference that the model reaches, both up to a known multiple of K.epsilon(); (4) so if the source label wins by more than that over the box, every method certifies it with 2^(j*n) sub-boxes; (5) on a ball of radius eps the bounds of get_range_noise are at most spread * 2 * eps apart (methods with affine bounds).", "quantifier": "for every such graph, all shapes and weights, every method and final mode, every slope, every box and ball, all labels, batch sizes and numbers j", "why_tests_cant": "A test measures the looseness on one network and one box; the rate holds for all of them and tells in advance how many sub-boxes suffice.", "anchors": ["src/decomon/models/convert.py:clone", "src/decomon/models/utils.py:Convert2Mode", "src/decomon/wrapper.py:get_range_box", "src/decomon/wrapper.py:get_adv_box", "src/decomon/wrapper.py:get_range_noise", "src/decomon/wrapper.py:refine_boxes"]}
{"id": "C146", "title": "Where no activation of a model switches, the bounds and scores on clone(model, method) are the exact ones", "statement": "Let a Keras model be a graph of linear layers, ReLUs and merge layers and dm = clone(model, method) with a method other than forward-ibp and crown-forward-ibp. If no ReLU changes sign over a box (and the greater input of a Maximum or Minimum stays the same), then: the affine bounds of dm are the model itself; get_range_box returns the greatest and the least value of every output; with sub-boxes and one output it does so as soon as no activation switches inside any sub-box, even if some switch from one sub-box to the next; the score of get_adv_box (final mode affine or hybrid) is the greatest difference, target minus source, that the model reaches, so it is negative exactly when the sample is robust; on a ball with p = 1, 2 or inf get_range_noise returns the exact range.", "quantifier": "for every such graph, all shapes and weights, every one of these methods and final modes, every slope, every box or ball where nothing switches, all labels, batch sizes and numbers of sub-boxes", "why_tests_cant": "Equality with the exact range needs the true extrema of the network; a test can only compare with samples, on a few networks and boxes.", "anchors": ["src/decomon/models/convert.py:clone", "src/decomon/models/utils.py:Convert2Mode", "src/decomon/wrapper.py:get_range_box", "src/decomon/wrapper.py:get_adv_box", "src/decomon/wrapper.py:get_range_noise"]}
{"id": "C147", "title": "The forward methods are right up to a computable multiple of epsilon on every piecewise linear graph", "statement": "Let a Keras model be any graph of linear layers, ReLUs, MaxPooling2D, Concatenate, Subtract and Add, Average, Maximum or Minimum layers with any number of inputs, and dm = clone(model, method) with a method forward-ibp, forward-affine or forward-hybrid. Every output has an error, computed from the graph and the absolute values of the weights alone, such that: the bounds of dm hold up to that error times keras.config.epsilon(); get_range_box, with sub-boxes if there is one output, returns bounds that are exceeded by at most that much; a score of get_adv_box below minus the errors of the two labels times epsilon is a certificate; get_range_noise on a ball with p = 1, 2 or inf is right up to that error.", "quantifier": "for every such graph, all shapes and weights, the three forward methods and every final mode they can give, every slope, box, ball, labels, batch size and number of sub-boxes", "why_tests_cant": "The bounds of a ReLU can be wrong by an amount of the order of epsilon on intervals that tests do not meet, and the error grows through the layers; only a bound for all graphs tells the user which margin is safe.", "anchors": ["src/decomon/models/convert.py:clone", "src/decomon/layers/decomon_merge_layers.py:DecomonMaximum", "src/decomon/layers/decomon_merge_layers.py:DecomonConcatenate", "src/decomon/layers/maxpooling.py:DecomonMaxPooling2D", "src/decomon/wrapper.py:get_range_box", "src/decomon/wrapper.py:get_adv_box", "src/decomon/wrapper.py:get_range_noise"]}
{"id": "C148", "title": "The bounds depend continuously on the box and the weights, except where the relaxation of a ReLU is tied or its range is narrower than epsilon", "statement": "Take a model of linear layers, ReLUs without finetuning variables and merge layers. The bounds read with get_range_box on its forward-ibp, forward-affine or forward-hybrid clone, and the affine weights of the clone, are continuous functions of the corners of the box and of all the parameters, at every point where each ReLU (also the one inside Maximum and Minimum, which has the default slope) is strictly active, strictly inactive, or has input bounds wider than epsilon that are not tied for its slope option. The same holds for crown, with and without a forward pass, on a chain of layers. A tie is u + l = 0 for volume-slope and adaptative-slope, l = 0 for zero-lb and u = 0 for one-lb; same-slope has none, so that its bounds are continuous wherever the ReLU inputs vary by more than epsilon. At a tie of each of the four other slopes, and for every slope at a range narrower than epsilon, the bounds can jump.", "quantifier": "for every such network, all shapes and weights, every mode, slope and box, and every tolerance", "why_tests_cant": "Continuity is about all points close to a given one, and the jumps sit on sets that random test inputs never hit exactly.", "anchors": ["src/decomon/utils.py:get_linear_hull_relu", "src/decomon/utils.py:relu_", "src/decomon/utils.py:maximum", "src/decomon/layers/decomon_layers.py:DecomonDense", "src/decomon/models/forward_cloning.py:convert_forward", "src/decomon/models/backward_cloning.py:crown_", "src/decomon/wrapper.py:get_range_box"]}
{"id": "C149", "title": "Affine and hybrid certificates survive inexact computations of the layers and of the scores", "statement": "Convert a model of linear layers, ReLUs and merge layers (other than Multiply) with forward-affine, forward-hybrid or forward-ibp. Suppose that every layer of the clone returns tensors whose entries are only within a tolerance of what its formula gives on the tensors it received: rounding, another order of summation, a fused kernel; a ReLU may in addition use inexact bounds of its input, and may choose its lower line from other inexact bounds. Then the returned bounds are wrong by at most a slack computed from the weights, the tolerances, epsilon and the size of the box. Hence the ranges of get_range_box and the scores of get_adv_box, computed with an error of their own, still certify the order of two outputs that Keras computes with an error, if the margin exceeds the slacks and the errors. Exact tensors are one case and give the slack of C104; the cost of a tolerance is attained. A Dense layer in affine mode in floating point arithmetic meets an explicit tolerance, whatever the order of its sums.", "quantifier": "for every such network, all shapes and weights, every mode, slope, box or other domain, all tolerances and all tensors within them", "why_tests_cant": "Which entries are off and by how much depends on the backend and the hardware; a test sees one of infinitely many results, and the errors interact through the choice of lines in the ReLUs.", "anchors": ["src/decomon/utils.py:relu_", "src/decomon/utils.py:get_linear_hull_relu", "src/decomon/utils.py:maximum", "src/decomon/layers/decomon_layers.py:DecomonDense", "src/decomon/layers/decomon_layers.py:DecomonBatchNormalization", "src/decomon/models/forward_cloning.py:convert_forward_functional_model", "src/decomon/wrapper.py:get_range_box", "src/decomon/wrapper.py:get_adv_box"]}
{"id": "C150", "title": "Crown certificates survive inexact computations in the backward pass", "statement": "Convert a chain of linear layers and ReLUs with crown or crown-forward-*. Suppose that every entry of every tensor is only computed up to a tolerance: the backward layers, each merge with the bounds of the layers above, the fusion with the input, the conversion to constant bounds, the forward pass if there is one, and the input bounds and the choice of the lower line in each ReLU. Then the returned bounds are wrong by at most a slack computed from the weights, the tolerance, epsilon and the box, also for bounds of y . C with back_bounds. Hence the ranges read with get_range_box, computed with an error of their own, still certify the order of two outputs that Keras computes with an error, or the sign of y . C, if the margin exceeds the slack and the errors. Exact tensors are one case, and without tolerance the slack is the one of C105.", "quantifier": "for every chain of layers, all shapes and weights, every mode, slope, method, box or other domain, every tolerance and all tensors within it", "why_tests_cant": "The errors of a backward pass are multiplied by all the layers above, and the intermediate bounds that select the lines are themselves inexact; a test sees one of infinitely many results.", "anchors": ["src/decomon/models/backward_cloning.py:crown_", "src/decomon/models/backward_cloning.py:crown_model", "src/decomon/models/crown.py:merge_with_previous", "src/decomon/models/crown.py:Convert2BackwardMode", "src/decomon/models/crown.py:Fuse", "src/decomon/backward_layers/activations.py:backward_relu", "src/decomon/wrapper.py:get_range_box"]}
{"id": "C151", "title": "forward-affine certificates hold in floating-point arithmetic, with a slack known before running", "statement": "Convert a model of Dense, Conv, ReLU, BatchNormalization, reshaping and two-input Add, Subtract, Average, Maximum and Minimum layers with method=\"forward-affine\", and compute everything in an arithmetic where each operation has a relative error of at most delta below 1 (any order of the sums): the tensors of every layer, get_range_box or the score of get_adv_box, and the outputs of the Keras model. The affine tensors have a size, and miss the exact outputs by a slack, that follow from the weights, the box, epsilon and delta alone. A range widened by this slack (and the error of its own sum) encloses the exact outputs; a range or score whose margin exceeds the slacks and the errors of the outputs certifies the order of the two outputs that Keras computes, at every point of the box. With delta = 0 the slack is the one of C104. Multiply and the option finetune are left out; overflow and underflow are not considered.", "quantifier": "for every graph of these layers, all shapes, weights, boxes, slopes, every rounding function with relative error delta < 1 and every order of every sum", "why_tests_cant": "The sizes of the errors depend on the order of the sums that a backend picks and on values between which lie all the points of a box; a test compares one run at a few points, within a tolerance chosen by hand.", "anchors": ["src/decomon/core.py:get_upper_box", "src/decomon/utils.py:get_linear_hull_relu", "src/decomon/utils.py:relu_", "src/decomon/layers/decomon_layers.py:DecomonDense", "src/decomon/layers/decomon_merge_layers.py:DecomonAdd", "src/decomon/models/forward_cloning.py:convert_forward_functional_model", "src/decomon/wrapper.py:get_range_box", "src/decomon/wrapper.py:get_adv_box"]}
{"id": "C152", "title": "Certificates of the default method crown hold in floating-point arithmetic, with a slack known before running", "statement": "Convert a chain of Dense, Conv, ReLU, BatchNormalization and reshaping layers with method=\"crown\" (the default of clone), with or without back_bounds = [C], and compute everything in an arithmetic where each operation has a relative error of at most delta below 1 (any order of the sums): the hull of each ReLU from bounds that were computed themselves by a backward pass, every merge of backward bounds, the constant bounds, and the outputs of the Keras model. The returned bounds miss the exact outputs (or y . C) by at most a slack that follows from the weights, the box, epsilon and delta alone. A margin between two ranges that exceeds the slacks and the errors of the outputs certifies the order of the two outputs that Keras computes at every point of the box; an upper bound of a column of y . C below minus the slack and the errors certifies its sign. With delta = 0 the slack is the one of C105, and the bounds of the exact clone are among those considered. The option finetune is left out; overflow and underflow are not considered.", "quantifier": "for every chain of these layers, all shapes, weights, boxes, slopes, matrices C, every rounding function with relative error delta < 1 and every order of every sum", "why_tests_cant": "In a backward pass the rounding errors of the upper layers are multiplied by all the layers below, and wrong bounds of a layer enter the lines of every later pass; the result depends on the order of sums that the backend picks. A test compares one run at a few points, within a tolerance chosen by hand.", "anchors": ["src/decomon/models/backward_cloning.py:crown_", "src/decomon/models/backward_cloning.py:get_input_nodes", "src/decomon/models/backward_cloning.py:crown_model", "src/decomon/models/crown.py:merge_with_previous", "src/decomon/models/crown.py:Convert2BackwardMode", "src/decomon/backward_layers/activations.py:backward_relu", "src/decomon/utils.py:get_linear_hull_relu", "src/decomon/core.py:get_upper_box"]}
{"id": "C153", "title": "All forward methods hold in floating-point arithmetic, with a slack known before running", "statement": "Convert a network of Dense, Conv, ReLU, BatchNormalization, reshaping, Add, Subtract, Average, Maximum and Minimum layers with method=\"forward-ibp\", \"forward-affine\" or \"forward-hybrid\" and compute everything in an arithmetic where each operation has a relative error of at most delta below 1 (any order of the sums): the constant bounds, the affine bounds, the tighter of both that each layer of mode hybrid reads, the lines of each ReLU, and the sums of get_range_box and get_adv_box. The constant bounds, the affine bounds, the range and the score of the returned tensors miss the exact outputs by at most errors that follow from the weights, the box, epsilon and delta alone. A margin between two ranges, or a score of get_adv_box, that exceeds these errors and those of the Keras outputs certifies the order of the outputs that Keras computes in the same arithmetic, for every target class and every point of the box. In mode affine the errors are those of C151. With delta = 0 there is no error in mode ibp and the one of C104 in the other modes, and the bounds of the exact clone are among those considered. Multiply and the option finetune are left out; overflow and underflow are not considered.", "quantifier": "for every network of these layers, all shapes, weights, boxes, slopes, modes, sets of target classes, every rounding function with relative error delta < 1 and every order of every sum", "why_tests_cant": "Mode hybrid mixes two computations of the same bounds with different rounding errors, and keeps the tighter one, which is the one with the unlucky error; the selected bound then fixes the lines of the next ReLU. A test compares one run at a few points, within a tolerance chosen by hand.", "anchors": ["src/decomon/models/forward_cloning.py:convert_forward_functional_model", "src/decomon/core.py:InputsOutputsSpec.get_fullinputs_from_inputsformode", "src/decomon/utils.py:relu_", "src/decomon/utils.py:add", "src/decomon/utils.py:maximum", "src/decomon/layers/decomon_layers.py:DecomonDense", "src/decomon/layers/decomon_merge_layers.py:DecomonAverage", "src/decomon/wrapper.py:get_range_box", "src/decomon/wrapper.py:get_adv_box"]}
{"id": "C154", "title": "The crown-forward methods hold in floating-point arithmetic, with a slack known before running", "statement": "Convert a sequential network of Dense, Conv, ReLU, BatchNormalization and reshaping layers with method=\"crown-forward-ibp\", \"crown-forward-affine\" or \"crown-forward-hybrid\" and compute everything in an arithmetic where each operation has a relative error of at most delta below 1 (any order of the sums): the forward pass whose bounds each ReLU reads, the lines of the ReLUs, every merge of the backward pass, the final merge with the affine bounds of the input, the bounds of the result, and the sums of get_range_box and get_adv_box. The range encloses the exact outputs, and with back_bounds=[C] the combinations y·C, up to a slack that follows from the weights, the box, epsilon and delta alone; the score of get_adv_box bounds the difference between every target output and the source output up to such a slack, for these methods and for the default method crown. A margin beyond the slack and the error of the Keras outputs certifies the order of the outputs that Keras computes in the same arithmetic. In every arithmetic the conversion returns such bounds, the bounds of the exact clone are among those considered, and with delta = 0 the slack is at most the one of C105. Merge layers and the option finetune are left out; overflow and underflow are not considered.", "quantifier": "for every sequential network of these layers, all shapes, weights, boxes, slopes, modes, back bounds, sets of target classes, every rounding function with relative error delta < 1 and every order of every sum", "why_tests_cant": "The forward pass and the backward pass round independently, and a rounding error in a forward bound moves the lines of a ReLU that the backward pass multiplies through all earlier layers. A test runs one order of the sums in one precision and compares with a hand-chosen tolerance.", "anchors": ["src/decomon/models/backward_cloning.py:crown_", "src/decomon/models/backward_cloning.py:get_input_nodes", "src/decomon/models/backward_cloning.py:crown_model", "src/decomon/models/crown.py:Fuse", "src/decomon/models/crown.py:merge_with_previous", "src/decomon/models/crown.py:Convert2BackwardMode", "src/decomon/backward_layers/activations.py:backward_relu", "src/decomon/utils.py:get_linear_hull_relu", "src/decomon/wrapper.py:get_range_box", "src/decomon/wrapper.py:get_adv_box"]}
{"id": "C155", "title": "forward-ibp certificates hold in floating-point arithmetic with underflow and overflow", "statement": "Convert a network of Dense, Conv, ReLU, BatchNormalization, reshaping and two-input merge layers (Multiply included) with method=\"forward-ibp\", and compute the bounds, the score of get_adv_box and the Keras outputs in a floating-point format with a smallest normal number (gradual underflow below it) and a largest number (an arbitrary result beyond it), for example float32; sums in any order. There is a condition on the weights and the box alone under which nothing can overflow. Under this condition all computed numbers stay below sizes known in advance, the exact outputs and the outputs that Keras computes lie within the computed bounds up to a slack known in advance, and a margin between two ranges or a score of get_adv_box beyond the slack certifies the order of the outputs that Keras computes. Without underflow the slack is the one of C123. Without the condition the claim is false in float32, and so it is with the slack of C123.", "quantifier": "for every network of these layers, all shapes, weights, boxes, every arithmetic with relative error delta between the smallest normal and the largest number and absolute error delta times the smallest normal number below, every order of every sum", "why_tests_cant": "Underflow and overflow happen only for unusual weights or inputs and depend on the order in which a backend adds; a test that does not trigger them says nothing about the model that does.", "anchors": ["src/decomon/layers/decomon_layers.py:DecomonDense.call", "src/decomon/layers/decomon_layers.py:DecomonConv2D.call", "src/decomon/layers/decomon_merge_layers.py", "src/decomon/utils.py:relu_", "src/decomon/models/forward_cloning.py:convert_forward_functional_model", "src/decomon/wrapper.py:get_adv_box", "src/decomon/wrapper.py:get_range_box"]}
{"id": "C156", "title": "Splitting a box keeps ranges and certificates right in floating-point arithmetic, for every method", "statement": "Let get_range_box (on a model with one output) or get_adv_box cut each box with n_sub_boxes, or refine_box (random=False) with n_split, in one floating-point format (float64), and let the clone of a model by any of the seven methods compute in another one (float32) on the converted corners, with sums in any order. Whatever the rounding, the computed sub-boxes cover the box; their number depends on n_sub_boxes alone; in a binary format without overflow they lie inside the box. For every point of the box, converted to the format of the model, the exact output lies in the returned range, and the differences to the source class lie below the returned score, up to a slack known from the weights, the precisions and the whole box before anything is computed; beyond it they certify what Keras computes. The ranges do not enclose the outputs at the points before the conversion, even with this slack; with the effect of the conversion on the outputs, also known in advance, they do.", "quantifier": "for every number of sub-boxes, all seven methods, all networks of Dense, Conv, ReLU, BatchNormalization and reshaping layers (with two-input merges other than Multiply for the forward methods), all weights, boxes and slopes, every rounding with relative error delta, every order of every sum", "why_tests_cant": "The middles and the widths of the sub-boxes are rounded and the corners are converted to another format before the model sees them; a point can fall between two sub-boxes, or outside the converted one, only for particular values.", "anchors": ["src/decomon/wrapper.py:refine_boxes", "src/decomon/wrapper.py:refine_box", "src/decomon/wrapper.py:get_range_box", "src/decomon/wrapper.py:get_adv_box", "src/decomon/models/convert.py:clone"]}
{"id": "C157", "title": "Ranges and certificates of the forward methods hold in floating-point arithmetic on every graph of layers", "statement": "Let the three forward methods clone a Keras graph of linear layers, BatchNormalization, ReLU, MaxPooling2D, Concatenate, Subtract and Add, Average, Maximum or Minimum with any number of inputs, where layers and intermediate results may be shared. Let the clone and Keras compute in a floating-point format (float32), with sums in any order, and let get_range_box (on a model with one output) and get_adv_box cut the box with n_sub_boxes and read the bounds in another one (float64). The sizes and the errors of all the nodes are known before running: they depend on the graph, the precision and the largest inputs. At every node the computed bounds are right up to the error of the node; a range beyond the error of the output plus the error of Keras proves what Keras computes at every point of the box, and a score below minus the errors proves that Keras computes a larger output for the source class.", "quantifier": "for all graphs of these layers in any topological order, all weights, boxes, numbers of sub-boxes, slopes and the three modes, every rounding with relative error delta, every order of every sum", "why_tests_cant": "The error of a shared intermediate result reaches the output through several branches, and merges with many inputs accumulate it; tests compare bounds with a fixed tolerance on a few graphs and never see whether the tolerance is enough.", "anchors": ["src/decomon/wrapper.py:get_range_box", "src/decomon/wrapper.py:get_adv_box", "src/decomon/models/forward_cloning.py:convert_forward_functional_model", "src/decomon/layers/decomon_merge_layers.py:DecomonAdd", "src/decomon/layers/decomon_merge_layers.py:DecomonMaximum", "src/decomon/layers/decomon_merge_layers.py:DecomonConcatenate", "src/decomon/layers/maxpooling.py:DecomonMaxPooling2D"]}
{"id": "C158", "title": "Inputs and neurons that are not read, and neurons that are off over the box, do not affect the bounds", "statement": "Take a converted model and some of its outputs. Remove the inputs and the neurons that these outputs do not read (the weights towards what is kept are zero), together with the other outputs. Then the kept outputs have the same bounds as in the small model over the box of the remaining inputs: the same constant bounds, the same affine bounds, and weight zero on the removed inputs; this holds for the forward methods with any final mode and for crown and crown-forward-*, which raise the same exception if they raise. In particular the ranges of inputs that are not read have no influence. Also, when the bounds computed before a ReLU say that some neurons are off (upper bound not positive, lower bound negative), the weights of the next Dense layer that leave these neurons have no influence on any bound of the model, and the neurons can be removed from the hidden layer.", "quantifier": "for all networks of Dense, convolution-like, ReLU, BatchNormalization, Flatten/Reshape, identity and binary merge layers (crown raises on merges), all kept inputs, neurons and outputs, all boxes, modes, slopes, epsilons and finetuning variables", "why_tests_cant": "A wrong index or a leak between neurons (a bound of one neuron entering another one) changes the bounds only for particular weights; tests compare bounds with sampled outputs and do not compare a model with its pruned version, and never change weights that should not be read.", "anchors": ["src/decomon/models/forward_cloning.py:convert_forward_functional_model", "src/decomon/models/backward_cloning.py:crown_", "src/decomon/models/crown.py:MergeWithPrevious", "src/decomon/layers/decomon_layers.py:DecomonDense.call", "src/decomon/utils.py:get_linear_hull_relu", "src/decomon/utils.py:relu_"]}
{"id": "C159", "title": "Copying the neurons of a hidden layer does not change the bounds", "statement": "Replace the neurons of a Dense + ReLU hidden layer by copies of themselves (same incoming weights, same bias, same finetuning variables) and split the weights that leave each neuron towards the next Dense layer among its copies. The function of the model is the same. If the parts of every weight have its sign, all tensors returned by the forward methods are the same, for every layer built on top. If moreover the copies take the same shares towards all outputs of the layer (as in the usual widening of a network), crown and crown-forward-* return the same tensors too, with and without a matrix of back bounds, and raise the same exception if they raise. Without the sign condition the forward bounds can change, and with shares that depend on the output the crown bounds can change.", "quantifier": "for all networks before and after the hidden layer, all numbers of copies, all weights and shares, all perturbation domains, modes, slopes, epsilons and finetuning variables", "why_tests_cant": "The claim compares two models of different widths for every way of splitting the weights; tests never compare a network with a wider one that computes the same function, and a wrong treatment of signs or offsets (for instance adding the offset of a relaxation once per neuron without its weight) agrees on many sampled networks.", "anchors": ["src/decomon/layers/decomon_layers.py:DecomonDense.call", "src/decomon/backward_layers/backward_layers.py:BackwardDense", "src/decomon/backward_layers/activations.py:backward_relu", "src/decomon/models/crown.py:MergeWithPrevious", "src/decomon/models/backward_cloning.py:crown_", "src/decomon/models/crown.py:merge_with_previous"]}
{"id": "C160", "title": "Certifying sets of labels and certifying their pairs one by one", "statement": "Take get_adv_box with several source and target labels per sample. Removing source or target labels (keeping at least one of each) never raises a score, so a certificate for sets of labels is one for all their subsets; this holds in every mode, with sub-boxes and for all batch sizes. In ibp and in affine mode the score of the sets is exactly the largest of the scores of the pairs (one target, one source) asked for one at a time, so nothing is lost by asking for all labels at once. In hybrid mode it is at least that and can be larger: there is a network of which every pair is certified while the call with all the targets is not.", "quantifier": "for all models, boxes, sets of labels, modes, batch sizes and numbers of sub-boxes", "why_tests_cant": "Tests call get_adv_box with one label pattern at a time and compare it with sampled outputs; they cannot compare all subsets of labels, and the loss in hybrid mode needs a network whose interval bounds are better for one target and whose affine bounds are better for another one.", "anchors": ["src/decomon/wrapper.py:get_adv_box", "src/decomon/wrapper.py:refine_boxes", "src/decomon/wrapper.py:prepare_labels"]}
{"id": "C161", "title": "Separate ranges give a negative score", "statement": "Call get_range_box and get_adv_box on the same converted model and the same boxes, without sub-boxes. If the range of every target label lies strictly below the range of every source label, then the score of the sample is negative: whoever can read the certificate off the ranges gets it from get_adv_box too. More precisely the score is at most u_t - l_s for some target t and source s of the sample, and in ibp mode it is the largest of these numbers. This holds in ibp mode, in affine mode, and in hybrid mode for models converted with crown or crown-forward-*. It fails for forward-hybrid: there is a network whose ranges are separate and whose score is positive.", "quantifier": "for all models, batches of boxes, sets of labels, batch sizes of the two calls, and modes (hybrid: when the affine bounds of the outputs are at least as good as the constant ones, as after any crown method)", "why_tests_cant": "The two functions are tested separately against sampled outputs; no test compares them, and the failure in hybrid mode needs one output with better interval bounds and another one with better affine bounds.", "anchors": ["src/decomon/wrapper.py:get_adv_box", "src/decomon/wrapper.py:get_range_box", "src/decomon/models/crown.py:Convert2BackwardMode"]}
{"id": "C162", "title": "Backward mode of the adversarial metric layers on the tensors of converted models", "statement": "AdversarialScore and AdversarialCheck in mode \"backward\" take the four backward tensors of a converted model and are documented to return a negative number only if the prediction is robust. On tensors of the shapes the library produces this fails: with n_in and n_out different and both at least 2 the layers raise; otherwise the backward score is one and the same number for every choice of the source labels, reads only the weights of the first input and the biases of the first output, and is negative for every choice of labels as soon as the bounds of the first output have different biases and the two bounds of every output have the same weights on the first input. There is a network whose crown bounds give a negative score for a label that loses at every point of the box.", "quantifier": "for all numbers of inputs and outputs, boxes, backward tensors, forward modes and sets of source labels", "why_tests_cant": "No test calls the metric layers in backward mode with tensors of a converted model (the build functions raise first, C75); and a test on one label would see a number of plausible sign.", "anchors": ["src/decomon/metrics/metric.py:_get_backward_score", "src/decomon/metrics/metric.py:_get_affine_score", "src/decomon/metrics/metric.py:AdversarialScore.call", "src/decomon/metrics/metric.py:AdversarialCheck.call", "src/decomon/core.py:get_upper_box"]}
{"id": "C163", "title": "The temperature and the biases of the logits", "statement": "Multiply the weights and the biases of the last Dense layer of a classifier by c > 0 (a temperature) and add the same number d to all its biases. Then with every method of clone and every final mode the arrays returned by get_range_box become c u + d and c l + d, and the scores returned by get_adv_box are multiplied by c, so that the verdicts are the same, for every batch size and number of sub-boxes. When the biases change by different amounts d_j, the score of target t against source s becomes c times the score plus d_t - d_s. The labels must contain a source and a target: otherwise the number returned contains the constant 0.1 of the penalty and does not scale.", "quantifier": "for every graph of the modelled layers with a Dense last layer (without merge layers for the backward methods), every c > 0 and change of biases, every method, final mode (not from ibp to another mode), epsilon and slope, all batches of boxes and labels, all batch sizes and numbers of sub-boxes", "why_tests_cant": "It relates the bounds of infinitely many pairs of models; tests compare one model with its bounds. A relaxation or a penalty that depended on the scale of the logits would pass all of them.", "anchors": ["src/decomon/models/convert.py:clone", "src/decomon/wrapper.py:get_range_box", "src/decomon/wrapper.py:get_adv_box", "src/decomon/layers/decomon_layers.py:DecomonDense", "src/decomon/backward_layers/backward_layers.py:BackwardDense"]}
{"id": "C164", "title": "Cutting bounds along an axis", "statement": "layers.utils.split returns, and layers.utils.sort works on, one list of tensors per position of the axis, and each carries exactly the bounds of the entries of the layer at its position: the tensors given bound a layer at a model input if and only if every part bounds the entries at its position. (Refuted: split passes a keyword argument that K.split of Keras 3 does not have and raises for every input; for negative axes other than -1 the weights are cut along the next axis, so that sort compares bounds of wrong entries or raises. Holds for sort along -1 and positive axes, and would hold for split.)", "quantifier": "for every mode, rank, sizes, axis (-1 or positive), number of model inputs, tensors, model input and layer values", "why_tests_cant": "A test runs some ranks, sizes and axes; split has no test. That weights are cut along a different axis than constants shows only at negative axes and with weights that vary along both.", "anchors": ["src/decomon/layers/utils.py: split, sort", "src/decomon/backward_layers/backward_merge.py: BackwardDot.call"]}
{"id": "C165", "title": "The derivatives in utils are derivatives", "statement": "sigmoid_prime, tanh_prime and softsign_prime give at every point the derivative of the activation they are named after; it is positive and at most 1/4, 1 and 1, so the layers do not widen intervals by more than that factor. Relu and softplus layers do not widen intervals either. relu_prime gives the derivative of relu, and the line with this slope is below relu everywhere. (Refuted for relu at 0, where there is no derivative; the line is still below relu.)", "quantifier": "for every real point and every interval", "why_tests_cant": "A test compares values at some points, up to a tolerance; that a formula is the derivative at every point, and the bound of the widths of all intervals, are statements of analysis.", "anchors": ["src/decomon/utils.py: relu_prime, sigmoid_prime, tanh_prime, softsign_prime", "src/decomon/layers/activations.py: sigmoid, tanh, softsign, softplus, relu"]}
{"id": "C166", "title": "Complexity of a model", "statement": "get_graph_complexity(model) is the number of calls of layers in the model, without inputs and Lambda layers; it does not depend on the depths that Keras gives to the nodes nor on the order in which it stores them, and adding inputs or Lambda layers does not change it. (Refuted as a measure of the function computed: a nested model counts as one, whatever it contains.)", "quantifier": "for every dictionary of nodes by depth", "why_tests_cant": "The function has no test; a test would fix one model and one order of the nodes.", "anchors": ["src/decomon/metrics/complexity.py: get_graph_complexity"]}
{"id": "C167", "title": "Tensors passed between layers of a clone", "statement": "When the forward clone calls a layer on the outputs of the one before (prepare_inputs_for_layer, wrap_outputs_from_layer_in_list), no tensor is lost, added or moved: a layer is called on a bare tensor exactly if there is one tensor, and on all of them in order otherwise, whether the layer before gave a tensor, a list or a tuple.", "quantifier": "for every tensor, list or tuple of tensors of any length", "why_tests_cant": "Tests build some models; lists of one tensor, tuples and empty lists come from custom layers and Keras versions that tests do not cover.", "anchors": ["src/decomon/models/utils.py: prepare_inputs_for_layer, wrap_outputs_from_layer_in_list", "src/decomon/models/forward_cloning.py: convert_forward_functional_model"]}
