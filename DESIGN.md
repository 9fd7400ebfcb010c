# Design

Subject: `airbus/decomon` (Python, Keras 3), read as text in `/repo`. Prover: Lean 4.33.0 with Mathlib.
Model and proofs: `lean/Verif/`. Properties: `properties.jsonl`. Status per property: `MANIFEST.json`.

## Trusted base

* The Lean kernel. Every property theorem rests on at most `propext`, `Classical.choice`, `Quot.sound`
  (checked by the gate and by `#print axioms`). No axioms of our own, no `sorry`, no `native_decide`, no `bv_decide`.
* The reading of the Python source: the code is never run. Every model definition cites the file and lines it models.
* The arithmetic of the model is exact: tensors hold elements of an arbitrary linearly ordered field `α`
  (`ℚ` for concrete witnesses, `ℝ` where `exp`, `log`, `sqrt`, `tanh` are needed). Rounding of float32 is not modelled.
* Keras / numpy primitives (`K.max`, `K.dot`, `K.where`, `np.reshape`, `np.argmax`, ...) are modelled by their documented
  meaning; they are not themselves verified.

## How tensors are modelled

* The batch axis is dropped wherever the code is batch-wise independent; it is kept (as a list of samples) in `Wrapper`,
  where the code reshapes across it.
* A tensor of shape `s` (without batch) is a function from an index type (`Fin n`, `Fin h × Fin w × Fin c`, any finite type).
  Theorems are stated for every finite index type, so for every shape.
* An affine bound `w (input_dim × out)`, `b (out)` is, per output coordinate, an `Aff ι α` = (row of weights, bias).
* `[x, u_c, w_u, b_u, l_c, w_l, b_l, h, g]` is `Full`; a mode selects which components are meaningful. Components that the
  code fills with `empty_tensor` are filled with zero and never used by a statement of that mode.
* A perturbation domain is the pair of functions `get_upper`, `get_lower` (`Conc`), with the set of points it stands for.
* Python exceptions are values of `Except`.
* `epsilon()` of Keras is a parameter `eps > 0`.

## The invariant

`Valid` (file `Spec.lean`) is the specification that all layer properties refer to: for every point `x` of the domain,
`l_c ≤ y x ≤ u_c` (modes with ibp), `w_l·x+b_l ≤ y x ≤ w_u·x+b_u` (modes with affine) and `h+g = y x` (dc_decomp).

## Conventions

* `Verif/Model/*` model definitions; `Verif/Spec.lean` specifications; `Verif/Lemmas/*` helper lemmas;
  `Verif/Props/*` the property theorems, named `Cxx_...`, each next to an `example` showing that its hypotheses can be met.
* A property that is false of the code: a theorem `Cxx_..._refuted` with a concrete witness, and the part that does
  hold as `Cxx_..._partial` (status `partial` in the manifest).
* Theorems are tested against wrong programs (`seeded/LOG.jsonl`).

## Plan per property

| id | what is modelled | how proved |
|----|------------------|------------|
| C01 | `get_upper_box`, `get_lower_box` on any finite index type | sum of sign cases; corner attains |
| C02 | `get_upper_ball`, `get_lower_ball`, `get_lq_norm`, constructor check | Hölder for p=1,inf; Cauchy-Schwarz for p=2; explicit maximiser |
| C03 | modes, list packing and slicing as lists of an arbitrary tensor type | case analysis; induction on number of merged inputs |
| C04 | `get_fullinputs_from_inputsformode` | from C01/C02 style soundness of the domain |
| C05 | `get_linear_hull_relu` formula by formula (`sign`, `clip`) | case split on signs; refutation in ℚ |
| C06-C08 | `relu_`, `add`, `minus`, `subtract`, `maximum`, `minimum` | invariant preservation |
| C09 | `multiply` | McCormick inequalities |
| C10-C13 | Dense, Conv2D, BatchNormalization, Flatten/Reshape/Permute/Dropout | invariant preservation |
| C14 | merge layers as folds over lists of inputs | induction on the list |
| C15-C17 | max pooling, filters, hull of max | order lemmas; refutation in ℚ |
| C18-C20 | s-shape hull, monotone activations, softplus hull | convexity on ℝ; refutation in ℚ for softsign |
| C21 | exp, log | tangent and secant inequalities on ℝ |
| C22-C24 | softmax, abs, frac_pos | refutations, partial theorems |
| C25 | selection sort network | induction |
| C26 | `merge_with_previous` | sign split of matrices |
| C27 | forward conversion of a sequential network | induction on the network |
| C28 | `crown_`, `get_input_nodes`, `crown_model` on a sequential network | induction on the network, nested |
| C29-C30 | `Convert2Mode`, `Convert2BackwardMode`, `back_bounds` | from C04, C26 |
| C31-C32 | interval part of Dense/ReLU | monotonicity by induction |
| C33-C41 | `wrapper.py` score and range functions, box refinement | list / order reasoning; refutations by evaluation |
| C42-C46 | `metrics/metric.py`, `metrics/loss.py`, `wrapper_with_tuning.py` | order reasoning |
| C47 | `get_depth_dict` on finite DAGs | induction in topological order |
| C48 | shape functions on lists of optional sizes | case analysis |
| C49-C50 | freeze/unfreeze state machine, constraints | induction on call sequences |
| C51-C53 | `set_domain`, method dispatch, `split_activation`, `softmax_to_linear` | state model |
| C54-C57 | backward merge utilities, finetuned ball, `permute_dimensions`, `get_toeplitz` | algebra; refutations |
| C58 | `crown_` on graphs | case analysis |
| C59-C60 | `sum`, `pow` | invariant preservation, from C09 |
| C61 | `DecomonDense.call` with backward bounds (the bias is broadcast along the columns of `C`), `set_back_bounds` | sign split; triangle-type comparison; refuted for a general bias by an example, and `set_back_bounds` by computation; the condition on the bias is necessary (point intervals). Props/Layers.lean, Props/BackBias.lean |
| C62 | `DecomonDot.call` | from C09, C13 and C59 |
| C63 | `max_`, `min_` as fold of `maximum` over the slices | from C14 and C04 |
| C64 | `actDeserialize`, `actCall`, `reluGuard` as finite decision functions over strings with `str.lower` as ASCII lowercasing; exceptions as values. | proved by case analysis; unreachability of GroupSort2 from the absence of capitals after lowering |
| C65, C68-C70 | `backwardMax`, `backwardPermute`, `backwardMultiply(Shape)`, `backwardConcat(Shape)` | refutations by evaluation or for all sizes; induction over the pairs for the per-entry part of C65; arithmetic of `/` and `%` for C68 |
| C66 | Verif/Model/Nested.lean: `NGraph.convert` (recursive conversion of graphs), `cloneNested` (layer objects of chains, `count` by any function), `discoPriv`, `crownRec` (backward pass on a chain). Assumed: Keras lets the `ValueError` of a `Lambda` through; if it wraps it in another exception, only the kind of the error changes. An earlier version modelled the keyword mismatch of the same branch, which the error hides; it was replaced. | induction on the nesting from C47; simulation up to names with C53; the error by evaluation of the unpacking in each mode |
| C67, C71 | `CrownCfg` instantiated with a ball, resp. a box | C67: the affine modes reuse C28, the ibp modes are refuted for every centre below -eps; C71: exactness of `merge_with_previous` on equal bounds, witness for ReLU |
| C72 | `maskedScores`, `advBase` | the score is the greatest pair value (C33), which mentions one sample only; witness by evaluation for samples without pairs |
| C73 | `intLabelMask` | arithmetic of the reshape; witness by evaluation |
| C42-C45, C74-C80 | Verif/Model/Metrics.lean: `advScoreCall`, `advCheckCall`, `upperScoreCall`, `metricUnpack`, `buildFormal`, `packLoss`/`unpackLoss` (index arithmetic on natural-number positions), `upperLossOne`, `lowerLossOne`, `advLossOne`, `fusionCall`, `fusionAsymptotic`, `radiusRobust`, `catCrossEntropy`; batch mean as a mean over a list | soundness from validity of the input tensors and of the domain; round trip by arithmetic on positions; refutations by evaluation over the rationals |
| C47, C52, C81 | Verif/Model/Graph.lean: `fillDico`, `depthDict`, `visitOrder`, `convertFunctional`, `convertFinal`, `methodOfString`, `clonePlan`, `convertPlan`; a node is a natural number, its parents a list with multiplicity; recursion of `fill_dico` bounded by fuel (RecursionError when exhausted); the order of `_nodes_by_depth` is assumed topological (Keras) | induction in topological order, longest walks as independent specification of the depth; value of the graph specified by its equations and proved unique; refutations by evaluation |
| C49, C50, C53, C82 | Verif/Model/State.lean: `KernelState`, `BackKernelState`, `BackActState`, `FLayer.apply`, `modelRun` (freezing as a state machine on the attribute `_trainable_weights`), `TrackedLayer`, `kerasRun` (the variables that Keras 3 trains, which the methods do not touch); `nonPos`, `nonNeg`, `clipAlpha`, `clipAlphaGrid`, `clipSumShape`, `multipleConstraint`; `Heap` of layer objects with `splitActivation`, `renameAll`, `cloneLoop`, `softmaxToLinear` on chains of layers | induction on the sequence of calls; projections by order reasoning; invariants on the heap (objects equal up to names, where converted objects live); refutations by evaluation or for all parameters |
| C51, C55 | Verif/Model/Domain.lean: `Net.forwardAfter` (each layer uses the domain it was built with or the new one, as its code does), `ballAfter`, `getLowerBallFinetune`, `getUpperBallFinetune` with keyword arguments as options | C51: induction on the network, from C02 and C27; refutation for every centre and radii; C55: sign split, refutation for every input with parameter 1 |
| C48, C56, C83 | Verif/Model/Shapes.lean: `computeOutputShape`, `mergeOutputShape`, `denseCallShapes`, `convert2ModeShapes`, `backwardOutputShape`, `mergeWithPreviousShapes` on lists of optional sizes; tensors of any rank as functions of a list of indices, `sumAxis`, `expandDims`, `concatAxis`, `transposeArr`, `permuteDimensions` (numpy `delete`/`insert` on the list of axes; a negative entry in the axes of `transpose` counts from the end) | case analysis; list lemmas on `insertIdx`/`eraseIdx`; refutations for all ranks and positions |
| C84, C85 | Verif/SpecTight.lean: `ExactAt` (all bounds equal to the value), `PertDomain.Point` (concretisation on one point), `Back.ExactAt`; `reluGap` (integral over [l,u]) | C84: induction on the graph, every operation keeps equality; C85: values at l, u and the middle; integral computed with Mathlib; refuted in the sliver |
| C86, C87 | Verif/Model/Wrapper.lean (as C33-C36), Verif/Lemmas/Refine.lean: `getRangeBox_one`, `getAdvBox_map` (the wrapper functions as extrema over sub-boxes), `Net.width` (interval bounds are Lipschitz in the width of the box) | C86 from C32 and nested sub-boxes; C87 by induction on the network and C35_widths; refutations by evaluation |
| C88, C89 | models of C07-C09 and C14; `Range1`, `Range2`: set of values of the operation on intervals | permutation of sums; case analysis on signs; if-and-only-if conditions for Maximum and Multiply; refutations by evaluation |
| C90 | `lowerHullMax`, `lowerHullScore` (Verif/Model/Pooling.lean) | the selected entry has the smallest score; case analysis on the sign of the penalty; refutations by evaluation |
| C91 | `Net.toDecomon`, `Net.toBackward`, `Net.forwardIn`, `CrownCfg.nodeIn` (Verif/Model/Weights.lean): layers whose parameters are cells of a memory, the cells of the Keras model or copies | the network read in the memory is the current network, then the soundness of the propagations; refutations by evaluation |
| C92 | same model with `shared=False` | no cell of the Keras model is read by the forward layers; refutations by evaluation for the backward layers |
| C93 | `resetLayer`, `resetParams`, `setWeights` (Verif/Model/Convert.lean): variables are cells of a memory | induction on the names and on the weights; refutation by evaluation |
| C94 | `toDecomonLayer`, `getLayerInputShape` (Verif/Model/Convert.lean); the constructor is an arbitrary predicate, the symbolic call is taken to succeed | case analysis; refutation by a concrete layer |
| C95 | `toBackwardAttrs` (Verif/Model/Convert.lean) | case analysis; refutations by evaluation |
| C96 | `ActAttrs`, `BackActAttrs`, `ConvAttrs`, `KernelObj` (Verif/Model/Convert.lean): attributes, dictionary, constructor; Keras serialisation of each value is taken to be faithful | case analysis; the lost slope is followed to `linearHullRelu` |
| C97 | `batchedIdentityLike`, `batchedDiagLike`, `batchedSpec`, `checkIfSingleShape` (Verif/Model/Convert.lean): row-major lists | index arithmetic in flattened blocks; refutations by evaluation |
| C98 | `dotCall`, `dotArity`, `dotCallShape`, `kerasDotShape` (Verif/Model/Dot.lean) on top of `dotLayerT`; the cosine is specified by `kerasDot` | values by `C62_dot_valid`, refutation by exactness on a point domain; shapes by list arithmetic for all ranks and axes |
| C99 | `crossEntropyBox/Ball`, `asymptoticBox/Ball`, `boxOfCentre` (Verif/Model/CrossEntropy.lean): `DecomonLossFusion` built without a domain reads the centre of a ball as the corners of a box | composition of C44, C78 with the conversion to ibp; refutation for all radii, norms and numbers of inputs |
| C100 | `TuneLayer.reset`, `modelReset`, `tuningCall` (Verif/Model/Tuning.lean): `reset_finetuning` with `Variable.value` as a method (Keras 2) or as a property (Keras 3, required by pyproject.toml); the optimiser of Keras 3 rejects the argument `lr` | induction on the layers; refutations for all models and boxes |
| C101 | `getAB`, `getABFinetune`, `toBackwardName` (Verif/Model/Tuning.lean): names as lists of characters | an occurrence of the pattern cannot end in the suffix that the conversion appends |
| C102 | `noiseTargets`, `targetBatches`, `advNoiseTargets`, `checkTargets` (Verif/Model/Tuning.lean): target labels of `get_adv_noise` and `check_adv_box` | evaluation for all labels, batch sizes and models |
| C103 | `byTypeCells`, `byTypeRun` (Verif/Model/ByType.lean): lists as memory cells, the two lists of constants are one object in affine mode | loop invariant on the cells |
| C104 | `Net.forward` (Verif/Model/Network.lean) as for C27; spec `Near`, `Net.gain` (Verif/SpecSlack.lean) | the upper side of the ReLU hull is wrong by at most `d + eps/4` at distance `d` of the interval, then induction on the network |
| C105 | `CrownCfg.node` as for C28; spec `Back.Near` | induction on the chain with bounds on the absolute values of the backward weights |
| C106 | `subsetSumLower`, `convertLowerSearch`, `getLowerBoundGrid`, `getUpperBoundGrid`, `getBoundGrid` (Verif/Model/Grid.lean): one sample, one output | the masked sum is the sum of the longest prefix of the sorted steps that stays below `-b`; sums of copies of the steps are invariant under sorting; concrete counterexamples |
| C107 | `ShareLayer`, `shareWeightsAndBuild`, `shareLayerAllWeights`, `splitShare`, `resetLayerAllWeights` (Verif/Model/Share.lean): attributes, tracker and lock of Keras 3 | invariants of the two loops; concrete counterexample |
| C108 | `RNet.forward` (Verif/Model/IbpNet.lean): the networks of C27 plus smooth activations, fast max pooling, n-ary merges, `Concatenate`, `Dot`; spec `RNet.eval` (Verif/SpecIbp.lean) written with the mathematical functions | four inductions on the network (validity, monotonicity, exactness on a point, continuity), then uniform continuity on the compact set of sub-boxes |
| C109 | `clone`, `checkModelInputs`, `getInputDim`, `inputTensorShapes`, `rangeReads` (Verif/Model/Clone.lean): kinds of models, shapes and attributes; the conversion of the layers is a parameter that may raise | evaluation of the sequence of checks; inversion of a successful call; concrete counterexample |
| C110 | `convertTrace`, `includeDimLayerFn`, `clone` (Verif/Model/Clone.lean): the keyword arguments that reach `layer_fn` and `to_backward` | inversion of a successful call; concrete counterexamples |
| C111 | `Net`, `getRangeBox`, `getAdvBox`, `refineBoxes` (existing models); spec `Net.spread` (Verif/SpecRate.lean) | induction on the network for the width; widths of the sub-boxes (C35) and the comparison of C87 |
| C112 | `Lay.forwardDc`, `Net.forwardDc` (Verif/Model/Dc.lean), `maxReduceT`, `maximumT`; spec `DcOn`, `BoundsEq` (Verif/SpecDc.lean, Mathlib `ConvexOn`) | induction on the chain; positive and negative parts of the weights; masks of ReLU do not depend on the point; two concrete counterexamples |
| C113 | `BackFn.call`, `BackFn.callShapes`, `mergeLayerShapes`, `SNet`, `CrownCfg.nodeS` (Verif/Model/BackAct.lean); spec `OneSided`, `SNet.eval`, `CrownCfg.SafeS` (Verif/SpecBack.lean). With forward bounds only the method `crown-forward-ibp`. Assumed: Keras checks `input_spec` of `MergeWithPrevious` against the real tensors | `C18_iff` (mean value theorem on each side of zero, grid search refuted); induction on the chain as for C28 and C84; shapes by cases |
| C114 | `boundsShape`, `kernelDiagByBlock`, `backwardDenseCall`, `backwardBatchNormCall`, `backwardPermuteAxes` (Verif/Model/BackRank.lean), `mergeLayerShapes`. Permute: only the number of axes (values: C68) | blocks by induction on the concatenations; sums over row-major indices; shapes by cases |
| C115 | `PoolCfg`, `convOut`, `convPad`, `convPos`, `PoolCfg.entry`, `PoolCfg.slices`, `maxPoolNotFast` (Verif/Model/MaxPool2D.lean); spec `IsMaxPool`, `SticksOut` (Verif/SpecPool.lean). `channels_last` only | slices are non-negative combinations of entries; the channels are the entries of the window (C16); maximum over the channels by C63 |
| C116 | `radiusInit`, `buildRadius`, `radiusUnpack`, `radiusShape`, `radiusEntry`, `crownDummy` (Verif/Model/Radius.lean) over `clone`, `Net.forward`, `CrownCfg.model`, `convert2Mode`. The value when one of the two numbers is 1 and the weights are broadcast is not modelled | the score below `1 - s` is the negative score of the shrunk box (scaling of `centered_max_iff`); then C27, C28, C29, C30, C45 |
| C117 | `innerLayers`, `kerasModelNames`, `preprocessModel` (Verif/Model/Names.lean) over `preprocessNested`, `cloneStep`, `splitActivation`, `renameAll`. Chains only; nested models all functional or all Sequential | invariant of the loop: the converted layers have names that end with distinct numbers below `count`, and begin with the name of a layer; a name ends with one number at most |
| C118 | `SumTree`, `roundedDot`, `roundedDense`, `roundedDenseIbp`, `RChain.eval`, `RChain.ibp`, `roundNearest` (Verif/Model/Rounded.lean): every operation followed by a rounding, sums in any order. No overflow, underflow or fused multiply-add; chains of Dense and ReLU in ibp mode | standard error analysis of sums by induction on the tree, then induction on the chain; rounding to nearest with `p` digits shown monotone, idempotent, of relative error `2^-p` |
| C119 | no new model: `Net.forward`, `CrownCfg.model`, `convert2Mode` (Verif/Model/Network.lean). Specification in Verif/SpecSymm.lean (`Net.Reparam`: same network in other units, `ImageBounds`) | induction on the rewriting: the tensors of each layer are images of each other (Verif/Lemmas/Symm.lean), backward bounds likewise (Verif/Lemmas/SymmBack.lean); refutations by concrete networks |
| C120 | no new model: `Net.forward`, `CrownCfg.model`, `CrownCfg.modelBack`, `convert2Mode` (Verif/Model/Network.lean). Specification in Verif/SpecFold.lean (`Net.Collapse`: linear layers replaced by one layer with the same function) | every linear layer acts as a dense matrix; matrices with one entry per row commute with the splitting into signs and with the tightening (Verif/Lemmas/Fold.lean, FoldNet.lean); the composition of exact backward layers is the product, and a node either never raises or always raises the same exception (Verif/Lemmas/FoldCrown.lean); refutations by concrete networks |
| C121 | no new model: `Net.forward`, `CrownCfg.model`, `Net.map` (Verif/Model/Network.lean, Weights.lean). Specification in Verif/SpecDrift.lean (`Net.size`, `Net.drift`: how far the values can move, computed from the weights and the box) | induction on the network, one inequality per layer (Verif/Lemmas/Drift.lean); the drift is at most proportional to the changes; the refutation evaluates the bounds of one network with two parameters in closed form (Verif/Lemmas/Kink.lean) |
| C122 | `upperOfBox`, `lowerOfBox`, `noiseRow`, `upperOfNoise`, `lowerOfNoise` (Verif/Model/OneSided.lean) over `getRangeBox`, `noiseUpper`, `noiseLower`. An empty batch is accepted by the model (`np.min` raises) | the corner of a box lies between the two bounds; the wrong regrouping of C36 treats the two arrays alike; the refutation evaluates one network in closed form (Verif/Lemmas/Cross.lean) |
| C123 | `Net.RunsIbp` (errors of any origin), `Lay.RoundedCall`, `Lay.RoundedIbp`, `MergeOp.roundedCall`, `MergeOp.roundedIbp`, `Net.RoundedCall`, `Net.RoundedIbp` (Verif/Model/Runs.lean) over `Lay.forward`, `MergeOp.forward` in ibp mode; spec `OpError`, `Net.Runs`, `Net.slackWith` (Verif/SpecRuns.lean). No overflow, underflow, NaN or fused multiply-add; `BatchNormalization` within a given error (its algorithm depends on the backend) | per layer: bounds stretched to contain the input are valid (C27) and differ from the computed ones by the drift of C121, so the slack grows by drift plus errors; rounded operations bounded by `(1+δ)^n - 1` as in C118 |
| C124 | `CrownCfg.model`, `CrownCfg.modelBack` with `useForward = true` against `Net.forward` (Verif/Model/Network.lean); spec `InsideOn`, `Net.SameAlpha`, `Net.OneRelu` (Verif/SpecOrder.lean). Chains only (merge layers raise in the backward pass) | composing from the output is at least as tight as composing from the input: the upper bound of a composition is the second map at a point between the bounds of the first; induction on the chain with the forward bounds in place of the layers below. `crown` against forward-affine, hybrid constants, different finetuning and the sliver are refuted by witnesses |
| C125 | `Net.forward`, `CrownCfg.model`, `CrownCfg.modelBack`, `getRangeBox`, `getAdvBox`; spec `Attains` (Verif/SpecWidth.lean) and `Net.spread` (Verif/SpecRate.lean) | invariant `Held`: constants `l <= u` with `u - l <= spread` such that every affine bound stays in `[l, u]` on the whole domain; one layer keeps it because the ReLU hull of a range stays in the hull of the ReLU values and 0 when its end points are attained; backward pass by composing with constant bounds. Sharpness by a witness |
| C126 | `getUpperBall`, `getLowerBall`, `inputTensorsBall`, `Net.forward`, `CrownCfg.model`, `CrownCfg.modelBack`, `noiseUpper`, `noiseLower`, `advNoise`; spec `SameNumbers`, `AffAgree` (Verif/SpecBall.lean) | every operation reads the domain through `get_upper` and `get_lower` only, so it commutes with replacing one domain by another that gives the same bounds to affine functions (Verif/Lemmas/Swap.lean); nesting from the exactness of C02; refuted: monotonicity in the ball in affine mode, agreement of the backward methods in ibp mode |
| C127 | `Net.forward`, `CrownCfg.node`, `CrownCfg.model`, `CrownCfg.modelBack`, `rangeUpper`, `rangeLower`, `noiseUpper`, `getRangeBox`, `getAdvBox`; spec `Net.Stable`, `ExactOn` (Verif/SpecStable.lean) | induction on the network: exact affine bounds below a layer concretise to values that are reached on the region (`Attains`), so the hull of a ReLU that keeps its sign is the identity or zero and the bounds above are exact again; the backward bounds compose exactly at the values of the network; sub-boxes by the covering of `refine_boxes` |
| C128 | `RNet.forwardIn`, `SmoothAct.forwardIn`, `NaryOp.forwardIn`, `softplusT` (Verif/Model/AnyNet.lean); spec `RNet.Good`, `RNet.NoSoftplus` (Verif/SpecAny.lean) | induction on the network with the validity of each layer (C07, C14, C15, C18, C21, C62), monotonicity of each layer for hybrid against ibp, exactness of each layer on a point; exact condition for one s-shaped activation (`C128_sshape_iff`); refuted for softplus on every box; partial because the networks that are not `Good` are left out |
| C129 | `flattenT`, `backwardFlatten`, `flattenOnBox` (Verif/Model/Flatten.lean); `rangeUpper` | the order of Keras stated by positions (`C129_order`); validity for channels_last and for the constants; equality of the two orders exactly for one channel or one place, hence the two `iff`; witness on a 2 x 2 image; partial because channels_first with several channels and places is wrong |
| C130 | `flatPos`, `backwardPermuteNd` (Verif/Model/Permute.lean), compared with `backwardPermute` on rank 2; spec `ReadsPermuted` | row-major positions through the bijection of Mathlib between indices and positions; same shape: the transposed rows are again in the shape of the input; the two channel moves by their position formulas, necessity by output 1; witness (3, 2, 2) |
| C131 | `KGraph`, `KOp`, `KOp.call`, `KGraph.convert` (Verif/Model/Pipeline.lean) on top of the loop of C47/C66: lists of tensors with shapes, packed and unpacked by each layer; spec `KGraph.IsValue`, `KOp.eval` (Verif/SpecPipeline.lean) | packing then unpacking keeps the tensors of the mode; the loop succeeds when the calls succeed on the values of the parents; induction along the topological order with the soundness (C128) and exactness of each layer; existence and uniqueness of the value of the Keras graph; example with a node used twice. This replaces, for the forward methods, the reading of a model as an expression. Refuted in affine and hybrid mode on `sliverGraph` (Props/CloneSliver.lean: a relu whose upper bound is in `(0, eps/2)`, a dense layer with a weight of the order of `1/eps`) |
| C132 | `unpackOutput`, `wrapperOutput`, `ravel`, `KGraph.onBox/onBall`, `advBaseOf`, `getAdvBoxOf` (Verif/Model/EndToEnd.lean) in front of `getRangeBox`, `getAdvBox`, `noiseUpper/Lower` | C131 composed with the unpacking by the wrapper (list of tensors to flat arrays), with C33, C34, C39; the order of `ravel` stated by `C132_row_major`; the shapes of `get_ibp_score` by numpy broadcasting |
| C133 | `maximumLayerT`, `minimumLayerT`, `maxReduceT`, `minReduceT`, `sortT` | error recursion a(k+1) = 3 a(k) + 2 s + 1/4 along the fold of the maximum; every exchange of the sort maps the error M to 5 M + 1/4, counted by a graded version of the relation carried through the exchange network |
| C134 | `linearAdv` (Verif/Model/Metrics.lean) | entry of the maximum at the other label, soundness of get_upper; witnesses with constant outputs |
| C135 | `backwardLinearProd`, `linearProdShape` (Verif/Model/BackwardExtra.lean) | by cases on the sign of x_max: entry by entry, the masks select the rule of signs or the common line; broadcasting of the shapes |
| C136 | `backwardSortShape` (Verif/Model/BackwardExtra.lean) | only shapes are modelled; divisibility of the number of entries |
| C137 | `fracPosHull` (Verif/Model/BackwardExtra.lean) | difference to the line as a quotient of products of known sign |
| C138 | `backwardSoftsignOld`, `backwardSoftsignOld3`, `softsignOldShape` (Verif/Model/BackwardExtra.lean) | rule of signs entry by entry; witness with two entries; broadcasting of the shapes |
| C139 | `crownGo`, `crownInputs`, `crownModelE`, `BTen`, `KOp.back`, `KGraph.crown`, `KGraph.convertBackward` (Verif/Model/CrownGraph.lean); spec `KGraph.IsCrown`, `KOp.node` (Verif/SpecCrownGraph.lean) | the passes and the dictionaries compute, for every node, what the recursion on the graph gives; packing then unpacking keeps the tensors; induction along the topological order with the soundness and the exactness of each backward layer; the exceptions by an invariant of `output_map`; example with two outputs that share a layer. This replaces, for the backward methods, the reading of a model as an expression. Refuted in every mode on `sliverGraph` |
| C140 | `KGraph.runPlan`, `KGraph.cloneOnBox`, `KGraph.cloneOnBall` (Verif/Model/CloneMethod.lean) | case analysis on the direction of the method: C131 and C139 give the tensors, packing then unpacking keeps them, C34, C33 and C39 give the returned arrays; for linear layers no condition is left; exactness on points from the exact tensors; examples with all the methods. Refuted on `sliverGraph` for every method but `forward-ibp` |
| C141 | `KOp.IsNet`, `KGraph.IsNet` (Verif/SpecUnfold.lean), the two traversals of Verif/Model/Pipeline.lean and Verif/Model/CrownGraph.lean against `Net.forward` and `CrownCfg.model` | induction along the topological order: every layer gives the same carried tensors when its inputs do (`Agree`); every node of the backward traversal gives the same answer as the expression with every `back_bounds`; examples `relu(x) + x` and a ReLU after a Dropout |
| C142 | `KGraph.cloneOnBox`, `KGraph.cloneOnBall`, `Net.gain` (Verif/SpecSlack.lean) | C141 reduces the two traversals to the formula, C104 and C105 bound its error, and the bounds with a margin go through `convert_2_mode`, the lists of tensors and the functions of wrapper.py (`adv_margin`); example: the ReLU of two entries with all seven methods, where a score below -5e-8 is a certificate |
| C143 | `KGraph.cloneOnBox` with the name `forward-ibp` (Verif/Model/CloneMethod.lean), the functions of wrapper.py, `KGraph.IsOutput` as the meaning of the model | along the topological order every node is monotone (`bounds_tighter`), continuous (`bounds_cont`) and exact at a point (`C140_point`); the sub-boxes get as narrow as wanted and the box is compact (`IbpLike`); examples: a model with an exponential, and x < exp(x) over [-2, 2], proved by enough sub-boxes |
| C144 | the two calls of `KGraph.cloneOnBox` with the names `forward-hybrid` and `forward-ibp` | `bounds_tighter`: every node keeps the order of the constant bounds, whatever the affine bounds; a Multiply or a Dot needs lower bounds below upper bounds, which follows from bounds that hold at one point; `get_adv_box` in hybrid mode keeps the smaller of the two scores; example with the outputs x and exp(x) |
| C145 | `KGraph.cloneOnBox` and `KGraph.cloneOnBall` for every method, the functions of wrapper.py, `KGraph.IsOutput` as the meaning of the model, `outputSpread` computed from the weights | `runPlan_held`: along the formula of the graph the bounds stay in intervals whose widths grow layer by layer by the sums of the absolute values of the weights (`net_held`, `model_held`), through `convert2Mode` and the list handed to the caller; after j rounds of splitting the sub-boxes are 2^j times narrower; examples: seven methods with 64 sub-boxes, relu(x)+x with 32 |
| C146 | `KGraph.cloneOnBox` and `KGraph.cloneOnBall`, the functions of wrapper.py, `KGraph.IsOutput` as the meaning of the model, `Net.Stable` on the formula of the output | `runPlan_sharp`: forward (`net_pin`) or backward (`node_pin`, `convert_pin`) the affine bounds are the formula; this goes through `convert2Mode` and the list handed to the caller, and the domain attains its bounds; examples: relu(x)+x over [-4, 4] with two sub-boxes gives [-4, 8], two ReLUs over [2, 3] x [-2, -1] give the score -2 |
| C147 | `KGraph.cloneOnBox` and `KGraph.cloneOnBall` with the methods `forward-*`, the functions of wrapper.py; `KOp.gain` and `KGraph.IsGain` (SpecSlackGraph.lean) say how a node passes on the errors of its parents | `bounds_near`: induction along the order of the nodes, with one lemma per kind of node (`near_addLayer`, `near_averageLayer`, `near_maximumFold`, `near_minimumFold`, `near_concat`, `near_maxPoolFast`), then through `convert2Mode` and the list handed to the caller; examples: Maximum of three inputs with error 15/4, Concatenate of x and relu(x) |
| C148 | `Net.forward`, `CrownCfg.model` over the reals, with parameters read from a memory; `Slope.Tied`, `Steady` (SpecTie.lean) name the points where the lines of a ReLU jump | `hull_wide` and `tendsto_hull`: the lines are continuous at a steady point; one lemma `Tends.*` per layer and operation, induction over the network (`net_tends`) and over the backward pass (`node_tends`), then `near_of_seq_box` turns sequences into a neighbourhood; jumps by explicit networks for each slope; example: 1 - relu(2x+1) on [-1, 1] with every mode and slope |
| C149 | `Net.Computes` (Model/RunsAffine.lean): the tensors that the clone may return when each layer is within its tolerance (`Tol`, `Full.Off`, SpecTol.lean); `rangeUpper`, `rangeLower`, `affinePair`, `ibpPair`; `DenseRounded` for Dense in rounded arithmetic | induction over the network with the slack `Net.slackTol` as invariant (`Near`); errors of entries cost the tolerance times one plus the sum of the absolute values of the inputs (`Near.off`), the lines of a ReLU for inexact bounds by `near_reluFrom`; example: a residual block on [-1, 1]² with errors of 1e-6 |
| C150 | `CrownCfg.Computes` (Model/RunsBack.lean): the bounds that `crown_` may return when every tensor is within the tolerance (`Back.Off`, `Full.Off`); `Net.crownSlack` (SpecTolBack.lean) is the slack, for each output and for a combination of outputs | `CrownCfg.Computes.near`: induction over the chain, for both entries of `crown_`, with the error and the size of the weights of the bounds handed down as invariant (`near_merge`, `merge_bnd`, `Back.Near.off`, `Back.Bnd.off`); the layer values are bounded by `Net.size`; example: 1 - relu(2x+1) on [-1, 1] with errors of 1e-6 |
| C151 | `Net.RoundedAffine` (Model/FloatAffine.lean): the tensors that `forward-affine` may return when every operation is followed by a rounding; `RangeRounded`, `ScoreRounded` the numpy sums of the wrapper; `Net.sizeAff`, `Net.slackAff`, `Net.rangeSlack`, `Net.scoreSlack` (SpecFloat.lean) | `Net.float_near`: induction over the network with size and slack as invariant (`close_step`: coefficients within a factor of bounds that hold); the rounded hull of ReLU is compared with the exact hull of the bounds it was computed from (`hull_close`, where division by max(eps, u - l) costs a factor 1/(1 - delta)); Keras outputs by C123 at a single point; existence of such runs; example: a residual block in float32 |
| C152 | `Net.RoundedCrown` (Model/FloatBack.lean): the backward bounds that `crown_` may return when every operation is followed by a rounding (`MergeRounded`, `Lay.RoundedBack`, `ConstRounded`); `Net.crownFloat` (SpecFloatBack.lean): the size, the growth and the slack of every node, for its own bounds and for those handed down | `Net.RoundedCrown.near`: induction over the chain for both entries of `crown_`; the invariant for the bounds handed down is the size of their weights and the sum of the absolute values of all their terms (`MergeRounded.near`); the hull of ReLU by `float_hull` on bounds of known size; Keras outputs by `C151_call`; existence and the exact clone as instances; example: two classes in float32 with back bounds |
| C153 | `Net.RoundedMode` (Model/FloatMode.lean): the tensors that a forward method may return in each mode when every operation is followed by a rounding (`TightRounded` the bounds that a layer reads, `ReluMode`, `AddMode`, `AverageMode`, `MaxMode`), `RangeMode`, `AdvMode` the results of the wrapper; `Net.modeErr` (SpecFloatMode.lean): size and error of the constant and of the affine bounds of every entry | `Net.RoundedMode.near`: induction over the network with `ModeNear` as invariant; constant bounds are treated as affine bounds in no inputs (`constAff`), so the lemmas of C151 apply to both parts; `TightRounded.read` for the bounds that a layer reads; existence, the exact clone, delta = 0 and the formulas of C151 as instances; examples: a residual block and two classes in float32 in all modes |
| C154 | `Net.RoundedFwdCrown`, `FuseRounded`, `BackOut` (Model/FloatCrown.lean): the affine bounds that the backward pass may return when the bounds of every ReLU come from the rounded forward pass of C153 and every merge is followed by a rounding, the merge with the input tensors and the returned tensors of each mode; `Net.crownFwdFloat` (SpecFloatCrown.lean): growth, size and error of the backward pass | `Net.RoundedFwdCrown.near`: induction over the network, with `TightRounded.read` of C153 for the bounds that each ReLU reads and the merge and ReLU lemmas of C152 for the backward pass; `BackOut.near` puts the result into the invariant `ModeNear` of C153, whose range and score lemmas apply to every mode; existence, the exact clone and delta = 0 as instances; examples: two classes in float32 in all modes |
| C155 | `Net.RoundedCall`, `Net.RoundedIbp` (Model/Runs.lean) with a rounding that has an absolute error near zero and arbitrary values beyond the largest number (`FloatError`, SpecUnder.lean; `roundFloat`, Model/Under.lean); `floatError`: the error of a layer, with one smallest normal number for every operation that may underflow; `Net.Fits`: nothing can overflow | the error analysis of C123 with padded sizes (`float_step`, `tree_float`): a bound on the argument of each operation is proved along with its error, so the condition on overflow is used operation by operation; C123 gives the slack; `C155_float` for the format; both conditions refuted in float32 when dropped |
| C156 | `refineRounded`, `refineBoxRounded`, `Net.CloneRounded`, `Net.RangeOver`, `Net.AdvOver` (Model/FloatSplit.lean): the splitting loops with rounded middles and widths, the clone by any method on the converted corners (C152, C153, C154), numpy on the corners before the conversion (`get_range_box`) or after it (`get_adv_box`), maximum over the sub-boxes; SpecFloatSplit.lean gathers what is known in advance for the seven methods | both halves use the same middle, so they cover the box for any rounding; monotone binary roundings keep the middle between the corners; bounds at the converted point are read at the point with one more error (`ModeNear.converted`); the error analysis of C152–C154 with inputs at most those of the whole box. Simplified: overflow is not modelled; `random=True` raises (C37) |
| C157 | `KGraph.RoundedBounds`, `KGraph.RoundedValue`, `KGraph.RangeOver`, `KGraph.AdvOver` (Model/FloatGraph.lean): the nodes of the graph model of C130 in rounded arithmetic, the merges folded from the left as in the code, `MaxPooling2D` on constant bounds, numpy on the corners; rounding to nearest over ℝ (Model/RoundReal.lean); SpecFloatGraph.lean gives the size and the error of the bounds and of the value of every node in advance | induction along the topological order: every node keeps "bounds right up to the error" (`KOp.RoundedMode.near`) and "value near the exact one" (`KOp.call_near`); the sub-boxes of C156; on graphs that unfold into the networks of C153 it gives back their errors (`C157_net`); concrete `float32` graphs with numeric slacks. Simplified: overflow and underflow are not modelled; Multiply, Dot and other activations are out of scope |
| C158 | the networks, `Net.forward` and `CrownCfg.model` of Model/Network.lean; SpecPrune.lean says what it means to remove inputs and neurons (`Net.Keeps`), what is compared (`KeptBounds`, `SameResult`) and when computed bounds say that a neuron is off (`OffNeuron`) | induction on the network: all tensors are restrictions with zero weights elsewhere (`SubFull`, `SubBack`), sums over removed indices vanish; off neurons have the zero hull, so their rows are multiplied by zero in the Dense layer and in `merge_with_previous`; `C158_off_limit_refuted`: upper bound not positive alone is not enough, since both bounds 0 count as linear. Simplified: off neurons only before a Dense layer |
| C159 | `Net.forward`, `CrownCfg.model`, `CrownCfg.modelBack` of Model/Network.lean over any domain; SpecCopies.lean says how the weights are split (`SplitWeights`, `Shares`) | sums over the copies are grouped by the neuron they copy (`sum_copies`); positive and negative parts add up within a group; in the backward pass the rows of the copies are shares of the old rows (`merge_copies`, `merge_diag_copies`), so the chained tensors below the layer are equal; `C159_sign_refuted`, `C159_uneven_refuted` give the limits. Simplified: the copied layer is Dense + ReLU followed by Dense |
| C160 | `getAdvBox` of Model/Wrapper.lean with labels as 0/1 arrays; SpecLabelSets.lean says what fewer labels and one pair are | the score of each sub-box is the greatest value over its pairs (C33), the minimum of two such in hybrid mode (`PairScore`), which is monotone in the sets; the maximum over sub-boxes commutes with the maximum over pairs; `C160_hybrid_refuted` runs the model on a network of three outputs |
| C161 | `getRangeBox`, `getAdvBox` of Model/Wrapper.lean on any converted model; `CrownCfg.model` for the crown methods | the score is the greatest value over the pairs (`PairScore` of C160); the bound of a difference of affine bounds is at most the difference of their bounds over a box (`affinePair_le`); `C161_hybrid_refuted` runs the model on a network of two outputs. Simplified: no sub-boxes, since get_range_box groups its rows wrongly with several outputs (C36) |
| C162 | `backwardScore`, `advScoreBackward`, `advCheckBackward` of Model/MetricsBack.lean: the slices, reshapes and broadcasts of `_get_backward_score` on tensors of shapes (n_in, n_out) and (n_out), for one sample over a box | the penalties are at least 0 and are 0 for one pair, so the maximum is the value without penalties (`backwardScore_eq`); `C162_certificate_refuted` runs the crown model on a network of two inputs and two outputs. Refines C42, whose model reads index 0 as the removal of an axis of length one |
| C163 | `KGraph.cloneOnBox` of C140, `getRangeBox`, `getAdvBoxOf`; spec `Net.logits`, `Net.rescaledLogits` (Verif/SpecLogits.lean) | C119 with the unit of the outputs gives the image of the tensors, evaluating the affine maps at 0 and at the unit vectors gives their weights (`rescaled_of_image`); C141 brings it to graphs (`cloneOnBox_net`); positive factors commute with the maxima of `get_range_box` and `get_adv_box`. Props/Logits.lean |
| C164 | Verif/Model/Split.lean: `splitAxis` (`K.split`), `splitCount`, `splitTensors`, `splitUtil` (`split`, with a flag for the keyword argument missing in Keras 3), `sortParts`; tensors of any rank as in C83; spec `IndexOf`, `NdBounds` | the part at position j reads the index with j at the axis; for weights the axis after it; list lemmas on `set`; refutations: the call of Keras 3 for all inputs, and axis -2 (wrong entries, or an exception). Props/Split.lean |
| C165 | `sigmoidPrime`, `tanhPrime`, `softsignPrime` (Model/Activations.lean), `reluPrime` (Model/Primes.lean); spec: `HasDerivAt` of the functions written out with `exp` and absolute values, `SlopesWithin`, `WidthWithin` | derivatives from Mathlib; the largest slope is at 0 since the functions are convex, then concave; mean value theorem; relu by cases, refuted at 0 by the two one-sided derivatives. Props/Primes.lean |
| C166 | `graphComplexity` (Verif/Model/Count.lean) on the dictionary `_nodes_by_depth`; spec: count in the list of all nodes, permutations | induction over the two loops; permutations keep counts; nested models refuted for every number of layers but one. Props/Count.lean |
| C167 | `Packed`, `prepareInputs`, `wrapOutputs` (Verif/Model/Count.lean); spec: the relation `Holds` between an argument and the list of its tensors | cases. Props/Count.lean |
