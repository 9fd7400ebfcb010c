import Verif.Model.Graph
import Verif.Model.Utils

/-!
Model of the entry point `clone` (models/convert.py) and of how the options travel to the layers: the checks on the model
(`ensure_functional_model`, `check_model2convert_inputs`, `get_input_dim`, `get_input_tensors` in models/utils.py), `convert_forward` and
`include_dim_layer_fn` (models/forward_cloning.py), `crown_model` (models/backward_cloning.py).  Only shapes and options are modelled
here, the tensors are modelled in Model/Network.lean.
-/

namespace Decomon

/-! ### Checks -/

/-- The object given as `model`: not a `keras.Model`, a subclass of `Model` that is neither functional nor sequential, or a functional or
sequential model. -/
inductive ModelKind
  | notModel
  | subclassed
  | functional
  | sequential
  deriving DecidableEq, Repr

/-- What the checks read of the object given as `model`: its kind and the shapes of its inputs (the batch axis first, `none` for an unknown
size). -/
structure UserModel where
  kind : ModelKind
  inputs : List (List (Option ℕ))
  deriving DecidableEq, Repr

/-- Models `isinstance(model, Model)`, convert.py:193, forward_cloning.py:110, backward_cloning.py:327. -/
def UserModel.isModel (u : UserModel) : Bool := decide (u.kind ≠ .notModel)

/-- Models `ensure_functional_model`, models/utils.py:358-366. -/
def ensureFunctional (u : UserModel) : Except PyErr UserModel :=
  match u.kind with
  | .functional => .ok u
  | .sequential => .ok { u with kind := .functional }
  | _ => .error .notImplemented

/-- Models `check_model2convert_inputs`, models/utils.py:73-85: `len(model.inputs) > 1`, then `len(model.inputs[0].shape) > 2`. -/
def checkModelInputs (u : UserModel) : Except PyErr Unit :=
  if u.inputs.length > 1 then .error .valueError
  else match u.inputs with
    | [] => .error .indexError
    | s :: _ => if s.length > 2 then .error .valueError else .ok ()

/-- Models `int(np.prod(shape[1:]))`, models/utils.py:155, 157: an unknown size gives `TypeError`. -/
def prodDims : List (Option ℕ) → Except PyErr ℕ
  | [] => .ok 1
  | some n :: t => (prodDims t).map (n * ·)
  | none :: _ => .error .typeError

/-- Models `get_input_dim`, models/utils.py:151-157, for a model whose `input` is a tensor or a list of tensors. -/
def getInputDim (u : UserModel) : Except PyErr ℕ :=
  match u.inputs with
  | [] => .ok 0
  | s :: _ => prodDims s.tail

/-- The object given as `perturbation_domain`: `None`, a `BoxDomain`, a `BallDomain`, or an instance of another class derived from
`PerturbationDomain`, of which `get_nb_x_components` is given. -/
inductive DomArg
  | default
  | box
  | ball (p : PVal)
  | other (ncomp : ℕ)
  deriving DecidableEq

/-- Models the replacement of `None`, convert.py:187-188. -/
def DomArg.resolve : DomArg → DomArg
  | .default => .box
  | d => d

/-- Models `get_nb_x_components`, core.py:70-71, 111-112. -/
def DomArg.ncomp : DomArg → ℕ
  | .default => 2
  | .box => 2
  | .ball _ => 1
  | .other n => n

/-- Models `get_x_input_shape_wo_batchsize`, core.py:47-55, with the batch axis that `Input` adds. -/
def xShape (d : DomArg) (n : ℕ) : List (Option ℕ) := if d.ncomp = 1 then [none, some n] else [none, some d.ncomp, some n]

/-- Models the shapes of `get_input_tensors`, models/utils.py:88-148.  For a ball, the concretisation of the identity (lines 138-139) raises
for a `p` other than 1, 2 and inf (`get_lq_norm`, core.py:528-546). -/
def inputTensorShapes (d : DomArg) (ibp affine : Bool) (n : ℕ) : Except PyErr (List (List (Option ℕ))) :=
  let y : List (Option ℕ) := [none, some n]
  let w : List (Option ℕ) := [none, some n, some n]
  match d.resolve with
  | .other _ => .error .notImplemented
  | .ball p =>
    if ibp && decide (p ≠ .inf ∧ p ≠ .fin 1 ∧ p ≠ .fin 2) then .error .notImplemented
    else .ok (extractForMode (getMode ibp affine) false ⟨xShape d n, y, w, y, y, w, y, [], []⟩)
  | _ => .ok (extractForMode (getMode ibp affine) false ⟨xShape d n, y, w, y, y, w, y, [], []⟩)

/-! ### Options -/

/-- The callable given as `layer_fn`: an identifier, whether the object is callable, and whether `inspect.signature` shows a parameter
named `input_dim` (a parameter `**kwargs` does not count). -/
structure LayerFnArg where
  name : String
  callable : Bool
  hasInputDim : Bool
  deriving DecidableEq, Repr

/-- `to_decomon`, layers/convert.py:21-32, the default. -/
def toDecomonFn : LayerFnArg := ⟨"to_decomon", true, true⟩

/-- The keyword arguments that `layer_fn` receives, forward_cloning.py:71-81. -/
structure FwdSettings where
  inputDim : ℕ
  slope : Slope
  domain : DomArg
  dc : Bool
  ibp : Bool
  affine : Bool
  finetune : Bool
  shared : Bool
  deriving DecidableEq

/-- A call that converts a layer: the callable and, unless it is called on the layer alone, its keyword arguments. -/
structure FwdCall where
  fn : String
  settings : Option FwdSettings
  deriving DecidableEq

/-- Models `include_dim_layer_fn`, forward_cloning.py:37-90. -/
def includeDimLayerFn (f : LayerFnArg) (s : FwdSettings) : Except PyErr FwdCall :=
  if f.callable = false then .error .valueError
  else if f.hasInputDim then .ok ⟨f.name, some s⟩
  else .ok ⟨f.name, none⟩

/-- The keyword arguments that `to_backward` receives, backward_cloning.py:347-353. -/
structure BwdSettings where
  fn : String
  mode : Mode
  finetune : Bool
  domain : DomArg
  slope : Slope
  deriving DecidableEq

/-- What `convert` does with its options: the calls that convert the layers in the forward pass and in the backward pass, and whether each
pass turns a final softmax into a linear activation. -/
structure ConvertTrace where
  fwd : Option FwdCall
  fwdSoftmax : Bool
  bwd : Option BwdSettings
  bwdSoftmax : Bool
  deriving DecidableEq

/-- The options of `convert` followed here, convert.py:81-101. -/
structure ConvertOpts where
  layerFn : LayerFnArg
  slope : Slope
  domain : DomArg
  finetune : Bool
  finetuneForward : Bool
  finetuneBackward : Bool
  shared : Bool
  softmaxToLinear : Bool
  inputDim : ℕ
  deriving DecidableEq

/-- Models the calls of `convert_forward` and `convert_backward` by `convert`, convert.py:103-164.  `convert_backward` is called without
`layer_fn` and without `softmax_to_linear`, so that their defaults `to_backward` and `True` hold (backward_cloning.py:421-424). -/
def convertTrace (m : Method) (ibp affine : Bool) (o : ConvertOpts) : Except PyErr ConvertTrace := do
  let ff := o.finetune || o.finetuneForward
  let fb := o.finetune || o.finetuneBackward
  let fwd ← if m = .crown then pure none
    else (includeDimLayerFn o.layerFn ⟨o.inputDim, o.slope, o.domain.resolve, false, ibp, affine, ff, o.shared⟩).map some
  let bwd := if isBackward m then some ⟨"to_backward", getMode ibp affine, fb, o.domain.resolve, o.slope⟩ else none
  return ⟨fwd, fwd.isSome && o.softmaxToLinear, bwd, bwd.isSome⟩

/-! ### clone -/

/-- The arguments of `clone`, convert.py:170-186.  `kwargs` are the names of the extra keyword arguments. -/
structure CloneArgs where
  model : UserModel
  layerFn : LayerFnArg
  slope : Slope
  domain : DomArg
  method : String
  finetune : Bool
  shared : Bool
  finetuneForward : Bool
  finetuneBackward : Bool
  toKeras : Bool
  finalIbp : Option Bool
  finalAffine : Option Bool
  nBackBounds : ℕ
  kwargs : List String
  deriving DecidableEq

/-- The call `clone(model)`: the defaults of convert.py:170-186. -/
def CloneArgs.ofModel (u : UserModel) : CloneArgs :=
  ⟨u, toDecomonFn, .vSlope, .default, "crown", false, true, false, false, true, none, none, 0, []⟩

/-- What is observed of the returned `DecomonModel`, convert.py:247-258 and models/models.py:20-46: its attributes, the shape of its first
input, the number of its outputs, and the way its layers were converted. -/
structure CloneResult where
  zShape : List (Option ℕ)
  nOutputs : ℕ
  ibp : Bool
  affine : Bool
  method : Method
  domain : DomArg
  finetune : Bool
  shared : Bool
  backwardBounds : Bool
  trace : ConvertTrace
  deriving DecidableEq

/-- Models `clone`, convert.py:170-258.  `pre` is the outcome of the split of the activations (convert.py:118), `run` that of the conversion
of the layers; both may raise.  The number of outputs is that of `Convert2Mode`, which ends both passes (convert.py:159-164,
backward_cloning.py:451-456). -/
def clone (pre : Except PyErr Unit) (run : ConvertTrace → Except PyErr Unit) (a : CloneArgs) : Except PyErr CloneResult := do
  if a.model.isModel = false then throw .valueError
  let m ← methodOfString a.method
  let ia := ibpAffineOfMethod m
  let fi := a.finalIbp.getD ia.1
  let fa := a.finalAffine.getD ia.2
  if a.toKeras = false then throw .notImplemented
  let u ← ensureFunctional a.model
  checkModelInputs u
  let n ← getInputDim u
  let _ ← inputTensorShapes a.domain ia.1 ia.2 n
  pre
  let t ← convertTrace m ia.1 ia.2
    ⟨a.layerFn, a.slope, a.domain.resolve, a.finetune, a.finetuneForward, a.finetuneBackward, a.shared, true, n⟩
  run t
  return ⟨xShape a.domain n, nbTensors (getMode fi fa) false, fi, fa, m, a.domain.resolve, a.finetune, a.shared,
    decide (0 < a.nBackBounds), t⟩

/-- Models how `get_range_box` reads the outputs of a model, wrapper.py:533-584: the number of outputs that it unpacks, or
`NotImplementedError` if the model has neither constant nor affine bounds. -/
def rangeReads (ibp affine : Bool) : Except PyErr ℕ :=
  if ibp && affine then .ok 7
  else if ibp && !affine then .ok 2
  else if !ibp && affine then .ok 5
  else .error .notImplemented

end Decomon
