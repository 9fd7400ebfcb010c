import Verif.Model.Layers
import Verif.Model.Shapes
import Mathlib.Data.List.Nodup

/-!
Models of keras_utils.py, of `to_decomon` (layers/convert.py), of `to_backward` (backward_layers/convert.py), and of the configurations
(`get_config`) of layers and domains.
-/

namespace Decomon

/-! ### Copying weights, keras_utils.py:76-141 -/

section Reset
variable {V S : Type}

/-- A Keras layer object: whether it is built, its attributes (`none`: no such attribute; `some none`: an attribute that is not a
variable, as `bias` without bias) and its list `weights`.  Variables are numbers. -/
structure KLayer where
  built : Bool
  attr : String → Option (Option ℕ)
  weights : List ℕ

/-- Models `get_weight_index`, keras_utils.py:76-94. -/
def getWeightIndex (L : KLayer) : Option ℕ → Except PyErr ℕ
  | none => .error .indexError
  | some v => if v ∈ L.weights then .ok (L.weights.idxOf v) else .error .indexError

/-- Models `get_weight_index_from_name`, keras_utils.py:97-116. -/
def getWeightIndexFromName (L : KLayer) (name : String) : Except PyErr ℕ :=
  match L.attr name with
  | none => .error .attributeError
  | some w => getWeightIndex L w

/-- The loop of `reset_layer`, keras_utils.py:137-140, on the lists of values `new_params` (last argument) and `original_params`. -/
def resetParams (new orig : KLayer) (origParams : List V) : List String → List V → Except PyErr (List V)
  | [], params => .ok params
  | name :: t, params =>
    match getWeightIndexFromName orig name with
    | .error e => .error e
    | .ok o =>
      match origParams[o]? with
      | none => .error .indexError
      | some v =>
        match getWeightIndexFromName new name with
        | .error e => .error e
        | .ok i => resetParams new orig origParams t (params.set i v)

/-- Keras' `Layer.set_weights`: the variables are assigned one after the other; a value with another shape raises. -/
def setWeights [DecidableEq S] (shape : V → S) : List ℕ → List V → (ℕ → V) → Except PyErr Unit × (ℕ → V)
  | v :: vs, x :: xs, mem =>
    if shape (mem v) = shape x then setWeights shape vs xs (Function.update mem v x) else (.error .valueError, mem)
  | _, _, mem => (.ok (), mem)

/-- Models `reset_layer`, keras_utils.py:119-141: the outcome and the memory afterwards. -/
def resetLayer [DecidableEq S] (shape : V → S) (new orig : KLayer) (names : List String) (mem : ℕ → V) : Except PyErr Unit × (ℕ → V) :=
  if orig.built = false then (.error .valueError, mem)
  else if new.built = false then (.error .valueError, mem)
  else
    match resetParams new orig (orig.weights.map mem) names (new.weights.map mem) with
    | .error e => (.error e, mem)
    | .ok params => setWeights shape new.weights params mem

end Reset

/-! ### `to_decomon` and `to_backward` -/

section Conversion
variable {V : Type}

/-- A Keras layer given to `to_decomon`: class name, name, attribute `built` (if any), whether it is an `Activation`,
`get_config().get("activation")`, the input shapes of each of its calls, and what it computes before its activation. -/
structure KerasLayer (V : Type) where
  cls : String
  name : String
  built : Option Bool
  isActivation : Bool
  act : Option String
  calls : List (List KShape)
  core : V → V

/-- The keys `Decomon...` of the namespace of layers/convert.py:13-17 that can be instantiated: the classes of decomon_layers.py,
decomon_merge_layers.py, decomon_reshape.py and maxpooling.py (the abstract `DecomonLayer` and `DecomonMerge` cannot). -/
def decomonClasses : List String :=
  ["Conv2D", "Dense", "Activation", "Flatten", "BatchNormalization", "Dropout", "InputLayer", "Add", "Average", "Subtract", "Minimum",
    "Maximum", "Concatenate", "Multiply", "Dot", "Reshape", "Permute", "MaxPooling2D"]

/-- Models `get_layer_input_shape`, layers/convert.py:156-186. -/
def getLayerInputShape (L : KerasLayer V) : Except PyErr (List KShape) :=
  match L.calls with
  | [] => .error .attributeError
  | s :: t => if ∀ x ∈ t, x = s then .ok s else .error .attributeError

/-- A decomon layer: its class, its name, and the function that it bounds. -/
structure DLayer (V : Type) where
  cls : String
  name : String
  bounded : V → V

/-- Models `to_decomon`, layers/convert.py:20-150.  `ctorOk` says whether the constructor accepts the configuration; any exception in
it is turned into `NotImplementedError` (lines 111-114).  `apply` gives the activations.  The activation of a layer that is not an
`Activation` is removed (lines 109-110).  Simplified: the call on the symbolic inputs (line 73) and the copy of the weights (line 74, see
`resetLayer`) are taken to succeed. -/
def toDecomonLayer (apply : String → V → V) (ctorOk : KerasLayer V → Bool) (dc : Bool) (L : KerasLayer V) : Except PyErr (DLayer V) :=
  if L.built = some false then .error .valueError
  else if L.cls ∉ decomonClasses ∨ ctorOk L = false then .error .notImplemented
  else
    match getLayerInputShape L with
    | .error e => .error e
    | .ok shapes =>
      if dc = true ∧ shapes.length ≠ 1 then .error .notImplemented
      else .ok ⟨"Decomon" ++ L.cls, L.name ++ "_decomon",
        match L.isActivation, L.act with
        | true, some a => fun x => apply a (L.core x)
        | _, _ => L.core⟩

/-- What a forward or backward layer knows about the propagation. -/
structure PropAttrs (δ : Type) where
  mode : Mode
  domain : δ
  dcDecomp : Bool
  deriving DecidableEq

/-- The merge layers whose backward layer can only be made from the decomon layer: the constructors raise `KeyError` otherwise
(backward_merge.py:274, 319, 364, 409, 454, 499). -/
def decomonOnlyMerges : List String := ["Subtract", "Maximum", "Minimum", "Concatenate", "Multiply", "Dot"]

/-- Models `to_backward`, backward_layers/convert.py:16-45, and the constructors of `BackwardLayer` and `BackwardMerge`
(backward_layers/core.py:25-51, backward_merge.py:44-70).  `wrapped` holds the attributes of the layer when it is a `DecomonLayer`.  `cls`
is the class name without the prefix `Decomon`.  The classes `Backward...` exist for the same names; the constructors of
`BackwardMaxPooling2D` (backward_maxpooling.py:23-40) and `BackwardDot` (backward_merge.py:482-505) always raise.  Simplified: no extra
keyword is given, so `dc_decomp` is false for a Keras layer; a Dense or Conv2D layer is one that `to_decomon` converts
(backward_layers.py:52-65, 153-166); the activation is a known one (`C64`). -/
def toBackwardAttrs {δ : Type} (box : δ) (cls : String) (wrapped : Option (PropAttrs δ)) (mode : Mode) (domain : Option δ) :
    Except PyErr (PropAttrs δ) :=
  if cls ∉ decomonClasses then .error .notImplemented
  else if cls = "MaxPooling2D" then .error .notImplemented
  else if cls ∈ decomonOnlyMerges ∧ wrapped.isNone then .error .keyError
  else if cls = "Dot" then .error .notImplemented
  else
    match wrapped with
    | some a => .ok a
    | none => .ok ⟨mode, domain.getD box, false⟩

end Conversion

/-! ### Configurations -/

section Config
variable {δ : Type}

/-- The attributes of a `DecomonActivation`, decomon_layers.py:545-571. -/
structure ActAttrs (δ : Type) where
  activation : String
  domain : δ
  dcDecomp : Bool
  mode : Mode
  slope : Slope
  finetune : Bool
  shared : Bool
  fast : Bool
  deriving DecidableEq

/-- The dictionary returned by `get_config`: a missing key is `none`. -/
structure ActConfig (δ : Type) where
  activation : Option String
  domain : Option δ
  dcDecomp : Option Bool
  mode : Option Mode
  slope : Option Slope
  finetune : Option Bool
  shared : Option Bool
  fast : Option Bool

/-- Models `DecomonActivation.get_config`: `Activation.get_config` of Keras (the key `activation`) and `DecomonLayer.get_config`,
layers/core.py:75-87. -/
def ActAttrs.getConfig (a : ActAttrs δ) : ActConfig δ where
  activation := some a.activation
  domain := some a.domain
  dcDecomp := some a.dcDecomp
  mode := some a.mode
  slope := none
  finetune := some a.finetune
  shared := some a.shared
  fast := some a.fast

/-- Models `DecomonActivation.__init__`, decomon_layers.py:545-571, called by `from_config`. -/
def actInit (box : δ) (c : ActConfig δ) : Except PyErr (ActAttrs δ) :=
  match c.activation with
  | none => .error .typeError
  | some a => .ok ⟨a, c.domain.getD box, c.dcDecomp.getD false, c.mode.getD .hybrid, c.slope.getD .vSlope, c.finetune.getD false,
      c.shared.getD false, c.fast.getD true⟩

/-- The attributes of a `BackwardActivation` around a Keras layer, backward_layers.py:232-259. -/
structure BackActAttrs (δ ℓ : Type) where
  layer : ℓ
  nrec : ℕ
  mode : Mode
  domain : δ
  dcDecomp : Bool
  slope : Slope
  finetune : Bool
  deriving DecidableEq

/-- The dictionary returned by `BackwardActivation.get_config`. -/
structure BackActConfig (δ ℓ : Type) where
  layer : Option ℓ
  nrec : Option ℕ
  mode : Option Mode
  domain : Option δ
  dcDecomp : Option Bool
  slope : Option Slope
  finetune : Option Bool

/-- Models `BackwardActivation.get_config`, backward_layers.py:261-269, with backward_layers/core.py:61-71 and Keras' `Wrapper` (key
`layer`). -/
def BackActAttrs.getConfig {ℓ : Type} (a : BackActAttrs δ ℓ) : BackActConfig δ ℓ :=
  ⟨some a.layer, some a.nrec, some a.mode, some a.domain, some a.dcDecomp, some a.slope, some a.finetune⟩

/-- Models `BackwardActivation.__init__` for a Keras layer, backward_layers.py:232-259, backward_layers/core.py:25-51. -/
def backActInitFrom {ℓ : Type} (box : δ) (c : BackActConfig δ ℓ) : Except PyErr (BackActAttrs δ ℓ) :=
  match c.layer with
  | none => .error .typeError
  | some l => .ok ⟨l, c.nrec.getD 1, c.mode.getD .hybrid, c.domain.getD box, c.dcDecomp.getD false, c.slope.getD .vSlope, c.finetune.getD false⟩

/-- The attributes of a `Convert2Mode` layer, models/utils.py:285-312. -/
structure ConvAttrs (δ : Type) where
  modeFrom : Mode
  modeTo : Mode
  domain : δ
  inputDim : ℤ
  deriving DecidableEq

/-- `Convert2Mode.get_config`, models/utils.py:350-355, then `Convert2Mode.__init__`: `input_dim` is not in the dictionary, its default
is -1. -/
def ConvAttrs.roundTrip (a : ConvAttrs δ) : ConvAttrs δ := ⟨a.modeFrom, a.modeTo, a.domain, -1⟩

/-- The shape of the tensor `x` announced for a conversion from ibp, core.py:234, 259 with core.py:48-56, for a domain whose tensor `x` has
`ncomp` components. -/
def convXShape (ncomp : ℕ) (a : ConvAttrs δ) : List ℤ := if ncomp = 1 then [a.inputDim] else [ncomp, a.inputDim]

/-- A `DecomonDense` or `DecomonConv2D` object, as far as its weights go. -/
structure KernelObj where
  shared : Bool
  kernel : Option ℕ

/-- `build`, decomon_layers.py:91-131, 323-394: with `shared` no weight is made. -/
def KernelObj.build (fresh : ℕ) (o : KernelObj) : KernelObj := if o.shared then o else { o with kernel := some fresh }

/-- `share_weights`, decomon_layers.py:133-137, 396-405. -/
def KernelObj.share (k : ℕ) (o : KernelObj) : KernelObj := if o.shared then { o with kernel := some k } else o

/-- Reading `self.kernel` in `call`, decomon_layers.py:139-286, 421-536. -/
def KernelObj.call (o : KernelObj) : Except PyErr ℕ :=
  match o.kernel with
  | none => .error .attributeError
  | some k => .ok k

/-- `from_config(get_config())`: the flag is kept (layers/core.py:75-87), the variables are not part of a configuration. -/
def KernelObj.fromConfig (o : KernelObj) : KernelObj := ⟨o.shared, none⟩

end Config

/-! ### Tensors and shapes, keras_utils.py:16-63, 225-240 -/

section Batched
variable {α : Type}

/-- A tensor: its shape and its entries in row-major order. -/
structure Flat (α : Type) where
  shape : List ℕ
  data : List α

/-- Models `BatchedIdentityLike.call`, keras_utils.py:24-28, on a tensor of shape `s ++ [n]` with `n > 0` and a positive number of entries:
the identity matrix repeated `prod s` times, then reshaped, which keeps the entries. -/
def batchedIdentityLike [Zero α] [One α] (s : List ℕ) (n : ℕ) : Flat α where
  shape := s ++ [n, n]
  data := (List.replicate s.prod ((List.range (n * n)).map fun q => if q / n = q % n then (1 : α) else 0)).flatten

/-- `BatchedIdentityLike.compute_output_spec` and `BatchedDiagLike.compute_output_spec`, keras_utils.py:30-38, 55-63. -/
def batchedSpec (shape : List ℕ) : Except PyErr (List ℕ) :=
  match shape.getLast? with
  | none => .error .indexError
  | some n => .ok (shape ++ [n])

/-- Models `BatchedDiagLike.call`, keras_utils.py:52-53, on a tensor of shape `b :: t`: `K.diag(K.ravel(w_part))` for each of the `b` parts. -/
def batchedDiagLike [Zero α] (b : ℕ) (t : List ℕ) (x : List α) : Flat α where
  shape := [b, t.prod, t.prod]
  data := (List.range b).flatMap fun i => (List.range (t.prod * t.prod)).map fun q =>
    if q / t.prod = q % t.prod then x.getD (i * t.prod + q % t.prod) 0 else 0

/-- The Python values that describe shapes. -/
inductive PyVal
  | int (n : ℤ)
  | none
  | list (l : List PyVal)
  | tuple (l : List PyVal)
  | dict

/-- `isinstance(v, (int, type(None)))`. -/
def PyVal.isDim : PyVal → Bool
  | .int _ => true
  | .none => true
  | _ => false

/-- Models `check_if_single_shape`, keras_utils.py:225-240, on a list, tuple or dict. -/
def checkIfSingleShape : PyVal → Except PyErr Bool
  | .list (v :: _) => .ok v.isDim
  | .list [] => .ok false
  | .tuple (v :: _) => .ok v.isDim
  | .tuple [] => .ok false
  | .dict => .ok false
  | .int _ => .error .typeError
  | .none => .error .typeError

end Batched

end Decomon
