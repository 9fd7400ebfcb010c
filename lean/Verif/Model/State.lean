import Verif.Model.Core
import Mathlib.Logic.Function.Basic
import Mathlib.Algebra.BigOperators.Group.Finset.Basic
import Mathlib.Algebra.Order.Field.Basic
import Mathlib.Data.Fintype.BigOperators

/-!
Model of the mutable state: freezing and unfreezing (layers, backward layers and `DecomonModel`), weight constraints, and the objects
touched by the conversion of a chain of Keras layers (`split_activation`, `_clone_keras_model`, `softmax_to_linear`).
-/

namespace Decomon

/-! ### Freezing -/

section Freeze
variable {ω : Type*}

/-- State of a layer with a kernel: the attribute `_trainable_weights` and `frozen_weights`.  Under Keras 3 (pyproject.toml requires
`keras>=3`) this attribute belongs to decomon alone, see `TrackedLayer` below; under Keras 2 it was the list of trainable weights itself. -/
structure KernelState (ω : Type*) where
  trainable : List ω
  frozen : Bool
  deriving DecidableEq

/-- Models `freeze_weights` of DecomonDense and DecomonConv2D, decomon_layers.py:275-278 and 525-528. -/
def KernelState.freeze (s : KernelState ω) : KernelState ω := if s.frozen = false then ⟨[], true⟩ else s

/-- Models `unfreeze_weights` of DecomonDense and DecomonConv2D, decomon_layers.py:280-285 and 530-535.  `bias = none` when
`use_bias=False`. -/
def KernelState.unfreeze (kernel : ω) (bias : Option ω) (s : KernelState ω) : KernelState ω :=
  if s.frozen = true then
    ⟨kernel :: (match bias with
      | some b => b :: s.trainable
      | none => s.trainable), false⟩
  else s

/-- `_trainable_weights` after `build`, decomon_layers.py:111-129 and 336-358 (shared weights are tracked in the same order). -/
def kernelInit (kernel : ω) (bias : Option ω) : KernelState ω := ⟨kernel :: bias.toList, false⟩

/-- State of a BackwardDense or BackwardConv2D: its own state and that of the wrapped decomon layer. -/
structure BackKernelState (ω : Type*) where
  own : KernelState ω
  inner : KernelState ω

/-- Models `freeze_weights` of BackwardDense and BackwardConv2D, backward_layers.py:118-123 and 217-222. -/
def BackKernelState.freeze (s : BackKernelState ω) : BackKernelState ω :=
  if s.own.frozen = false then ⟨⟨[], true⟩, s.inner.freeze⟩ else s

/-- Models `unfreeze_weights` of BackwardDense and BackwardConv2D, backward_layers.py:125-129 and 224-228: the layer's own list is left
as it is. -/
def BackKernelState.unfreeze (kernel : ω) (bias : Option ω) (s : BackKernelState ω) : BackKernelState ω :=
  if s.own.frozen = true then ⟨⟨s.own.trainable, false⟩, s.inner.unfreeze kernel bias⟩ else s

/-- The state after `build` of BackwardDense, backward_layers.py:99-116. -/
def backKernelInit (kernel : ω) (bias : Option ω) : BackKernelState ω := ⟨kernelInit kernel bias, kernelInit kernel bias⟩

/-- Models `freeze_alpha` of DecomonActivation, decomon_layers.py:633-637.  `active` is `finetune and mode in [AFFINE, HYBRID]`. -/
def KernelState.freezeAlpha (active : Bool) (s : KernelState ω) : KernelState ω :=
  if s.frozen = false then ⟨if active then [] else s.trainable, true⟩ else s

/-- Models `unfreeze_alpha` of DecomonActivation, decomon_layers.py:639-647.  `alphas` is `[]` for a linear activation, `[beta_l_f]` for
relu, else `[beta_u_f, beta_l_f]`. -/
def KernelState.unfreezeAlpha (active : Bool) (alphas : List ω) (s : KernelState ω) : KernelState ω :=
  if s.frozen = true then ⟨if active then s.trainable ++ alphas else s.trainable, false⟩ else s

/-- `_trainable_weights` after `build` of DecomonActivation, decomon_layers.py:573-592. -/
def alphaInit (active : Bool) (alphas : List ω) : KernelState ω := ⟨if active then alphas else [], false⟩

/-- State of a BackwardActivation; `frozenAlpha = none` when the attribute does not exist (`finetune=False`, backward_layers.py:255-256). -/
structure BackActState (ω : Type*) where
  trainable : List ω
  frozenAlpha : Option Bool
  frozenGrid : Bool
  deriving DecidableEq

/-- (The grid domains of core.py:74-79 are abstract and cannot be instantiated, so `grid` is empty for every domain of the library.)
What does not change in a BackwardActivation: `mode in [AFFINE, HYBRID]`, `finetune`, `grid_finetune` and the alphas, in the order of
`unfreeze_alpha` (`none` if `alpha_b_l` or `alpha_b_u` was not created, which happens for a grid domain when the activation is not a relu). -/
structure BackActCfg (ω : Type*) where
  affineMode : Bool
  finetune : Bool
  grid : List ω
  alphas : Option (List ω)

/-- Models `freeze_alpha` of BackwardActivation, backward_layers.py:404-411. -/
def BackActState.freezeAlpha (c : BackActCfg ω) (s : BackActState ω) : Except PyErr (BackActState ω) :=
  match s.frozenAlpha with
  | none => .error .attributeError
  | some true => .ok s
  | some false =>
    if c.finetune && c.affineMode then
      .ok { s with trainable := if c.grid.length ≠ 0 then s.trainable.take 2 else [], frozenAlpha := some true }
    else .ok s

/-- Models `unfreeze_alpha` of BackwardActivation, backward_layers.py:413-421. -/
def BackActState.unfreezeAlpha (c : BackActCfg ω) (s : BackActState ω) : Except PyErr (BackActState ω) :=
  match s.frozenAlpha with
  | none => .error .attributeError
  | some false => .ok s
  | some true =>
    if c.finetune && c.affineMode then
      match c.alphas with
      | none => .error .attributeError
      | some a => .ok { s with trainable := s.trainable ++ a, frozenAlpha := some false }
    else .ok { s with frozenAlpha := some false }

/-- Models `freeze_grid` of BackwardActivation, backward_layers.py:423-426. -/
def BackActState.freezeGrid (c : BackActCfg ω) (s : BackActState ω) : BackActState ω :=
  if c.grid.length ≠ 0 ∧ s.frozenGrid = false then { s with trainable := s.trainable.drop 2, frozenGrid := true } else s

/-- Models `unfreeze_grid` of BackwardActivation, backward_layers.py:428-431. -/
def BackActState.unfreezeGrid (c : BackActCfg ω) (s : BackActState ω) : BackActState ω :=
  if c.grid.length ≠ 0 ∧ s.frozenGrid = true then { s with trainable := c.grid ++ s.trainable, frozenGrid := false } else s

/-- The state after `build` of BackwardActivation, backward_layers.py:271-371, with `built` the alphas in the order of creation and
`gridTrainable` the grid weights in the order of creation (none for milp, whose weights are not trainable). -/
def backActInit (finetune : Bool) (built gridTrainable : List ω) : BackActState ω :=
  ⟨built ++ gridTrainable, if finetune then some false else none, false⟩

/-! ### Freezing a whole model -/

/-- A layer of a `DecomonModel`, as far as freezing goes.  `plain` is a layer with the methods of the base class, which do nothing
(layers/core.py:224-234), e.g. DecomonBatchNormalization with its `gamma` and `beta`. -/
inductive FLayer (ω : Type*)
  | kernel (k : ω) (b : Option ω) (s : KernelState ω)
  | act (active : Bool) (alphas : List ω) (s : KernelState ω)
  | backKernel (k : ω) (b : Option ω) (s : BackKernelState ω)
  | backAct (c : BackActCfg ω) (s : BackActState ω)
  | plain (weights : List ω)

/-- The four methods of `DecomonModel`, models.py:73-91. -/
inductive FCmd
  | freezeWeights
  | unfreezeWeights
  | freezeAlpha
  | unfreezeAlpha
  deriving DecidableEq

/-- One method on one layer, models.py:73-91. -/
def FLayer.apply : FCmd → FLayer ω → Except PyErr (FLayer ω)
  | .freezeWeights, .kernel k b s => .ok (.kernel k b s.freeze)
  | .unfreezeWeights, .kernel k b s => .ok (.kernel k b (s.unfreeze k b))
  | .freezeAlpha, .act a l s => .ok (.act a l (s.freezeAlpha a))
  | .unfreezeAlpha, .act a l s => .ok (.act a l (s.unfreezeAlpha a l))
  | .freezeWeights, .backKernel k b s => .ok (.backKernel k b s.freeze)
  | .unfreezeWeights, .backKernel k b s => .ok (.backKernel k b (s.unfreeze k b))
  | .freezeAlpha, .backAct c s => (s.freezeAlpha c).map fun s' => .backAct c s'
  | .unfreezeAlpha, .backAct c s => (s.unfreezeAlpha c).map fun s' => .backAct c s'
  | _, l => .ok l

/-- One method on a model: the loop over `self.layers`, models.py:73-91. -/
def modelApply (c : FCmd) : List (FLayer ω) → Except PyErr (List (FLayer ω))
  | [] => .ok []
  | l :: t => (l.apply c).bind fun l' => (modelApply c t).map fun t' => l' :: t'

/-- A sequence of calls. -/
def modelRun : List FCmd → List (FLayer ω) → Except PyErr (List (FLayer ω))
  | [], m => .ok m
  | c :: t, m => (modelApply c m).bind fun m' => modelRun t m'

/-- The attribute `_trainable_weights` of a layer itself. -/
def FLayer.trainable : FLayer ω → List ω
  | .kernel _ _ s => s.trainable
  | .act _ _ s => s.trainable
  | .backKernel _ _ s => s.own.trainable
  | .backAct _ s => s.trainable
  | .plain w => w

/-! ### The weights that Keras 3 trains

`keras.Layer.trainable_weights` returns the variables of the layer and of its sub-layers whose own flag `trainable` is set; they are
registered when they are created.  The methods above set neither this flag nor that list. -/

/-- A layer as Keras 3 sees it: its variables with their flag `trainable`, and the state that decomon keeps. -/
structure TrackedLayer (ω : Type*) where
  vars : List (ω × Bool)
  state : FLayer ω

/-- `keras.Layer.trainable_weights`. -/
def TrackedLayer.trainableWeights (l : TrackedLayer ω) : List ω := (l.vars.filter fun v => v.2).map Prod.fst

/-- One of the four methods, models.py:73-91, on all layers. -/
def kerasApply (c : FCmd) : List (TrackedLayer ω) → Except PyErr (List (TrackedLayer ω))
  | [] => .ok []
  | l :: t => (l.state.apply c).bind fun s => (kerasApply c t).map fun t' => { l with state := s } :: t'

/-- A sequence of calls. -/
def kerasRun : List FCmd → List (TrackedLayer ω) → Except PyErr (List (TrackedLayer ω))
  | [], m => .ok m
  | c :: t, m => (kerasApply c m).bind fun m' => kerasRun t m'

/-- The variables of a layer with a kernel after `build`: `add_weight` (or the shared layer) makes them trainable,
decomon_layers.py:111-129 and 336-358. -/
def kernelVariables (k : ω) (b : Option ω) : List (ω × Bool) := (k :: b.toList).map fun v => (v, true)

end Freeze

/-! ### Constraints -/

section Constraint
variable {α : Type*} [Field α] [LinearOrder α]

/-- `NonPos`, layers/utils.py:29-33, on one entry. -/
def nonPos (w : α) : α := min w 0

/-- `NonNeg`, layers/utils.py:36-40, on one entry. -/
def nonNeg (w : α) : α := max w 0

/-- `ClipAlpha`, layers/utils.py:43-47, on one entry. -/
def clipAlpha (w : α) : α := min (max w 0) 1

/-- `ClipAlphaGrid`, layers/utils.py:50-56, for a tensor with first axis `ι` and the other axes flattened in `κ`. -/
def clipAlphaGrid {ι κ : Type*} [Fintype ι] (w : ι → κ → α) (i : ι) (k : κ) : α :=
  clipAlpha (w i k) / max (∑ j, clipAlpha (w j k)) 1

/-- Broadcast of two shapes, numpy rules, on reversed shapes. -/
def broadcastOpt : List ℕ → List ℕ → Option (List ℕ)
  | [], l => some l
  | l, [] => some l
  | a :: s, b :: t => if a = b ∨ b = 1 then (broadcastOpt s t).map (a :: ·) else if a = 1 then (broadcastOpt s t).map (b :: ·) else none

/-- Shape of the result of `ClipAlphaAndSumtoOne`, layers/utils.py:59-66, for a weight of shape `s`: `w_scale` has the shape `s[1:]`,
`w_scale[:, None, None, None]` puts three axes of size one after the first of `w_scale`. -/
def clipSumShape : List ℕ → Except PyErr (List ℕ)
  | [] => .error .valueError
  | [_] => .error .indexError
  | n :: m :: t =>
    match broadcastOpt (n :: m :: t).reverse (m :: 1 :: 1 :: 1 :: t).reverse with
    | some l => .ok l.reverse
    | none => .error .valueError

/-- `MultipleConstraint`, layers/utils.py:69-83, on one entry (or one tensor). -/
def multipleConstraint {β : Type*} (c0 : Option (β → β)) (c1 : β → β) (w : β) : β :=
  match c0 with
  | some c => c1 (c w)
  | none => c1 w

/-- `Project_initializer_pos` and `Project_initializer_neg`, layers/utils.py:86-107, on one entry: the projection of the value drawn. -/
def projectPos (w : α) : α := max 0 w

/-- See `projectPos`. -/
def projectNeg (w : α) : α := min 0 w

end Constraint

/-! ### Objects touched by a conversion -/

section Objects
variable {V : Type*}

/-- A Keras layer object: its name, whether it is a `keras.layers.Activation`, `get_config().get("activation")` (strings only: an
activation that is itself a layer is not modelled) and what it computes before the activation (the identity for an `Activation`). -/
structure LayerObj (V : Type*) where
  name : String
  isActivation : Bool
  act : Option String
  core : V → V

/-- The objects in memory: those with an index below `next` exist. -/
structure Heap (V : Type*) where
  next : ℕ
  obj : ℕ → LayerObj V

/-- Models `split_activation`, models/utils.py:187-218 (weights are shared, so the core function is the same). -/
def splitActivation (h : Heap V) (i : ℕ) : Heap V × List ℕ :=
  match (h.obj i).act with
  | none => (h, [i])
  | some a =>
    if a = "linear" ∨ (h.obj i).isActivation = true then (h, [i])
    else
      ({ next := h.next + 2
         obj := Function.update (Function.update h.obj h.next ⟨(h.obj i).name ++ "_wo_activation", false, some "linear", (h.obj i).core⟩)
          (h.next + 1) ⟨(h.obj i).name ++ "_activation", true, some a, id⟩ },
        [h.next, h.next + 1])

/-- `converted_layer.name = f"{converted_layer.name}_{count}"`, forward_cloning.py:210-212, over the converted layers. -/
def renameAll (h : Heap V) (count : ℕ) : List ℕ → Heap V × ℕ
  | [] => (h, count)
  | i :: t =>
    renameAll { h with obj := Function.update h.obj i { h.obj i with name := (h.obj i).name ++ "_" ++ toString count } } (count + 1) t

/-- The converted layers of one layer: from `layer2layer_map` or by `split_activation`, forward_cloning.py:204-209. -/
def convertedOf (h : Heap V) (cache : ℕ → Option (List ℕ)) (i : ℕ) : Heap V × List ℕ :=
  match cache i with
  | some l => (h, l)
  | none => splitActivation h i

/-- State of the conversion: the objects, `count` and `layer2layer_map`. -/
structure CloneState (V : Type*) where
  heap : Heap V
  count : ℕ
  cache : ℕ → Option (List ℕ)

/-- One step of the conversion, forward_cloning.py:203-216. -/
def cloneStep (st : CloneState V) (i : ℕ) : CloneState V × List ℕ :=
  let c := convertedOf st.heap st.cache i
  let r := renameAll c.1 st.count c.2
  (⟨r.1, r.2, Function.update st.cache i (some c.2)⟩, c.2)

/-- The loop of `_clone_keras_model` on a chain of layers, convert.py:35-65 with forward_cloning.py:168-216.  The input layer is left out. -/
def cloneLoop : List ℕ → CloneState V → CloneState V × List ℕ
  | [], st => (st, [])
  | i :: t, st =>
    let q := cloneLoop t (cloneStep st i).1
    (q.1, (cloneStep st i).2 ++ q.2)

/-- Models `preprocess_keras_model` on a chain of layers, convert.py:74-77. -/
def preprocessChain (h : Heap V) (chain : List ℕ) : Heap V × List ℕ :=
  let q := cloneLoop chain ⟨h, 0, fun _ => none⟩
  (q.1.heap, q.2)

/-- `layer.activation = keras.activations.get("linear")`, layers/utils.py:418-419. -/
def setLinear (h : Heap V) (i : ℕ) : Heap V := { h with obj := Function.update h.obj i { h.obj i with act := some "linear" } }

/-- Models `softmax_to_linear`, layers/utils.py:399-422, on the layers of a chain, for a last layer that is not a `keras.layers.Softmax`. -/
def softmaxToLinear (h : Heap V) (chain : List ℕ) : Heap V :=
  match chain.getLast? with
  | none => h
  | some i => if (h.obj i).act = some "softmax" then setLinear h i else h

/-- The model that is bounded by `convert`: convert.py:121-122, then `softmax_to_linear` (forward_cloning.py:150-151 or
backward_cloning.py:312-313). -/
def convertedChain (h : Heap V) (chain : List ℕ) : Heap V × List ℕ :=
  let p := preprocessChain h chain
  (softmaxToLinear p.1 p.2, p.2)

end Objects

end Decomon
