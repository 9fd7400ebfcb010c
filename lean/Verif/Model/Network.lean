import Verif.Model.Backward

/-!
Model of `/repo/src/decomon/models/` : forward_cloning.py, backward_cloning.py, crown.py, and of `get_input_tensors`,
`Convert2Mode` in models/utils.py, for functional models with one input.

A network is an expression: a node shared by several children is written once per use, which has the same meaning because
`output_map` returns the same tensors for the same node (forward_cloning.py:167-168).
-/

namespace Decomon

/-- The layers of a network.  `gf`, `gb` are the finetuning variables of the forward and of the backward activation layer
(constantly 1 without finetuning). -/
inductive Lay (α : Type) : Type → Type → Type 1
  /-- `Dense` on inputs of rank 2 -/
  | dense {n μ : Type} (kernel : n → μ → α) (bias : μ → α) : Lay α n μ
  /-- `Conv2D`, and `Dense` on inputs of higher rank -/
  | linear {S O T Q : Type} [Fintype T] (L : LinIndex S O T Q) (kernel : Q → α) (bias : O → α) : Lay α S O
  /-- `Activation("relu")` -/
  | relu {κ : Type} (gf gb : κ → α) : Lay α κ κ
  /-- `BatchNormalization` -/
  | batchNorm {κ : Type} (gamma beta mean sd : κ → α) : Lay α κ κ
  /-- `Flatten`, `Reshape` -/
  | reshape {κ κ' : Type} (e : κ' → κ) : Lay α κ κ'
  /-- `Activation("linear")`, `Dropout` -/
  | skip {κ : Type} : Lay α κ κ

/-- Binary merge layers. -/
inductive MergeOp
  | add
  | average
  | subtract
  | maximum
  | minimum
  | multiply
  deriving DecidableEq, Repr

/-- A network with inputs indexed by `ι` and outputs indexed by the last argument. -/
inductive Net (α : Type) (ι : Type) : Type → Type 1
  | input : Net α ι ι
  | layer {κ κ' : Type} [Fintype κ] [DecidableEq κ] [Fintype κ'] (n : Net α ι κ) (l : Lay α κ κ') : Net α ι κ'
  | merge {κ : Type} (op : MergeOp) (n0 n1 : Net α ι κ) : Net α ι κ

section Forward
variable {X ι κ κ' α : Type} [Field α] [LinearOrder α]

/-- The decomon layer built by `to_decomon` for each layer, called on its inputs (see `Model/Layers.lean`, `Model/Utils.lean`). -/
def Lay.forward [Fintype κ] (D : PertDomain X ι α) (m : Mode) (eps : α) (slope : Slope) : Lay α κ κ' → Full X ι κ α → Full X ι κ' α
  | .dense kernel bias, f => denseT D m false kernel bias f
  | @Lay.linear _ _ _ _ _ _ L kernel bias, f => linearLayerT D m false L kernel bias f
  | .relu gf _, f => reluT D m false eps slope gf f
  | .batchNorm gamma beta mean sd, f => batchNormT D m gamma beta mean sd f
  | .reshape e, f => reindexT D m false e f
  | .skip, f => f

/-- The decomon merge layers on two inputs (see `Model/Layers.lean`). -/
def MergeOp.forward (D : PertDomain X ι α) (m : Mode) (eps : α) (op : MergeOp) (f0 f1 : Full X ι κ α) : Full X ι κ α :=
  match op with
  | .add => addLayerT D m f0 [f1]
  | .average => averageLayerT D m f0 [f1]
  | .subtract => subtractT D m f0 f1
  | .maximum => maximumLayerT D m eps f0 [f1]
  | .minimum => minimumLayerT D m eps f0 [f1]
  | .multiply => multiplyLayerT D m f0 [f1]

/-- Models `convert_forward_functional_model`, forward_cloning.py:132-228: every node is converted and called on the outputs of
its parents; the input node passes `input_tensors` on. -/
def Net.forward (D : PertDomain X ι α) (m : Mode) (eps : α) (slope : Slope) (inp : Full X ι ι α) :
    {κ : Type} → Net α ι κ → Full X ι κ α
  | _, .input => inp
  | _, @Net.layer _ _ _ _ _ _ _ n l => l.forward D m eps slope (n.forward D m eps slope inp)
  | _, .merge op n0 n1 => op.forward D m eps (n0.forward D m eps slope inp) (n1.forward D m eps slope inp)

end Forward

/-! ### Input tensors -/

section Input
variable {ι α : Type} [DecidableEq ι] [Field α]

/-- Models `get_input_tensors` for a `BoxDomain`, models/utils.py:114-121, 142-144. -/
def inputTensorsBox (m : Mode) (xmin xmax : ι → α) : Full ((ι → α) × (ι → α)) ι ι α where
  x := (xmin, xmax)
  uc := fun i => if getIbp m then xmax i else 0
  lc := fun i => if getIbp m then xmin i else 0
  wu := fun i k => if getAffine m then (if i = k then 1 else 0) else 0
  bu := fun _ => 0
  wl := fun i k => if getAffine m then (if i = k then 1 else 0) else 0
  bl := fun _ => 0
  h := fun _ => 0
  g := fun _ => 0

/-- Models `get_input_tensors` for a `BallDomain`, models/utils.py:123-144. -/
noncomputable def inputTensorsBall [Fintype ι] [Nonempty ι] (m : Mode) (eps : ℝ) (p : PVal) (z : ι → ℝ) :
    Full (ι → ℝ) ι ι ℝ where
  x := z
  uc := fun k => if getIbp m then
      (if p = .inf then z k + eps else (ballDomain eps p).getUpper z (fun i => if i = k then 1 else 0) 0) else 0
  lc := fun k => if getIbp m then
      (if p = .inf then z k - eps else (ballDomain eps p).getLower z (fun i => if i = k then 1 else 0) 0) else 0
  wu := fun i k => if getAffine m then (if i = k then 1 else 0) else 0
  bu := fun _ => 0
  wl := fun i k => if getAffine m then (if i = k then 1 else 0) else 0
  bl := fun _ => 0
  h := fun _ => 0
  g := fun _ => 0

end Input

/-! ### Backward conversion -/

section Crown
variable {X ι κ κ' ν α : Type} [Fintype ι] [DecidableEq ι] [Field α] [LinearOrder α]

/-- The backward layer built by `to_backward` for each layer, called on the bounds `f` of its input (see `Model/Backward.lean`). -/
def Lay.backward [DecidableEq κ] (D : PertDomain X ι α) (m : Mode) (eps : α) (slope : Slope) : Lay α κ κ' → Full X ι κ α → Back κ κ' α
  | .dense kernel bias, _ => backwardDense kernel bias
  | @Lay.linear _ _ _ _ _ _ L kernel bias, _ => backwardConv L kernel bias
  | .relu _ gb, f => backwardRelu D m eps slope gb f
  | .batchNorm gamma beta mean sd, _ => backwardBatchNorm gamma beta mean sd
  | .reshape e, _ => backwardReindex e
  | .skip, _ => Back.identity

/-- Models `Fuse.call`, models/crown.py:18-29. -/
def fuse (m : Mode) (inp : Full X ι ι α) (b : Back ι ν α) : Back ι ν α :=
  if getAffine m then mergeWithPrevious ⟨inp.wu, inp.bu, inp.wl, inp.bl⟩ b else b

/-- Models `Convert2BackwardMode.call`, models/crown.py:66-91.  In ibp mode the tensor `x` is rebuilt as
`[l_c, u_c]` (line 76): `stack` says how the domain reads such a tensor (for a `BoxDomain`, as the pair of corners). -/
def convert2BackwardMode (D : PertDomain X ι α) (stack : (ι → α) → (ι → α) → X) (m : Mode) (inp : Full X ι ι α)
    (b : Back ι ν α) : Full X ι ν α :=
  let x0 := if m = .ibp then stack inp.lc inp.uc else inp.x
  { x := if m = .ibp then inp.x else x0
    uc := fun n => if getIbp m then D.getUpper x0 (fun i => b.wu i n) (b.bu n) else 0
    lc := fun n => if getIbp m then D.getLower x0 (fun i => b.wl i n) (b.bl n) else 0
    wu := fun i n => if getAffine m then b.wu i n else 0
    bu := fun n => if getAffine m then b.bu n else 0
    wl := fun i n => if getAffine m then b.wl i n else 0
    bl := fun n => if getAffine m then b.bl n else 0
    h := fun _ => 0
    g := fun _ => 0 }

/-- What `crown_` (backward_cloning.py:82-215) does when it is called on a node: without backward bounds (`first`), or with the
bounds `b` of the layers above (`next`). -/
structure CrownNode (ι κ α : Type) where
  first : Except PyErr (Back ι κ α)
  next : ∀ ν : Type, Back κ ν α → Except PyErr (Back ι ν α)

/-- The parameters common to all the calls. `useForward` says whether `forward_map` holds the bounds of a forward pass (methods
`crown-forward-*`) or is empty (method `crown`). -/
structure CrownCfg (X ι α : Type) where
  D : PertDomain X ι α
  stack : (ι → α) → (ι → α) → X
  m : Mode
  eps : α
  slope : Slope
  useForward : Bool
  inp : Full X ι ι α

/-- The entry of `input_map` for a child of node `n`, `get_input_nodes`, backward_cloning.py:236-281. -/
def CrownCfg.childInput (c : CrownCfg X ι α) (n : Net α ι κ) (node : CrownNode ι κ α) : Except PyErr (Full X ι κ α) :=
  if c.useForward then .ok (n.forward c.D c.m c.eps c.slope c.inp)
  else node.first.map (convert2BackwardMode c.D c.stack c.m c.inp)

/-- The exception raised by `crown_` on a merge layer of the Keras model, with or without backward bounds.  `retrieve_layer`
(backward_cloning.py:68-81) first makes the backward layer: the constructors of `BackwardSubtract`, `BackwardMaximum`, `BackwardMinimum`,
`BackwardMultiply` raise `KeyError` for a layer which is not a decomon layer (backward_merge.py:274, 319, 364, 454), and the nodes hold Keras
layers.  For `BackwardAdd` and `BackwardAverage` the symbolic call of line 146 raises `NotImplementedError` in
`BackwardMerge.compute_output_shape` (backward_merge.py:103-113). -/
def crownMergeErr : MergeOp → PyErr
  | .add | .average => .notImplemented
  | .subtract | .maximum | .minimum | .multiply => .keyError

/-- Models `crown_`, backward_cloning.py:82-215, together with `get_input_nodes`, 218-282.  A merge layer raises, see `crownMergeErr`.
Simplified: the inputs of a node are computed when the node is reached, and not in the order of the depths; this only matters for
which exception comes first in a network with several merge layers. -/
def CrownCfg.node (c : CrownCfg X ι α) : {κ : Type} → Net α ι κ → CrownNode ι κ α
  | _, .input =>
    { first := .ok (fuse c.m c.inp Back.identity)
      next := fun _ b => .ok (fuse c.m c.inp (mergeWithPrevious Back.identity b)) }
  | κ', @Net.layer _ _ _ _ _ _ _ n l =>
    let below := c.node n
    let new : Except PyErr (Back _ κ' α) := (c.childInput n below).map (l.backward c.D c.m c.eps c.slope)
    { first := do
        let bn ← new
        below.next κ' bn
      next := fun ν b => do
        let bn ← new
        below.next ν (mergeWithPrevious bn b) }
  | _, .merge op n0 n1 =>
    let i0 := c.childInput n0 (c.node n0)
    let i1 := c.childInput n1 (c.node n1)
    { first := do
        let _ ← i0
        let _ ← i1
        .error (crownMergeErr op)
      next := fun _ _ => do
        let _ ← i0
        let _ ← i1
        .error (crownMergeErr op) }

/-- Models the end of `crown_model`, backward_cloning.py:368-399, with `fuse=True`, for a model with one output:
`crown_` from the output node, then `Convert2BackwardMode`. -/
def CrownCfg.model (c : CrownCfg X ι α) (n : Net α ι κ) : Except PyErr (Full X ι κ α) :=
  (c.node n).first.map (convert2BackwardMode c.D c.stack c.m c.inp)

/-- The same with `back_bounds = [C]`, which `convert_backward` (backward_cloning.py:429-433) turns into `[C, 0, C, 0]`. -/
def CrownCfg.modelBack (c : CrownCfg X ι α) (n : Net α ι κ) (C : κ → ν → α) : Except PyErr (Full X ι ν α) :=
  ((c.node n).next ν ⟨C, fun _ => 0, C, fun _ => 0⟩).map (convert2BackwardMode c.D c.stack c.m c.inp)

/-- The configuration of a backward conversion over a `BoxDomain`. -/
def boxCrown (m : Mode) (eps : α) (slope : Slope) (useForward : Bool) (xmin xmax : ι → α) : CrownCfg ((ι → α) × (ι → α)) ι α :=
  ⟨boxDomain, Prod.mk, m, eps, slope, useForward, inputTensorsBox m xmin xmax⟩

/-- What `BallDomain.get_upper/get_lower` (core.py:549-620, `p = inf`) compute when they are given, as in
`Convert2BackwardMode.call` in ibp mode, the tensor `[l_c, u_c]` of shape `(2, n)` in place of a centre of shape `(n,)`, for `n = 1`:
`w` of shape `(1, n_out)` is broadcast against the two rows, and the sum of lines 495, 525 runs over the rows.  (For `n ≥ 3` the
shapes do not broadcast and the code raises.) -/
def ballStacked (eps : α) : PertDomain ((Fin 1 → α) × (Fin 1 → α)) (Fin 1) α where
  getUpper x w b := (max (w 0) 0 * (x.1 0 + eps) + min (w 0) 0 * (x.1 0 - eps)) +
    (max (w 0) 0 * (x.2 0 + eps) + min (w 0) 0 * (x.2 0 - eps)) + b
  getLower x w b := (max (w 0) 0 * (x.1 0 - eps) + min (w 0) 0 * (x.1 0 + eps)) +
    (max (w 0) 0 * (x.2 0 - eps) + min (w 0) 0 * (x.2 0 + eps)) + b

/-- Backward conversion in ibp mode (methods `crown`, `crown-forward-ibp`) over `BallDomain(eps, p=inf)` around `z`, one input
coordinate: `get_input_tensors` gives `u_c = z + eps`, `l_c = z - eps` (models/utils.py:123-141). -/
def ballCrownIbp (leps : α) (slope : Slope) (useForward : Bool) (eps z : α) : CrownCfg ((Fin 1 → α) × (Fin 1 → α)) (Fin 1) α :=
  ⟨ballStacked eps, Prod.mk, .ibp, leps, slope, useForward, inputTensorsBox .ibp (fun _ => z - eps) (fun _ => z + eps)⟩

end Crown

/-! ### Change of mode -/

section Convert
variable {X ι κ α : Type} [Field α] [LinearOrder α]

/-- Models `Convert2Mode.call`, models/utils.py:316-336, except for the conversions from ibp to another mode. -/
def convert2Mode (D : PertDomain X ι α) (mFrom mTo : Mode) (f : Full X ι κ α) : Full X ι κ α :=
  let f := f.tighten D mFrom (mFrom = .affine ∧ mTo ≠ .affine) (mFrom = .hybrid ∧ mTo ≠ .affine)
  { x := f.x
    uc := fun k => if getIbp mTo then f.uc k else 0
    lc := fun k => if getIbp mTo then f.lc k else 0
    wu := fun i k => if getAffine mTo then f.wu i k else 0
    bu := fun k => if getAffine mTo then f.bu k else 0
    wl := fun i k => if getAffine mTo then f.wl i k else 0
    bl := fun k => if getAffine mTo then f.bl k else 0
    h := fun _ => 0
    g := fun _ => 0 }

/-- Models `Convert2Mode.call` from ibp to affine or hybrid, models/utils.py:323-329: the tensor `x` becomes the box of the
*outputs*, and the weights are zeros with one row per *output* coordinate. -/
def convert2ModeDummy (f : Full X ι κ α) : Full ((κ → α) × (κ → α)) κ κ α where
  x := (f.lc, f.uc)
  uc := f.uc
  lc := f.lc
  wu := fun _ _ => 0
  bu := f.uc
  wl := fun _ _ => 0
  bl := f.lc
  h := fun _ => 0
  g := fun _ => 0

/-- The shapes of the tensors `x` and `w_u` returned by `convert_backward` (backward_cloning.py:448-462) from ibp to another mode: `x`
is the box of the `nIn` model inputs, `w_u` is `zeros_like(BatchedIdentityLike()(l_c))` with `l_c` of size `nOut`. -/
def dummyShapes (nIn nOut : ℕ) : List ℕ × List ℕ := ([2, nIn], [nOut, nOut])

/-- The shape test of `get_upper_box` (core.py:483-495) on `x = [x_min, x_max]` of shape `(2, n)` and `w` of shape `(a, b)`:
`w * x_max[:, None]` broadcasts when `a = n`, or one of the two is 1. -/
def upperBoxShape : List ℕ × List ℕ → Except PyErr (List ℕ)
  | ([2, n], [a, b]) => if a = n ∨ a = 1 ∨ n = 1 then .ok [b] else .error .valueError
  | _ => .error .valueError

end Convert

end Decomon
