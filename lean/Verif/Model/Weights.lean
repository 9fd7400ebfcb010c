import Verif.Model.Network

/-!
Which variables a converted model reads.

A network whose parameters are *names of cells* is a `Net` over the type of names; a memory gives the values.  The decomon layers
read either the cells of the Keras model (`Sum.inl`) or cells of their own (`Sum.inr`).  A tensor variable is a family of cells.
`sd` stands for `sqrt(moving_variance + epsilon)` and is treated as a cell.  A missing bias is a bias whose cells hold 0.
-/

namespace Decomon

section
variable {β γ ι κ κ' : Type}

/-- A layer with renamed parameters. -/
def Lay.map (r : β → γ) : Lay β κ κ' → Lay γ κ κ'
  | .dense kernel bias => .dense (fun i o => r (kernel i o)) (fun o => r (bias o))
  | @Lay.linear _ _ _ _ _ _ L kernel bias => .linear L (fun q => r (kernel q)) (fun o => r (bias o))
  | .relu gf gb => .relu (fun k => r (gf k)) (fun k => r (gb k))
  | .batchNorm gamma beta mean sd => .batchNorm (fun k => r (gamma k)) (fun k => r (beta k)) (fun k => r (mean k)) (fun k => r (sd k))
  | .reshape e => .reshape e
  | .skip => .skip

/-- A network with renamed parameters; with `r` a memory, the network of the current values. -/
def Net.map (r : β → γ) : {κ : Type} → Net β ι κ → Net γ ι κ
  | _, .input => .input
  | _, @Net.layer _ _ _ _ _ _ _ n l => .layer (n.map r) (l.map r)
  | _, .merge op n0 n1 => .merge op (n0.map r) (n1.map r)

/-- The cells read by the decomon layer made by `to_decomon` (layers/convert.py:20-117).
`DecomonDense.share_weights` and `DecomonConv2D.share_weights` (decomon_layers.py:133-137, 396-405) take the variables of the Keras
layer when `shared` is true; when it is false `build` makes new ones (111-130, 336-357).  The finetuning variables are always new.
`DecomonBatchNormalization` has no `share_weights` of its own (the method of the base class, layers/core.py:239-240, does nothing):
Keras' `build` makes new variables. -/
def Lay.toDecomon (shared : Bool) : Lay ℕ κ κ' → Lay (ℕ ⊕ ℕ) κ κ'
  | .dense kernel bias => (Lay.dense kernel bias).map (if shared then Sum.inl else Sum.inr)
  | @Lay.linear _ _ _ _ _ _ L kernel bias => (Lay.linear L kernel bias).map (if shared then Sum.inl else Sum.inr)
  | .relu gf gb => (Lay.relu gf gb).map Sum.inr
  | .batchNorm gamma beta mean sd => (Lay.batchNorm gamma beta mean sd).map Sum.inr
  | .reshape e => .reshape e
  | .skip => .skip

/-- The decomon layers of a network, forward_cloning.py:166-216.  A layer used twice is converted once
(`layer2layer_map`): its copies are the same cells. -/
def Net.toDecomon (shared : Bool) : {κ : Type} → Net ℕ ι κ → Net (ℕ ⊕ ℕ) ι κ
  | _, .input => .input
  | _, @Net.layer _ _ _ _ _ _ _ n l => .layer (n.toDecomon shared) (l.toDecomon shared)
  | _, .merge op n0 n1 => .merge op (n0.toDecomon shared) (n1.toDecomon shared)

/-- The cells read by the backward layer made by `to_backward` (backward_layers/convert.py:16-45) for a *Keras* layer, as in `crown_model`
(`retrieve_layer` passes `node.operation`, backward_cloning.py:66-79).  `BackwardDense` and `BackwardConv2D` convert the Keras layer with
`shared=True` whatever the argument `shared` of `clone` (backward_layers.py:55-65, 156-166; `convert` does not pass `shared` to
`convert_backward`, models/convert.py:143-157).  `BackwardBatchNormalization` reads the variables of the Keras layer
(backward_layers.py:575-606).  The finetuning variables are new. -/
def Lay.toBackward : Lay ℕ κ κ' → Lay (ℕ ⊕ ℕ) κ κ'
  | .dense kernel bias => (Lay.dense kernel bias).map Sum.inl
  | @Lay.linear _ _ _ _ _ _ L kernel bias => (Lay.linear L kernel bias).map Sum.inl
  | .relu gf gb => (Lay.relu gf gb).map Sum.inr
  | .batchNorm gamma beta mean sd => (Lay.batchNorm gamma beta mean sd).map Sum.inl
  | .reshape e => .reshape e
  | .skip => .skip

end

section
variable {α : Type}

/-- The memory after conversion and later changes: `own` are the values of the cells made by the conversion, `orig` those of the Keras
model.  The conversion itself (`layer_decomon.reset_layer(layer)`, layers/convert.py:74, with `keras_weights_names`,
decomon_layers.py:264-273, 514-523, 882-893) gives to `own` the values that `orig` has at that time. -/
def memory (orig own : ℕ → α) : ℕ ⊕ ℕ → α := Sum.elim orig own

end

section
variable {X ι κ α : Type} [Fintype ι] [DecidableEq ι] [Field α] [LinearOrder α]

/-- `clone(model, method="forward-*", shared=shared)` called in a memory: `Net.forward` on the values now in the cells read. -/
def Net.forwardIn (D : PertDomain X ι α) (m : Mode) (eps : α) (slope : Slope) (inp : Full X ι ι α) (shared : Bool) (orig own : ℕ → α)
    (n : Net ℕ ι κ) : Full X ι κ α :=
  ((n.toDecomon shared).map (memory orig own)).forward D m eps slope inp

/-- `CrownCfg.node` (backward_cloning.py:82-282) when the forward layers (`forward_map`) and the backward layers read their own cells. -/
def CrownCfg.nodeIn (c : CrownCfg X ι α) (shared : Bool) (orig own : ℕ → α) : {κ : Type} → Net ℕ ι κ → CrownNode ι κ α
  | _, .input =>
    { first := .ok (fuse c.m c.inp Back.identity)
      next := fun _ b => .ok (fuse c.m c.inp (mergeWithPrevious Back.identity b)) }
  | κ', @Net.layer _ _ _ _ _ _ _ n l =>
    let below := c.nodeIn shared orig own n
    let new : Except PyErr (Back _ κ' α) :=
      (c.childInput ((n.toDecomon shared).map (memory orig own)) below).map
        ((l.toBackward.map (memory orig own)).backward c.D c.m c.eps c.slope)
    { first := do
        let bn ← new
        below.next κ' bn
      next := fun ν b => do
        let bn ← new
        below.next ν (mergeWithPrevious bn b) }
  | _, .merge op n0 n1 =>
    let i0 := c.childInput ((n0.toDecomon shared).map (memory orig own)) (c.nodeIn shared orig own n0)
    let i1 := c.childInput ((n1.toDecomon shared).map (memory orig own)) (c.nodeIn shared orig own n1)
    { first := do
        let _ ← i0
        let _ ← i1
        .error (crownMergeErr op)
      next := fun _ _ => do
        let _ ← i0
        let _ ← i1
        .error (crownMergeErr op) }

/-- `clone(model, method="crown" or "crown-forward-*", shared=shared)` called in a memory, see `CrownCfg.model`. -/
def CrownCfg.modelIn (c : CrownCfg X ι α) (shared : Bool) (orig own : ℕ → α) (n : Net ℕ ι κ) : Except PyErr (Full X ι κ α) :=
  (c.nodeIn shared orig own n).first.map (convert2BackwardMode c.D c.stack c.m c.inp)

end

end Decomon
