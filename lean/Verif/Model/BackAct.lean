import Verif.Model.IbpNet
import Verif.Model.Shapes

/-!
Model of `BackwardActivation` (`/repo/src/decomon/backward_layers/backward_layers.py`, `backward_layers/activations.py`) for all the
activations, of the shapes that it returns, and of the backward pass over chains of layers with such activations.
-/

namespace Decomon

/-! ### Registry and call -/

/-- The functions of backward_layers/activations.py. -/
inductive BackFn
  | softmax
  | elu
  | selu
  | softplus
  | softsign
  | sigmoid
  | tanh
  | relu
  | exponential
  | linear
  deriving DecidableEq, Repr

/-- Models `deserialize`, backward_layers/activations.py:426-459.  `lower` is Python's `str.lower`. -/
def backDeserialize (lower : String → String) (name : String) : Except PyErr BackFn :=
  let name := lower name
  if name = "softmax" then .ok .softmax
  else if name = "elu" then .ok .elu
  else if name = "selu" then .ok .selu
  else if name = "softplus" then .ok .softplus
  else if name = "softsign" then .ok .softsign
  else if name = "sigmoid" then .ok .sigmoid
  else if name = "tanh" then .ok .tanh
  else if name = "relu" ∨ name = "relu_" then .ok .relu
  else if name = "exponential" then .ok .exponential
  else if name = "linear" then .ok .linear
  else .error .valueError

section
variable {X ι κ : Type} [DecidableEq κ]

/-- Models `backward_softplus`, backward_layers/activations.py:297-325, with the diagonal of `BackwardActivation.call`.  The slope is examined
once for all the neurons (`softplusHull` fails for the same slopes whatever the bounds). -/
noncomputable def backwardSoftplus (D : PertDomain X ι ℝ) (m : Mode) (eps : ℝ) (slope : Slope) (ft : Option ((κ → ℝ) × (κ → ℝ)))
    (inp : Full X ι κ ℝ) : Except PyErr (Back κ κ ℝ) :=
  let f := inp.tighten D m true true
  let hull : κ → Hull ℝ := fun k =>
    match softplusHull eps slope (ft.map fun a => (a.1 k, a.2 k)) (f.uc k) (f.lc k) with
    | .ok h => h
    | .error _ => ⟨0, 0, 0, 0⟩
  if slope = .aSlope then .error .valueError
  else .ok (Back.ofDiag (fun k => (hull k).wu) (fun k => (hull k).bu) (fun k => (hull k).wl) (fun k => (hull k).bl))

/-- Models `BackwardActivation.call`, backward_layers.py:374-399, on a flat vector of neurons: `backward_relu` (42-87 of activations.py),
`backward_sigmoid`, `backward_tanh` (90-152), `backward_softsign` (328-359), `backward_softplus` (297-325); `backward_elu`, `backward_selu`,
`backward_exponential`, `backward_softmax` raise (180-294, 394-423 of activations.py); `linear` returns the identity (backward_layers.py:396).
`ft` holds `alpha_b_u`, `alpha_b_l` when `finetune=True`; the s-shaped functions ignore it. -/
noncomputable def BackFn.call (D : PertDomain X ι ℝ) (m : Mode) (eps : ℝ) (slope : Slope) (ft : Option ((κ → ℝ) × (κ → ℝ))) (a : BackFn)
    (inp : Full X ι κ ℝ) : Except PyErr (Back κ κ ℝ) :=
  match a with
  | .sigmoid => .ok (backwardSShape D m eps Real.sigmoid sigmoidPrime inp)
  | .tanh => .ok (backwardSShape D m eps Real.tanh tanhPrime inp)
  | .softsign => .ok (backwardSShape D m eps Decomon.softsign softsignPrime inp)
  | .softplus => backwardSoftplus D m eps slope ft inp
  | .relu => .ok (backwardRelu D m eps slope (ft.elim (fun _ => 1) Prod.snd) inp)
  | .linear => .ok Back.identity
  | .softmax | .elu | .selu | .exponential => .error .notImplemented

end

/-! ### Shapes -/

/-- The shapes of `w_u_out, b_u_out` that `BackwardActivation.call` returns for bounds of shape `b :: s`, before the diagonal of
backward_layers.py:398-401: `backward_relu` (activations.py:84-85), `backward_softsign` (358-359) and `get_identity_lirpa`
(backward_layers/utils.py:649-658) flatten the entries; the others return what the hull returns, of the shape of the bounds
(utils.py:579-580, 604-605; 220-262).  The identity is a matrix already. -/
def BackFn.hullShapes (a : BackFn) (b : Option ℕ) (s : List ℕ) : Except PyErr (KShape × KShape) :=
  match a with
  | .relu | .softsign => .ok ([b, some s.prod], [b, some s.prod])
  | .sigmoid | .tanh | .softplus => .ok (b :: s.map some, b :: s.map some)
  | .linear => .ok ([b, some s.prod, some s.prod], [b, some s.prod])
  | .softmax | .elu | .selu | .exponential => .error .notImplemented

/-- `BatchedDiagLike`, keras_utils.py:41-63, applied when the rank is 2 (backward_layers.py:398-401). -/
def diagShape : KShape → KShape
  | [b, n] => [b, n, n]
  | w => w

/-- The shapes returned by `BackwardActivation.call`, backward_layers.py:374-403. -/
def BackFn.callShapes (a : BackFn) (b : Option ℕ) (s : List ℕ) : Except PyErr (List KShape) :=
  (a.hullShapes b s).map fun q => [diagShape q.1, q.2, diagShape q.1, q.2]

/-- The check of Keras' `InputSpec(ndim=..., axes={-1: last, -2: before})` on one shape (a size `none` is not compared). -/
def specOk (ndim : ℕ) (last : Option ℕ) (before : Option ℕ) (s : KShape) : Bool :=
  s.length = ndim &&
    (match last, s.getLast? with | some n, some (some k) => n = k | _, _ => true) &&
    (match before, s.dropLast.getLast? with | some n, some (some k) => n = k | _, _ => true)

/-- Models the call of a layer `MergeWithPrevious` on tensors of the given shapes, models/crown.py:95-118: `spec` are the two announced shapes
with which it was made (backward_cloning.py:151-153); Keras checks the eight tensors against `input_spec` before `call` and raises
`ValueError` when one of them does not fit; otherwise the result has the shape of the product. -/
def mergeLayerShapes (spec0 spec1 : KShape) (l : List KShape) : Except PyErr (List KShape) :=
  match spec0, spec1, l with
  | [_, nIn, _], [_, nH, nOut], [w0, b0, w1, b1, w2, b2, w3, b3] =>
    if specOk 3 nH nIn w0 && specOk 2 nH none b0 && specOk 3 nH nIn w1 && specOk 2 nH none b1 &&
        specOk 3 nOut nH w2 && specOk 2 nOut none b2 && specOk 3 nOut nH w3 && specOk 2 nOut none b3 then
      mergeWithPreviousShapes l
    else .error .valueError
  | _, _, _ => .error .valueError

/-! ### Backward pass over a chain of layers -/

/-- A chain of layers with inputs indexed by `ι` and outputs indexed by the last argument: the layers of `Model/Network.lean` (with `relu`
and `linear`), and the other activations. -/
inductive SNet (ι : Type) : Type → Type 1
  | input : SNet ι ι
  | layer {κ κ' : Type} [Fintype κ] [DecidableEq κ] [Fintype κ'] (n : SNet ι κ) (l : Lay ℝ κ κ') : SNet ι κ'
  /-- an activation layer; `ft` are its finetuning variables, if any -/
  | act {κ : Type} [Fintype κ] [DecidableEq κ] (a : SmoothAct) (ft : Option ((κ → ℝ) × (κ → ℝ))) (n : SNet ι κ) : SNet ι κ

section
variable {X ι κ : Type}

/-- The same network, for the forward pass of `Model/IbpNet.lean`. -/
def SNet.toRNet : {κ : Type} → SNet ι κ → RNet ι κ
  | _, .input => .input
  | _, @SNet.layer _ _ _ _ _ _ n l => .layer n.toRNet l
  | _, @SNet.act _ _ _ _ a _ n => .act a n.toRNet

/-- The backward function of an activation (backward_layers/activations.py:426-459). -/
def SmoothAct.toBack : SmoothAct → BackFn
  | .sigmoid => .sigmoid
  | .tanh => .tanh
  | .softsign => .softsign
  | .exponential => .exponential
  | .softplus => .softplus

/-- The entry of `input_map` for a child of node `n`, `get_input_nodes`, backward_cloning.py:236-281.  With `useForward` the forward pass is
the one in ibp mode (method `crown-forward-ibp`). -/
noncomputable def CrownCfg.childInputS (c : CrownCfg X ι ℝ) (n : SNet ι κ) (node : CrownNode ι κ ℝ) : Except PyErr (Full X ι κ ℝ) :=
  if c.useForward then .ok (n.toRNet.forward c.D c.eps c.slope c.inp)
  else node.first.map (convert2BackwardMode c.D c.stack c.m c.inp)

variable [Fintype ι] [DecidableEq ι]

/-- Models `crown_`, backward_cloning.py:82-215, together with `get_input_nodes`, 218-282, as `CrownCfg.node`, on a chain with any
activations. -/
noncomputable def CrownCfg.nodeS (c : CrownCfg X ι ℝ) : {κ : Type} → SNet ι κ → CrownNode ι κ ℝ
  | _, .input =>
    { first := .ok (fuse c.m c.inp Back.identity)
      next := fun _ b => .ok (fuse c.m c.inp (mergeWithPrevious Back.identity b)) }
  | κ', @SNet.layer _ _ _ _ _ _ n l =>
    let below := c.nodeS n
    let new : Except PyErr (Back _ κ' ℝ) := (c.childInputS n below).map (l.backward c.D c.m c.eps c.slope)
    { first := do
        let bn ← new
        below.next κ' bn
      next := fun ν b => do
        let bn ← new
        below.next ν (mergeWithPrevious bn b) }
  | κ, @SNet.act _ _ _ _ a ft n =>
    let below := c.nodeS n
    let new : Except PyErr (Back κ κ ℝ) := (c.childInputS n below).bind (a.toBack.call c.D c.m c.eps c.slope ft)
    { first := do
        let bn ← new
        below.next κ bn
      next := fun ν b => do
        let bn ← new
        below.next ν (mergeWithPrevious bn b) }

/-- Models the end of `crown_model`, backward_cloning.py:368-399, as `CrownCfg.model`. -/
noncomputable def CrownCfg.modelS (c : CrownCfg X ι ℝ) (n : SNet ι κ) : Except PyErr (Full X ι κ ℝ) :=
  (c.nodeS n).first.map (convert2BackwardMode c.D c.stack c.m c.inp)

end

end Decomon
