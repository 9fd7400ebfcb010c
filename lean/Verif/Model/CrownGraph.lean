import Verif.Model.Pipeline
import Verif.Model.BackAct

/-!
Model of the backward conversion of a graph of Keras layers with its dictionaries: `crown_`, `get_input_nodes`, `crown_model`,
`convert_backward` (models/backward_cloning.py), and the lists of tensors given to `Fuse`, `MergeWithPrevious`, `Convert2BackwardMode`
(models/crown.py).  In Model/Network.lean and Model/BackAct.lean a model is an expression, without dictionaries.

Without finetuning `joint` is true (backward_cloning.py:347-348), and `retrieve_layer` (68-81) gives the same layer each time a node is met.
-/

namespace Decomon

/-! ### The traversal -/

section Traversal
variable {τ : Type*}

/-- The bounds of the layer of a node, backward_cloning.py:141-147: computed once, then taken from `output_map` (here `cm`), which is returned
with what was added to it.  `back v` makes and calls the backward layer of the node. -/
def crownMemo (back : ℕ → List τ → Except PyErr (List τ)) (v : ℕ) (inputs : List τ) (cm : ℕ → Option (List τ)) :
    Except PyErr (List τ × (ℕ → Option (List τ))) :=
  match cm v with
  | some b => .ok (b, cm)
  | none => (back v inputs).map fun b => (b, Function.update cm v (some b))

/-- The bounds of the layer of a node composed with those of the layers above, backward_cloning.py:150-155. -/
def crownJoin (merge : List τ → Except PyErr (List τ)) (new bounds : List τ) : Except PyErr (List τ) :=
  if bounds.isEmpty then .ok new else merge (new ++ bounds)

/-- Models `crown_`, backward_cloning.py:82-215, on a node that is not a model (see Model/Nested.lean for those).  `im` is `input_map`, the
last argument `output_map` (the `crown_map` of the callers).  `merge` and `fuse` are the calls of `MergeWithPrevious` and `Fuse`.  The first
argument bounds the recursion. -/
def crownGo (parents : ℕ → List ℕ) (back : ℕ → List τ → Except PyErr (List τ)) (merge fuse : List τ → Except PyErr (List τ))
    (im : ℕ → Option (List τ)) : ℕ → ℕ → List τ → (ℕ → Option (List τ)) → Except PyErr (List τ × (ℕ → Option (List τ)))
  | 0, _, _, _ => .error .recursionError
  | fuel + 1, v, bounds, cm =>
    match im v with
    | none => .error .keyError
    | some inputs =>
      (crownMemo back v inputs cm).bind fun st => (crownJoin merge st.1 bounds).bind fun b =>
      match parents v with
      | [] => (fuse (inputs ++ b)).map fun r => (r, st.2)
      | [p] => crownGo parents back merge fuse im fuel p b st.2
      | _ => .error .notImplemented

/-- The inputs of a node, backward_cloning.py:249-278: for each parent the tensors of `forward_map` (`fm`), or else `crown_` without backward
bounds, then `Convert2BackwardMode` (`setMode`) on the input tensors and the result. -/
def crownGather (parents : ℕ → List ℕ) (back : ℕ → List τ → Except PyErr (List τ)) (merge fuse setMode : List τ → Except PyErr (List τ))
    (inp : List τ) (fm im : ℕ → Option (List τ)) (fuel : ℕ) :
    List ℕ → (ℕ → Option (List τ)) → Except PyErr (List τ × (ℕ → Option (List τ)))
  | [], cm => .ok ([], cm)
  | p :: t, cm =>
    match fm p with
    | some o => (crownGather parents back merge fuse setMode inp fm im fuel t cm).map fun q => (o ++ q.1, q.2)
    | none =>
      (crownGo parents back merge fuse im fuel p [] cm).bind fun r =>
      (setMode (inp ++ r.1)).bind fun s =>
      (crownGather parents back merge fuse setMode inp fm im fuel t r.2).map fun q => (s ++ q.1, q.2)

/-- Models the loop of `get_input_nodes`, backward_cloning.py:239-282: `input_map` and `crown_map`. -/
def crownInputs (parents : ℕ → List ℕ) (back : ℕ → List τ → Except PyErr (List τ)) (merge fuse setMode : List τ → Except PyErr (List τ))
    (inp : List τ) (fm : ℕ → Option (List τ)) (fuel : ℕ) :
    List ℕ → (ℕ → Option (List τ)) × (ℕ → Option (List τ)) → Except PyErr ((ℕ → Option (List τ)) × (ℕ → Option (List τ)))
  | [], st => .ok st
  | v :: t, st =>
    (match parents v with
      | [] => Except.ok (inp, st.2)
      | p :: ps => crownGather parents back merge fuse setMode inp fm st.1 fuel (p :: ps) st.2).bind fun q =>
    crownInputs parents back merge fuse setMode inp fm fuel t (Function.update st.1 v (some q.1), q.2)

/-- The loop over the output nodes, backward_cloning.py:372-397 with `fuse=True`. -/
def crownOutputs (parents : ℕ → List ℕ) (back : ℕ → List τ → Except PyErr (List τ)) (merge fuse setMode : List τ → Except PyErr (List τ))
    (inp : List τ) (im : ℕ → Option (List τ)) (fuel : ℕ) (bounds : List τ) : List ℕ → (ℕ → Option (List τ)) → Except PyErr (List τ)
  | [], _ => .ok []
  | o :: t, cm =>
    (crownGo parents back merge fuse im fuel o bounds cm).bind fun r =>
    (setMode (inp ++ r.1)).bind fun s =>
    (crownOutputs parents back merge fuse setMode inp im fuel bounds t r.2).map fun q => s ++ q

/-- Models `crown_model`, backward_cloning.py:284-399, for a model whose output tensors come from the nodes `outs`.  `bounds` are the
`back_bounds` (refused for several outputs, lines 338-339). -/
def crownModelE (parents : ℕ → List ℕ) (top : ℤ) (fuel : ℕ) (order : List ℕ) (nameOf : ℕ → String) (outs : List ℕ)
    (back : ℕ → List τ → Except PyErr (List τ)) (merge fuse setMode : List τ → Except PyErr (List τ)) (inp : List τ)
    (fm : ℕ → Option (List τ)) (bounds : List τ) : Except PyErr (List τ) :=
  if ¬ bounds.isEmpty ∧ 1 < outs.length then .error .notImplemented
  else
    (depthDict parents top fuel order).bind fun d =>
    (crownInputs parents back merge fuse setMode inp fm fuel (visitOrder d order) (fun _ => none, fun _ => none)).bind fun st =>
    crownOutputs parents back merge fuse setMode inp st.1 fuel bounds
      ((outs.map nameOf).flatMap fun s => (nodesAt d order 0).filter fun v => decide (nameOf v = s)) st.2

end Traversal

/-! ### The tensors -/

/-- A tensor of the backward pass: as `Ten`, but weights may be those of a function of any layer.  Simplified: the backward layers flatten the
entries of a layer (e.g. backward_layers/activations.py:84-85), here the shape is kept; see C113 for the activations that do not flatten. -/
inductive BTen (X : Type)
  | empty
  | dom (x : X)
  | vec (s : List ℕ) (t : Idx s → ℝ)
  | mat (a s : List ℕ) (t : Idx a → Idx s → ℝ)

section Tensors
variable {X : Type} {n : ℕ}

/-- A tensor of the forward pass, among the others. -/
def Ten.toB : Ten X (Idx [n]) → BTen X
  | .empty => .empty
  | .dom x => .dom x
  | .vec s t => .vec s t
  | .mat s t => .mat [n] s t

/-- A tensor read as one of the forward pass. -/
def BTen.toTen (n : ℕ) : BTen X → Except PyErr (Ten X (Idx [n]))
  | .empty => .ok .empty
  | .dom x => .ok (.dom x)
  | .vec s t => .ok (.vec s t)
  | .mat a s t => if h : a = [n] then .ok (.mat s (h ▸ t)) else .error .valueError

/-- A list of tensors unpacked by a layer, with the shape that it expects. -/
def readListB (n : ℕ) (x0 : X) (m : Mode) (s : List ℕ) (l : List (BTen X)) : Except PyErr (Full X (Idx [n]) (Idx s) ℝ) :=
  (l.mapM (BTen.toTen n)).bind (readList x0 m s)

/-- The list returned by a backward layer: `[w_u, b_u, w_l, b_l]`. -/
def Back.toB {a b : List ℕ} (B : Back (Idx a) (Idx b) ℝ) : List (BTen X) := [.mat a b B.wu, .vec b B.bu, .mat a b B.wl, .vec b B.bl]

/-- Four tensors read as affine bounds of a function from one shape to another. -/
def readBack : List (BTen X) → Except PyErr (Sigma fun q : List ℕ × List ℕ => Back (Idx q.1) (Idx q.2) ℝ)
  | [.mat a b wu, .vec b1 bu, .mat a2 b2 wl, .vec b3 bl] =>
    if h1 : b1 = b then
      if h2 : a2 = a then
        if h3 : b2 = b then
          if h4 : b3 = b then
            .ok ⟨(a, b), wu, h1 ▸ bu, h2 ▸ h3 ▸ wl, h4 ▸ bl⟩
          else .error .valueError
        else .error .valueError
      else .error .valueError
    else .error .valueError
  | _ => .error .valueError

/-- Models `merge_with_previous`, models/crown.py:146-186, on the list of eight tensors; shapes that do not fit raise `ValueError`
(`MergeWithPrevious`, lines 95-118). -/
noncomputable def mergeB (l : List (BTen X)) : Except PyErr (List (BTen X)) :=
  (readBack (l.take 4)).bind fun B1 => (readBack (l.drop 4)).bind fun B2 =>
    if h : B2.1.1 = B1.1.2 then .ok (mergeWithPrevious B1.2 (h ▸ B2.2 : Back (Idx B1.1.2) (Idx B2.1.2) ℝ)).toB else .error .valueError

/-- Models `Fuse.call`, models/crown.py:18-30: the last four tensors are the backward bounds, the others the tensors of the input node. -/
noncomputable def fuseB (m : Mode) (l : List (BTen X)) : Except PyErr (List (BTen X)) :=
  let bounds := l.drop (l.length - 4)
  match m, l.take (l.length - 4) with
  | .affine, [_, wu, bu, wl, bl] => mergeB ([wu, bu, wl, bl] ++ bounds)
  | .hybrid, [_, _, wu, bu, _, wl, bl] => mergeB ([wu, bu, wl, bl] ++ bounds)
  | .ibp, _ => .ok bounds
  | _, _ => .error .valueError

/-- Models `Convert2BackwardMode.call`, models/crown.py:64-93, on the input tensors followed by four tensors of bounds. -/
noncomputable def setModeB (D : PertDomain X (Idx [n]) ℝ) (stack : (Idx [n] → ℝ) → (Idx [n] → ℝ) → X) (x0 : X) (m : Mode) (l : List (BTen X)) :
    Except PyErr (List (BTen X)) :=
  (readBack (l.drop (l.length - 4))).bind fun B => (readListB n x0 m [n] (l.take (l.length - 4))).bind fun inp =>
    if h : B.1.1 = [n] then
      .ok (((convert2BackwardMode D stack m inp (h ▸ B.2 : Back (Idx [n]) (Idx B.1.2) ℝ)).toList m).map Ten.toB)
    else .error .valueError

/-- The backward layer of a layer with one input, called on its tensors once unpacked: see `Lay.backward`, `BackFn.call`; the constructor of
`BackwardMaxPooling2D` raises `NotImplementedError` (backward_maxpooling.py:23-40). -/
noncomputable def Step.back (D : PertDomain X (Idx [n]) ℝ) (m : Mode) (eps : ℝ) (slope : Slope) {a b : List ℕ} :
    Step a b → Full X (Idx [n]) (Idx a) ℝ → Except PyErr (Back (Idx a) (Idx b) ℝ)
  | .lay l, f => .ok (l.backward D m eps slope f)
  | .act g, f => g.toBack.call D m eps slope none f
  | .pool _ _, _ => .error .notImplemented

/-- The backward layer of a node, made by `retrieve_layer` and called on the inputs of the node, backward_cloning.py:141-145:
`BackwardInputLayer`, the layers with one input, and the merge layers, which raise (see `crownMergeErr`; `Concatenate` and `Dot`:
backward_merge.py:409, 499). -/
noncomputable def KOp.back (D : PertDomain X (Idx [n]) ℝ) (m : Mode) (eps : ℝ) (slope : Slope) (x0 : X) {as : List (List ℕ)} {b : List ℕ} :
    KOp n as b → List (BTen X) → Except PyErr (List (BTen X))
  | .input, _ => .ok (Back.identity : Back (Idx [n]) (Idx [n]) ℝ).toB
  | @KOp.layer _ a _ (.pool _ _), _ => .error .notImplemented
  | @KOp.layer _ a _ l, t => (readListB n x0 m a t).bind fun f => (l.back D m eps slope f).map Back.toB
  | .merge .add _ _, _ => .error .notImplemented
  | .merge .average _ _, _ => .error .notImplemented
  | .merge .maximum _ _, _ => .error .keyError
  | .merge .minimum _ _, _ => .error .keyError
  | .merge .multiply _ _, _ => .error .keyError
  | .subtract _, _ => .error .keyError
  | .concat _ _ _ _, _ => .error .keyError
  | @KOp.dot _ _ _ _ _ _ _ _ _ _ _, _ => .error .keyError

/-- The `output_map` returned by `convert_forward_functional_model`, forward_cloning.py:132-228. -/
noncomputable def KGraph.forwardMap (D : PertDomain X (Idx [n]) ℝ) (m : Mode) (eps : ℝ) (slope : Slope) (inp : Full X (Idx [n]) (Idx [n]) ℝ)
    (G : KGraph n) (top : ℤ) (fuel : ℕ) (order : List ℕ) : Except PyErr (ℕ → Option (List (BTen X))) :=
  (depthDict G.parents top fuel order).bind fun d =>
    (convertLoopE G.parents (fun v => (G.op v).call D m eps slope inp) (visitOrder d order) (inp.toList m, fun _ => none)).map fun st v =>
      (st.2 v).map (List.map Ten.toB)

/-- Models the backward part of `convert`, convert.py:117-152, up to the result of `crown_model`: with the methods `crown-forward-*`
(`useForward`) the `output_map` of the forward conversion is the `forward_map` of the backward one. -/
noncomputable def KGraph.crown (D : PertDomain X (Idx [n]) ℝ) (stack : (Idx [n] → ℝ) → (Idx [n] → ℝ) → X) (m : Mode) (eps : ℝ) (slope : Slope)
    (useForward : Bool) (inp : Full X (Idx [n]) (Idx [n]) ℝ) (G : KGraph n) (top : ℤ) (fuel : ℕ) (order : List ℕ) (nameOf : ℕ → String)
    (outs : List ℕ) (bounds : List (BTen X)) : Except PyErr (List (BTen X)) :=
  (if useForward then G.forwardMap D m eps slope inp top fuel order else .ok fun _ => none).bind fun fm =>
    crownModelE G.parents top fuel order nameOf outs (fun v => (G.op v).back D m eps slope inp.x) mergeB (fuseB m)
      (setModeB D stack inp.x m) ((inp.toList m).map Ten.toB) fm bounds

/-- Models `convert_backward`, backward_cloning.py:402-459, on a model with one output: `crown_model`, then `Convert2Mode` (except from ibp to
another mode). -/
noncomputable def KGraph.convertBackward (D : PertDomain X (Idx [n]) ℝ) (stack : (Idx [n] → ℝ) → (Idx [n] → ℝ) → X) (m mTo : Mode) (eps : ℝ)
    (slope : Slope) (useForward : Bool) (inp : Full X (Idx [n]) (Idx [n]) ℝ) (G : KGraph n) (top : ℤ) (fuel : ℕ) (order : List ℕ)
    (nameOf : ℕ → String) (out : ℕ) : Except PyErr (List (BTen X)) :=
  (G.crown D stack m eps slope useForward inp top fuel order nameOf [out] []).bind fun l =>
    (readListB n inp.x m (G.sh out) l).map fun f => ((convert2Mode D m mTo f).toList mTo).map Ten.toB

end Tensors

end Decomon
