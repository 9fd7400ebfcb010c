import Verif.Model.Graph
import Verif.Model.State

/-!
Model of what happens to a model used as a layer of another model: `preprocess_keras_model` (models/convert.py) through
`convert_forward_functional_model` (models/forward_cloning.py), and the branch of `crown_` (models/backward_cloning.py) for such a node.
-/

namespace Decomon

/-! ### Nested graphs -/

section Graph
variable {τ : Type*}

/-- One step of the loop, forward_cloning.py:171-217, as `convertNode` but with a conversion that may raise (the recursive call of lines
184-197). -/
def convertNodeE (parents : ℕ → List ℕ) (conv : ℕ → List τ → Except PyErr (List τ)) (v : ℕ) (st : List τ × (ℕ → Option (List τ))) :
    Except PyErr (List τ × (ℕ → Option (List τ))) :=
  if st.2 v ≠ none then .ok st
  else match parents v with
    | [] => .ok (st.1, Function.update st.2 v (some st.1))
    | p :: t => (gatherParents st.2 (p :: t)).bind fun inp => (conv v inp).map fun out => (out, Function.update st.2 v (some out))

/-- The loop of `convert_forward_functional_model`, forward_cloning.py:167-217. -/
def convertLoopE (parents : ℕ → List ℕ) (conv : ℕ → List τ → Except PyErr (List τ)) :
    List ℕ → List τ × (ℕ → Option (List τ)) → Except PyErr (List τ × (ℕ → Option (List τ)))
  | [], st => .ok st
  | v :: t, st => (convertNodeE parents conv v st).bind fun st' => convertLoopE parents conv t st'

/-- Models `convert_forward_functional_model`, forward_cloning.py:140-228, with a conversion of the nodes that may raise. -/
def convertFunctionalE (parents : ℕ → List ℕ) (top : ℤ) (fuel : ℕ) (order : List ℕ) (nameOf : ℕ → String) (outs : List ℕ)
    (conv : ℕ → List τ → Except PyErr (List τ)) (inp : List τ) : Except PyErr (List τ) :=
  (depthDict parents top fuel order).bind fun d =>
    (convertLoopE parents conv (visitOrder d order) (inp, fun _ => none)).bind fun st =>
      collectOutputs nameOf (outs.map nameOf) (nodesAt d order 0) st.2

/-- What a node of a Keras graph runs: a layer, or a whole model with one output, given by the parents of its nodes, its greatest depth, its
nodes by decreasing depth, their names, its output node and what its nodes run. -/
inductive NGraph (τ : Type*)
  | layer (f : List τ → List τ)
  | model (parents : ℕ → List ℕ) (top : ℕ) (order : List ℕ) (nameOf : ℕ → String) (out : ℕ) (node : ℕ → NGraph τ)

/-- Models the conversion of a node by `convert_forward_functional_model`, forward_cloning.py:183-216: a model is converted by a recursive
call on the tensors of its parents (lines 184-197), with an `output_map` of its own; a layer by its converted layers. -/
def NGraph.convert (fuel : ℕ) : NGraph τ → List τ → Except PyErr (List τ)
  | .layer f, l => .ok (f l)
  | .model parents top order nameOf out node, l =>
    convertFunctionalE parents top fuel order nameOf [out] (fun v => (node v).convert fuel) l

end Graph

/-! ### Nested chains of layer objects -/

section Chain
variable {V : Type*}

/-- A chain of layers in which some are models: `layer i` is the object `i`, `model sub` a model that is itself such a chain. -/
inductive NChain
  | nil
  | layer (i : ℕ) (rest : NChain)
  | model (sub rest : NChain)

/-- The loop of `_clone_keras_model` on such a chain, convert.py:35-65 with forward_cloning.py:168-216: the recursive call shares
`layer2layer_map` and starts from the current `count`; afterwards `count` grows by `get_inner_layers` (line 198), here any function
`inner`. -/
def cloneNested (inner : NChain → ℕ) : NChain → CloneState V → CloneState V × List ℕ
  | .nil, st => (st, [])
  | .layer i rest, st =>
    let q := cloneNested inner rest (cloneStep st i).1
    (q.1, (cloneStep st i).2 ++ q.2)
  | .model sub rest, st =>
    let s := cloneNested inner sub st
    let q := cloneNested inner rest ⟨s.1.heap, st.count + inner sub, s.1.cache⟩
    (q.1, s.2 ++ q.2)

/-- Models `preprocess_keras_model`, convert.py:74-77, on a chain of layers and models. -/
def preprocessNested (inner : NChain → ℕ) (h : Heap V) (chain : NChain) : Heap V × List ℕ :=
  let q := cloneNested inner chain ⟨h, 0, fun _ => none⟩
  (q.1.heap, q.2)

end Chain

/-! ### The backward pass -/

section Backward
variable {τ : Type*}

/-- Models `extract_outputsformode_from_fulloutputs` on a list, core.py:456-457 with lines 426-438: the list is unpacked into nine names, and
a list of another length raises `ValueError`. -/
def extractFromList (m : Mode) (dc : Bool) : List τ → Except PyErr (List τ)
  | [x, uc, wu, bu, lc, wl, bl, h, g] => .ok (extractForMode m dc ⟨x, uc, wu, bu, lc, wl, bl, h, g⟩)
  | _ => .error .valueError

/-- The tensor operations of `disco_priv`: the box `[l_c, u_c]`, the batched identity and the zeros of backward_cloning.py:56-58, and the
tightening of core.py:330-345. -/
structure DiscoOps (τ : Type*) where
  box : τ → τ → τ
  ident : τ → τ
  zeros : τ → τ
  tighten : Nine τ → Nine τ

/-- Models `disco_priv`, backward_cloning.py:50-62.  `inputs` is never the empty list there. -/
def discoPriv (m : Mode) (e : τ) (ops : DiscoOps τ) (inputs : List τ) : Except PyErr (List τ) :=
  (fullInputsList m false e inputs).bind fun t =>
    let t := ops.tighten t
    if getAffine m then extractFromList m false [ops.box t.lc t.uc, t.uc, ops.ident t.uc, ops.zeros t.uc, t.lc, ops.ident t.uc, ops.zeros t.uc]
    else extractFromList m false [t.x, t.uc, e, e, t.lc, e, e]

/-- What a node runs in the backward pass: a backward layer on the inputs of the node, or `crown_model` of a nested model on its
disconnected inputs. -/
inductive CrownOp (τ : Type*)
  | layer (f : List τ → Except PyErr (List τ))
  | model (f : List τ → Except PyErr (List τ))

/-- Models `crown_`, backward_cloning.py:82-215, on a chain: the nodes from the given one to the input, each with `input_map[id(node)]`.
`merge` is `MergeWithPrevious`.  The final `Fuse` is left out. -/
def crownRec (m : Mode) (e : τ) (ops : DiscoOps τ) (merge : List τ → List τ → List τ) :
    List (CrownOp τ × List τ) → List τ → Except PyErr (List τ)
  | [], b => .ok b
  | (.layer f, inp) :: t, b =>
    (f inp).bind fun nb => crownRec m e ops merge t (if b.isEmpty then nb else merge nb b)
  | (.model f, inp) :: t, _ =>
    (discoPriv m e ops inp).bind fun d => (f d).bind fun nb => crownRec m e ops merge t nb

end Backward

end Decomon
