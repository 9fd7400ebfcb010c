import Verif.Model.Core
import Mathlib.Logic.Function.Basic
import Mathlib.Data.List.Sort
import Mathlib.Data.List.Dedup
import Mathlib.Algebra.Order.Ring.Int

/-!
Model of the traversal of a Keras graph: `get_depth_dict` (models/utils.py), `convert_forward_functional_model`
(models/forward_cloning.py), and of the choice of method, mode and direction (models/utils.py, models/convert.py).

A node is a natural number (its `id`), `parents v` is `v.parent_nodes` in order.
-/

namespace Decomon

/-! ### Depths -/

/-- Python `min` (here `np.min`) of a list; `ValueError` on the empty list. -/
def pyMin : List ℤ → Except PyErr ℤ
  | [] => .error .valueError
  | a :: t => .ok (t.foldl min a)

/-- `[dico_depth[id(parent)] - 1 for parent in parents]`, models/utils.py:248; `KeyError` for a parent without depth. -/
def parentDepths (d : ℕ → Option ℤ) : List ℕ → Except PyErr (List ℤ)
  | [] => .ok []
  | p :: t =>
    match d p with
    | none => .error .keyError
    | some k => (parentDepths d t).map fun l => (k - 1) :: l

/-- The depth of a node joined with a previous one, models/utils.py:249-252. -/
def joinDepth (k : ℤ) : Option ℤ → ℤ
  | some k' => max k k'
  | none => k

/-- The lines 248-252 of models/utils.py: the depth of `node` from those of all its parents, joined by `max` with a previous one. -/
def setDepth (parents : ℕ → List ℕ) (node : ℕ) (d : ℕ → Option ℤ) : Except PyErr (ℕ → Option ℤ) :=
  (parentDepths d (parents node)).bind fun l => (pyMin l).map fun k =>
    Function.update d node (some (joinDepth k (d node)))

/-- The loop over the parents, models/utils.py:244-252, with `fill` for the recursive call. -/
def fillLoop (parents : ℕ → List ℕ) (fill : ℕ → (ℕ → Option ℤ) → Except PyErr (ℕ → Option ℤ)) (node : ℕ) :
    List ℕ → (ℕ → Option ℤ) → Except PyErr (ℕ → Option ℤ)
  | [], d => .ok d
  | p :: t, d =>
    (if d p = none then fill p d else .ok d).bind fun d1 => (setDepth parents node d1).bind fun d2 =>
      fillLoop parents fill node t d2

/-- Models `fill_dico`, models/utils.py:238-256.  `top` is `max(depth_keys)`.  The first argument bounds the recursion (a cycle makes Python
raise `RecursionError`). -/
def fillDico (parents : ℕ → List ℕ) (top : ℤ) : ℕ → ℕ → (ℕ → Option ℤ) → Except PyErr (ℕ → Option ℤ)
  | 0, _, _ => .error .recursionError
  | fuel + 1, node, d =>
    match parents node with
    | [] => .ok (Function.update d node (some top))
    | p :: t => fillLoop parents (fillDico parents top fuel) node (p :: t) d

/-- Models the loop of `get_depth_dict`, models/utils.py:258-263: `order` lists the nodes of `model._nodes_by_depth` by decreasing depth. -/
def depthLoop (parents : ℕ → List ℕ) (top : ℤ) (fuel : ℕ) : List ℕ → (ℕ → Option ℤ) → Except PyErr (ℕ → Option ℤ)
  | [], d => .ok d
  | v :: t, d => (fillDico parents top fuel v d).bind fun d' => depthLoop parents top fuel t d'

/-- Models the depths computed by `get_depth_dict`, models/utils.py:229-263. -/
def depthDict (parents : ℕ → List ℕ) (top : ℤ) (fuel : ℕ) (order : List ℕ) : Except PyErr (ℕ → Option ℤ) :=
  depthLoop parents top fuel order fun _ => none

/-- The nodes of one depth, in the order of `nodes_list`: an entry of `dico_nodes`, models/utils.py:265-270. -/
def nodesAt (d : ℕ → Option ℤ) (order : List ℕ) (k : ℤ) : List ℕ := order.filter fun v => decide (d v = some k)

/-- The order in which nodes are visited: keys of `dico_nodes` sorted in reverse, then each list, forward_cloning.py:157-170. -/
def visitOrder (d : ℕ → Option ℤ) (order : List ℕ) : List ℕ :=
  ((order.filterMap d).dedup.insertionSort (· ≥ ·)).flatMap (nodesAt d order)

/-! ### Conversion along the graph -/

section Convert
variable {τ : Type*}

/-- `output_map[id(parent)]` for each parent, concatenated, forward_cloning.py:175-178; `KeyError` if one is missing. -/
def gatherParents (om : ℕ → Option (List τ)) : List ℕ → Except PyErr (List τ)
  | [] => .ok []
  | p :: t =>
    match om p with
    | none => .error .keyError
    | some o => (gatherParents om t).map fun l => o ++ l

/-- One step of the loop, forward_cloning.py:171-217.  The state is the variable `output` and `output_map`.  `conv v` is what the
converted layers (or nested model) of the node do to their inputs; an input layer (a node without parents) changes nothing. -/
def convertNode (parents : ℕ → List ℕ) (conv : ℕ → List τ → List τ) (v : ℕ) (st : List τ × (ℕ → Option (List τ))) :
    Except PyErr (List τ × (ℕ → Option (List τ))) :=
  if st.2 v ≠ none then .ok st
  else match parents v with
    | [] => .ok (st.1, Function.update st.2 v (some st.1))
    | p :: t => (gatherParents st.2 (p :: t)).map fun inp =>
        (conv v inp, Function.update st.2 v (some (conv v inp)))

/-- The loop of `convert_forward_functional_model`, forward_cloning.py:167-217. -/
def convertLoop (parents : ℕ → List ℕ) (conv : ℕ → List τ → List τ) :
    List ℕ → List τ × (ℕ → Option (List τ)) → Except PyErr (List τ × (ℕ → Option (List τ)))
  | [], st => .ok st
  | v :: t, st => (convertNode parents conv v st).bind fun st' => convertLoop parents conv t st'

/-- The selection of the outputs, forward_cloning.py:219-226: for each name of an output tensor, the nodes of depth 0 whose layer has
this name. -/
def collectOutputs (nameOf : ℕ → String) (outNames : List String) (depth0 : List ℕ) (om : ℕ → Option (List τ)) : Except PyErr (List τ) :=
  gatherParents om (outNames.flatMap fun n => depth0.filter fun v => decide (nameOf v = n))

/-- Models `convert_forward_functional_model`, forward_cloning.py:140-228, on a model whose output tensors come from the nodes `outs`. -/
def convertFunctional (parents : ℕ → List ℕ) (top : ℤ) (fuel : ℕ) (order : List ℕ) (nameOf : ℕ → String) (outs : List ℕ)
    (conv : ℕ → List τ → List τ) (inp : List τ) : Except PyErr (List τ) :=
  (depthDict parents top fuel order).bind fun d =>
    (convertLoop parents conv (visitOrder d order) (inp, fun _ => none)).bind fun st =>
      collectOutputs nameOf (outs.map nameOf) (nodesAt d order 0) st.2

/-- Models the end of `convert` for the forward methods, convert.py:159-164: `Convert2Mode.call` (models/utils.py:313-332) unpacks the
first `nb_tensors` tensors of the concatenated outputs of all output nodes and re-extracts those of the final mode.  `cv` is the change
of mode of one list of tensors. -/
def convertFinal (mFrom mTo : Mode) (e : τ) (cv : Nine τ → Nine τ) (outputs : List τ) : Except PyErr (List τ) :=
  (fullInputsList mFrom false e outputs).map fun t => extractForMode mTo false (cv t)

end Convert

/-! ### Methods -/

/-- Models `ConvertMethod`, models/utils.py:34-41. -/
inductive Method
  | crown
  | crownForwardIbp
  | crownForwardAffine
  | crownForwardHybrid
  | forwardIbp
  | forwardAffine
  | forwardHybrid
  deriving DecidableEq, Repr

/-- The value of a member of `ConvertMethod`, models/utils.py:35-41. -/
def Method.value : Method → String
  | .crown => "crown"
  | .crownForwardIbp => "crown-forward-ibp"
  | .crownForwardAffine => "crown-forward-affine"
  | .crownForwardHybrid => "crown-forward-hybrid"
  | .forwardIbp => "forward-ibp"
  | .forwardAffine => "forward-affine"
  | .forwardHybrid => "forward-hybrid"

/-- Models `ConvertMethod(s)` on a string: `ValueError` if no member has this value. -/
def methodOfString (s : String) : Except PyErr Method :=
  match [Method.crown, .crownForwardIbp, .crownForwardAffine, .crownForwardHybrid, .forwardIbp, .forwardAffine, .forwardHybrid].find?
    fun m => decide (m.value = s) with
  | some m => .ok m
  | none => .error .valueError

/-- Models `get_ibp_affine_from_method`, models/utils.py:44-54. -/
def ibpAffineOfMethod (m : Method) : Bool × Bool :=
  if m ∈ [Method.forwardIbp, .crownForwardIbp] then (true, false)
  else if m ∈ [Method.forwardAffine, .crownForwardAffine] then (false, true)
  else if m ∈ [Method.forwardHybrid, .crownForwardHybrid] then (true, true)
  else if m = .crown then (true, false)
  else (true, true)

/-- Models `get_direction`, models/utils.py:62-66 (`true` for `BACKWARD`). -/
def isBackward (m : Method) : Bool := ! decide (m ∈ [Method.forwardIbp, .forwardAffine, .forwardHybrid])

/-- What `convert` decides from its arguments, convert.py:117-164: whether a forward pass and a backward pass are run, the mode of the
layers, the mode of the outputs. -/
structure Plan where
  forward : Bool
  backward : Bool
  mode : Mode
  final : Mode
  deriving DecidableEq, Repr

/-- ASCII `str.lower`. -/
def lowerString (s : String) : String := String.ofList (s.toList.map Char.toLower)

/-- Models the decisions of `convert`, convert.py:81-167, with its defaults `False` for the four booleans. -/
def convertPlan (method : String) (ibp affine finalIbp finalAffine : Bool) : Except PyErr Plan :=
  (methodOfString (lowerString method)).map fun m =>
    ⟨decide (m ≠ .crown), isBackward m, getMode ibp affine, getMode finalIbp finalAffine⟩

/-- Models the decisions of `clone`, convert.py:170-258: `get_ibp_affine_from_method(method)` (line 196) comes before the lower-casing
(line 203). -/
def clonePlan (method : String) (finalIbp finalAffine : Option Bool) : Except PyErr Plan :=
  (methodOfString method).bind fun m =>
    convertPlan method (ibpAffineOfMethod m).1 (ibpAffineOfMethod m).2 (finalIbp.getD (ibpAffineOfMethod m).1)
      (finalAffine.getD (ibpAffineOfMethod m).2)

end Decomon
