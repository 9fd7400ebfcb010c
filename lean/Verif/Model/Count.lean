import Mathlib.Data.List.Basic

/-! Model of `/repo/src/decomon/metrics/complexity.py` and of the two functions of `/repo/src/decomon/models/utils.py` that pack tensors for
a call of a layer. -/

namespace Decomon

/-- What `get_graph_complexity` sees of the operation of a node, complexity.py:14: an input layer, a `Lambda`, or another operation (a nested
model too). -/
inductive OpKind
  | input
  | lambda
  | other
  deriving DecidableEq, Repr

/-- Models `get_graph_complexity`, complexity.py:5-19.  `byDepth` is the dictionary `model._nodes_by_depth` in its order, with the operations of
the nodes of each depth. -/
def graphComplexity (byDepth : List (ℕ × List OpKind)) : ℕ :=
  byDepth.foldl (fun n d => d.2.foldl (fun n op => if op = .input ∨ op = .lambda then n else n + 1) n) 0

/-- What a layer takes and gives: a tensor, a list or a tuple of tensors. -/
inductive Packed (τ : Type*)
  | tensor (t : τ)
  | list (l : List τ)
  | tuple (l : List τ)
  deriving DecidableEq, Repr

/-- Models `prepare_inputs_for_layer`, models/utils.py:160-172. -/
def prepareInputs {τ : Type*} : Packed τ → Packed τ
  | .list [t] => .tensor t
  | .tuple [t] => .tensor t
  | p => p

/-- Models `wrap_outputs_from_layer_in_list`, models/utils.py:175-184. -/
def wrapOutputs {τ : Type*} : Packed τ → List τ
  | .tensor t => [t]
  | .list l => l
  | .tuple l => l

end Decomon
