import Verif.Model.Nested
import Mathlib.Data.List.Dedup

/-!
Model of the names given to the layers by `preprocess_keras_model` (models/convert.py, models/forward_cloning.py, models/utils.py), and of the
test of Keras 3 on them.
-/

namespace Decomon

/-- The test of `keras.Model(inputs, outputs)` on the names of its operations: Keras 3 raises `ValueError` unless they are distinct. -/
def kerasModelNames (names : List String) : Except PyErr Unit := if names.Nodup then .ok () else .error .valueError

/-- Models `get_inner_layers`, models/utils.py:275-282.  `own` is the number of input layers listed in `model.layers`: 1 for a functional model,
0 for a `Sequential` one (all nested models are of the same kind here). -/
def innerLayers (own : ℕ) : NChain → ℕ
  | .nil => own
  | .layer _ rest => 1 + innerLayers own rest
  | .model sub rest => innerLayers own sub + innerLayers own rest

/-- Models `preprocess_keras_model` with the construction of the new model, convert.py:35-65 and 74-77: the operations of the new model are the
input layers, which keep their names (forward_cloning.py:180-182), and the converted layers, each once. -/
def preprocessModel {V : Type*} (own : ℕ) (inputNames : List String) (h : Heap V) (chain : NChain) : Except PyErr (Heap V × List ℕ) :=
  let q := preprocessNested (innerLayers own) h chain
  (kerasModelNames (inputNames ++ q.2.dedup.map fun i => (q.1.obj i).name)).map fun _ => q

end Decomon
