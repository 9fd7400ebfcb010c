import Verif.Model.Metrics
import Verif.Model.Backward

/-!
The backward score of the adversarial metric layers on the tensors of a converted model, /repo/src/decomon/metrics/metric.py and
/repo/src/decomon/core.py.

The backward tensors have the shapes `(batch, n_in, n_out)` for the weights and `(batch, n_out)` for the biases
(`Convert2BackwardMode`, models/crown.py:59-92).  `advCheckCall` and `advScoreCall` of Model/Metrics.lean read the
index 0 of lines 446-449 as the removal of an axis of length one; here it is applied to the axes that exist.  One sample of the batch.
-/

namespace Decomon

section
variable {α : Type*} [Field α] [LinearOrder α]

/-- An axis of length `n + 1` read at the places of an axis of length `k + 1` (numpy broadcasting, for `n = k` or `n = 0`). -/
def bcast {n k : ℕ} (i : Fin (k + 1)) : Fin (n + 1) := if h : i.1 < n + 1 then ⟨i.1, h⟩ else 0

/-- Models `_get_backward_score`, metric.py:435-454, over a `BoxDomain`.  The slices `w[:, 0]` (shape `(batch, n_out)`) and `b[:, 0]` (shape
`(batch,)`) are the weights of the first input and the bias of the first output.  In `_get_affine_score` (lines 415-420) they become
tensors of shapes `(batch, n_out, 1, 1)` and `(batch, 1, 1)`; the penalties of lines 428-429 extend the bias to `(batch, n_out, n_out)`.
`get_upper_box` (core.py:466-495) multiplies the weights with the corners of the box, of shape `(batch, n_in, 1, 1)`, which raises when
`n_in` and `n_out` differ and neither is 1. -/
def backwardScore {n m : ℕ} (x : (Fin (n + 1) → α) × (Fin (n + 1) → α)) (b : Back (Fin (n + 1)) (Fin (m + 1)) α)
    (src tgt : Fin (m + 1) → α) : Except PyErr α :=
  if n = m ∨ n = 0 ∨ m = 0 then
    .ok (maxOver fun q : Fin (m + 1) × Fin (m + 1) =>
      getUpperBox (fun i : Fin (max n m + 1) => x.1 (bcast i)) (fun i => x.2 (bcast i)) (fun i => b.wl 0 (bcast i) - b.wu 0 (bcast i))
        (b.bl 0 - b.bu 0 - 1000000 * (1 - tgt q.2) - 1000000 * (1 - src q.1)))
  else .error .valueError

/-- Models `AdversarialScore.call` in mode `BACKWARD`, metric.py:189-239, with the backward tensors in their shapes (lines 232-237). -/
def advScoreBackward {n m : ℕ} (mode : Mode) (b : Back (Fin (n + 1)) (Fin (m + 1)) α)
    (f : Full ((Fin (n + 1) → α) × (Fin (n + 1) → α)) (Fin (n + 1)) (Fin (m + 1)) α) (src : Fin (m + 1) → α) : Except PyErr α :=
  (backwardScore f.x b src fun k => 1 - src k).map (min (advScoreCall boxDomain mode none f src))

/-- Models `AdversarialCheck.call` in mode `BACKWARD`, metric.py:117-161 (lines 154-159). -/
def advCheckBackward {n m : ℕ} (mode : Mode) (b : Back (Fin (n + 1)) (Fin (m + 1)) α)
    (f : Full ((Fin (n + 1) → α) × (Fin (n + 1) → α)) (Fin (n + 1)) (Fin (m + 1)) α) (src : Fin (m + 1) → α) : Except PyErr α :=
  (backwardScore f.x b src fun k => 1 - src k).map (min (advCheckCall boxDomain mode none f src))

end

end Decomon
