import Verif.Model.Backward
import Mathlib.Algebra.BigOperators.Fin
import Mathlib.Logic.Equiv.Fin.Basic

/-!
Model of `BackwardPermute.call` for inputs of any rank (`backwardPermute` in `Model/Backward.lean` is the case of `Permute((2, 1))`).
-/

namespace Decomon

/-- The position of the entry with index `i` in a flattened tensor of shape `s` (row-major order, as `K.reshape` uses): the last axis counts
fastest. -/
def flatPos {r : ℕ} (s : Fin r → ℕ) (i : (k : Fin r) → Fin (s k)) : ℕ :=
  (finPiFinEquiv fun k => i k.rev).val

/-- Models `BackwardPermute.call`, backward_layers.py:507-524, on an input of shape `s`: the rows of the identity are given the shape `s` (line
517), transposed by the inverse of the permutation (`np.argsort`, lines 520-522) and flattened again.  `d k` is `dims[k] - 1`, the axis of the
input that becomes axis `k` of the output. -/
def backwardPermuteNd {α : Type*} [Field α] {r : ℕ} (s : Fin r → ℕ) (d : Equiv.Perm (Fin r)) : Back ℕ ℕ α where
  wu := fun q o => if ∃ i : (k : Fin r) → Fin (s k), q = flatPos (fun k => s (d⁻¹ k)) (fun k => i (d⁻¹ k)) ∧ o = flatPos s i then 1 else 0
  bu := fun _ => 0
  wl := fun q o => if ∃ i : (k : Fin r) → Fin (s k), q = flatPos (fun k => s (d⁻¹ k)) (fun k => i (d⁻¹ k)) ∧ o = flatPos s i then 1 else 0
  bl := fun _ => 0

end Decomon
