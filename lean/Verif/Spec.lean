import Verif.Model.Core

/-!
Specifications.  Nothing here refers to how decomon computes bounds.
-/

namespace Decomon

section
variable {X ι κ α : Type*} [Fintype ι] [Field α] [LinearOrder α]

/-- Value of the affine form `w·p + b`. -/
def affEval (w : ι → α) (b : α) (p : ι → α) : α := (∑ i, w i * p i) + b

/-- The box of a lower and an upper corner. -/
def Box (xmin xmax : ι → α) : Set (ι → α) := {p | ∀ i, xmin i ≤ p i ∧ p i ≤ xmax i}

/-- What the user expects of the tensors of mode `m` at the model input `p`, when the layer value is `y`. -/
structure Valid (m : Mode) (dc : Bool) (f : Full X ι κ α) (p : ι → α) (y : κ → α) : Prop where
  /-- constant bounds -/
  const : getIbp m = true → ∀ k, f.lc k ≤ y k ∧ y k ≤ f.uc k
  /-- affine bounds -/
  aff : getAffine m = true → ∀ k, affEval (fun i => f.wl i k) (f.bl k) p ≤ y k ∧
    y k ≤ affEval (fun i => f.wu i k) (f.bu k) p
  /-- difference of convex decomposition -/
  dc : dc = true → ∀ k, f.h k + f.g k = y k

/-- A perturbation domain is sound for a set `S` of model inputs when its concretisation bounds every affine form on `S`. -/
def PertDomain.Sound (D : PertDomain X ι α) (x : X) (S : Set (ι → α)) : Prop :=
  ∀ p ∈ S, ∀ w b, D.getLower x w b ≤ affEval w b p ∧ affEval w b p ≤ D.getUpper x w b

end

/-- The closed `Lp` ball, for `p = 1, 2, inf`, stated without norms or roots; empty for any other `p`. -/
def LpBall {ι : Type*} [Fintype ι] (x0 : ι → ℝ) (eps : ℝ) (p : PVal) : Set (ι → ℝ) :=
  {z | (p = .inf ∧ ∀ i, |z i - x0 i| ≤ eps) ∨ (p = .fin 1 ∧ ∑ i, |z i - x0 i| ≤ eps) ∨
    (p = .fin 2 ∧ 0 ≤ eps ∧ ∑ i, (z i - x0 i) ^ 2 ≤ eps ^ 2)}

end Decomon
