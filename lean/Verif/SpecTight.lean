import Verif.SpecNet

/-!
Specifications about the precision of bounds.
-/

namespace Decomon

section
variable {X ι κ κ' α : Type*} [Fintype ι] [Field α] [LinearOrder α]

/-- The tensors of mode `m` say exactly that the layer value at the model input `p` is `y`. -/
structure ExactAt (m : Mode) (f : Full X ι κ α) (p : ι → α) (y : κ → α) : Prop where
  /-- constant bounds -/
  const : getIbp m = true → ∀ k, f.lc k = y k ∧ f.uc k = y k
  /-- affine bounds -/
  aff : getAffine m = true → ∀ k, affEval (fun i => f.wl i k) (f.bl k) p = y k ∧ affEval (fun i => f.wu i k) (f.bu k) p = y k

/-- The perturbation domain described by `x` is the single point `p`, as far as the concretisation of affine forms can tell. -/
def PertDomain.Point (D : PertDomain X ι α) (x : X) (p : ι → α) : Prop :=
  ∀ w b, D.getLower x w b = affEval w b p ∧ D.getUpper x w b = affEval w b p

/-- The backward bounds `b` are the vector `t` at the vector `y`. -/
def Back.ExactAt [Fintype κ] (b : Back κ κ' α) (y : κ → α) (t : κ' → α) : Prop :=
  ∀ k, affEval (fun i => b.wl i k) (b.bl k) y = t k ∧ affEval (fun i => b.wu i k) (b.bu k) y = t k

end

end Decomon
