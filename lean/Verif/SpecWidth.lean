import Verif.SpecRate

/-!
Specification for the width of the affine and of the backward bounds.
-/

namespace Decomon

/-- The bounds that the domain computes for affine functions are values on `S`. -/
def Attains {X ι α : Type*} [Fintype ι] [Field α] (D : PertDomain X ι α) (x : X) (S : Set (ι → α)) : Prop :=
  ∀ w b, (∃ p ∈ S, affEval w b p = D.getUpper x w b) ∧ ∃ p ∈ S, affEval w b p = D.getLower x w b

end Decomon
