import Verif.SpecNet
import Mathlib.Algebra.BigOperators.Group.Finset.Basic

/-!
Specification for copies of neurons: neuron `k'` of the new layer is a copy of neuron `r k'` of the old one.
-/

namespace Decomon

section
variable {κ κ' μ α : Type} [Fintype κ'] [DecidableEq κ] [Field α] [LinearOrder α]

/-- The weights `K'` that leave the copies of a neuron add up to the weight that left the neuron, and have its sign. -/
def SplitWeights (r : κ' → κ) (K : κ → μ → α) (K' : κ' → μ → α) : Prop :=
  ∀ o, (∀ k, ∑ k' with r k' = k, K' k' o = K k o) ∧ ∀ k', (0 ≤ K (r k') o → 0 ≤ K' k' o) ∧ (K (r k') o ≤ 0 → K' k' o ≤ 0)

/-- The shares of the copies of every neuron: not negative, 1 in all. -/
def Shares (r : κ' → κ) (c : κ' → α) : Prop := (∀ k', 0 ≤ c k') ∧ ∀ k, ∑ k' with r k' = k, c k' = 1

end

end Decomon
