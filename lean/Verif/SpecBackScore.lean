import Mathlib.Algebra.Field.Defs

/-! Specification for the labels of the adversarial metric layers. -/

namespace Decomon

/-- Labels 0 and 1, with at least one source and at least one other label. -/
def SomeLabels {κ α : Type*} [Zero α] [One α] (src : κ → α) : Prop := (∀ k, src k = 0 ∨ src k = 1) ∧ (∃ s, src s = 1) ∧ ∃ t, src t = 0

/-- Every label that is not a source is below every source. -/
def SourcesWin {κ α : Type*} [Zero α] [One α] [LT α] (src y : κ → α) : Prop := ∀ t s, src t = 0 → src s = 1 → y t < y s

end Decomon
