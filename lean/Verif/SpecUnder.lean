import Verif.SpecRuns
import Mathlib.Algebra.BigOperators.Group.Finset.Defs

/-!
Specification for floating-point numbers with a bounded exponent: near zero the error of an operation is absolute (gradual underflow), and above the largest
number nothing is known of its result (overflow).
-/

namespace Decomon

section
variable {ι κ κ' α : Type} [Field α] [LinearOrder α]

/-- One operation: relative error `δ` from the smallest normal number `η` to the largest number `Ω`, absolute error `δ η` below `η`; above `Ω` the result is
arbitrary. -/
def FloatError (rd : α → α) (δ η Ω : α) : Prop := ∀ x, |x| ≤ Ω → |rd x - x| ≤ δ * (|x| + η)

/-- The errors of the layers: one factor `1 + δ` for every operation that a number goes through, and one `η` for every operation that may underflow. -/
def floatError (δ η : α) (bn : α → α → α → α → α → α) : OpError α where
  lay {κ _} _ l A k :=
    match l, k with
    | .dense kernel bias, o => ((1 + δ) ^ (Fintype.card κ + 2) - 1) * ((∑ t, |kernel t o| * A t) + |bias o| + 2 * (Fintype.card κ + 1) * η)
    | @Lay.linear _ _ _ T _ _ L kernel bias, o =>
      ((1 + δ) ^ (Fintype.card T + 2) - 1) * ((∑ t, |kernel (L.kidx o t)| * (L.src o t).elim 0 A) + |bias o| + 2 * (Fintype.card T + 1) * η)
    | .relu _ _, _ => 0
    | .batchNorm gamma beta mean sd, k => bn (gamma k) (beta k) (mean k) (sd k) (A k)
    | .reshape _, _ => 0
    | .skip, _ => 0
  merge op a b := ((1 + δ) ^ 3 - 1) * (op.size a b + 3 * η)

/-- No operation of a layer can overflow when its inputs are at most `A`.  (BatchNormalization is given by its error and has no operations here.) -/
def Lay.Fits [Fintype κ] (δ η Ω : α) (A : κ → α) : Lay α κ κ' → Prop
  | .dense kernel bias => ∀ o, (1 + δ) ^ (Fintype.card κ + 2) * ((∑ t, |kernel t o| * A t) + |bias o| + 2 * (Fintype.card κ + 1) * η) ≤ Ω
  | @Lay.linear _ _ _ T _ _ L kernel bias => ∀ o,
      (1 + δ) ^ (Fintype.card T + 2) * ((∑ t, |kernel (L.kidx o t)| * (L.src o t).elim 0 A) + |bias o| + 2 * (Fintype.card T + 1) * η) ≤ Ω
  | _ => True

/-- No operation of a network can overflow, for the outputs and for the bounds, when the inputs are at most `A`. -/
def Net.Fits (δ η Ω : α) (bn : α → α → α → α → α → α) (σ : α) (A : ι → α) : {κ : Type} → Net α ι κ → Prop
  | _, .input => True
  | _, @Net.layer _ _ _ _ _ _ _ n l => n.Fits δ η Ω bn σ A ∧ l.Fits δ η Ω (n.sizeWith (floatError δ η bn) σ A)
  | _, .merge op n0 n1 => n0.Fits δ η Ω bn σ A ∧ n1.Fits δ η Ω bn σ A ∧
      ∀ k, (1 + δ) ^ 3 * (2 * op.size (n0.sizeWith (floatError δ η bn) σ A k) (n1.sizeWith (floatError δ η bn) σ A k) + 3 * η) ≤ Ω

end

end Decomon
