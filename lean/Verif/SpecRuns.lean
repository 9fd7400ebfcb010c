import Verif.SpecDrift
import Mathlib.Data.Fintype.Card

/-!
Specification for computations that are not exact: every layer may return numbers that differ from those of its formula, by an amount that
depends on the layer and on the size of its inputs (rounding, another order of the sums, another algorithm, lower precision).
-/

namespace Decomon

/-- How far the numbers returned by a layer can be from those of its formula, given the absolute values of the inputs. -/
structure OpError (α : Type) where
  lay : {κ κ' : Type} → [Fintype κ] → Lay α κ κ' → (κ → α) → κ' → α
  merge : MergeOp → α → α → α

section
variable {ι κ κ' α : Type} [Field α] [LinearOrder α]

/-- Larger inputs allow larger errors. -/
structure OpError.Mono (E : OpError α) : Prop where
  lay : ∀ {κ κ' : Type} [Fintype κ] (l : Lay α κ κ') (A B : κ → α), (∀ k, 0 ≤ A k ∧ A k ≤ B k) → ∀ o, E.lay l A o ≤ E.lay l B o
  merge : ∀ (op : MergeOp) (a a' b b' : α), 0 ≤ a → a ≤ a' → 0 ≤ b → b ≤ b' → E.merge op a b ≤ E.merge op a' b'

/-- Errors are not negative: exact computations are allowed. -/
structure OpError.Nonneg (E : OpError α) : Prop where
  lay : ∀ {κ κ' : Type} [Fintype κ] (l : Lay α κ κ') (A : κ → α), (∀ k, 0 ≤ A k) → ∀ o, 0 ≤ E.lay l A o
  merge : ∀ (op : MergeOp) (a b : α), 0 ≤ a → 0 ≤ b → 0 ≤ E.merge op a b

/-- `v` is what the Keras model may return at the input `p`. -/
def Net.Runs (E : OpError α) (p : ι → α) : {κ : Type} → Net α ι κ → (κ → α) → Prop
  | _, .input, v => v = p
  | _, @Net.layer _ _ _ _ _ _ _ n l, v => ∃ w, n.Runs E p w ∧ ∀ k, |v k - l.eval w k| ≤ E.lay l (fun t => |w t|) k
  | _, .merge op n0 n1, v => ∃ w0 w1, n0.Runs E p w0 ∧ n1.Runs E p w1 ∧ ∀ k, |v k - op.eval (w0 k) (w1 k)| ≤ E.merge op |w0 k| |w1 k|

/-- The outputs of a layer, or of a network, are of absolute value at most this when the inputs are at most `A`. -/
def Net.sizeWith (E : OpError α) (σ : α) (A : ι → α) : {κ : Type} → Net α ι κ → κ → α
  | _, .input => A
  | _, @Net.layer _ _ _ _ _ _ _ n l => fun k => l.size id σ (n.sizeWith E σ A) k + E.lay l (n.sizeWith E σ A) k
  | _, .merge op n0 n1 => fun k =>
    op.size (n0.sizeWith E σ A k) (n1.sizeWith E σ A k) + E.merge op (n0.sizeWith E σ A k) (n1.sizeWith E σ A k)

/-- How far the computed outputs can be outside the computed bounds, when the inputs are at most `s` outside the box: what the layer makes of
the distance of its inputs, plus its error for the outputs, plus its error for the bounds. -/
def Net.slackWith (E : OpError α) (σ : α) (A s : ι → α) : {κ : Type} → Net α ι κ → κ → α
  | _, .input => s
  | _, @Net.layer _ _ _ _ _ _ _ n l => fun k =>
    l.drift id 0 σ (n.sizeWith E σ A) (n.slackWith E σ A s) k + 2 * E.lay l (n.sizeWith E σ A) k
  | _, .merge op n0 n1 => fun k =>
    op.drift (n0.sizeWith E σ A k) (n1.sizeWith E σ A k) (n0.slackWith E σ A s k) (n1.slackWith E σ A s k) +
      2 * E.merge op (n0.sizeWith E σ A k) (n1.sizeWith E σ A k)

end

end Decomon
