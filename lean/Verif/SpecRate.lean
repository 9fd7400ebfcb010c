import Verif.SpecNet

/-!
Specification for the rate of convergence of interval bounds: how a network spreads intervals.
-/

namespace Decomon

section
variable {ι κ κ' α : Type} [Field α] [LinearOrder α]

/-- How a layer spreads intervals of widths `s`: a linear layer by the absolute values of its weights; a ReLU does not. -/
def Lay.spread [Fintype κ] : Lay α κ κ' → (κ → α) → κ' → α
  | .dense kernel _, s => fun o => ∑ t, |kernel t o| * s t
  | @Lay.linear _ _ _ _ _ _ L kernel _, s => fun o =>
    ∑ t, |kernel (L.kidx o t)| * (L.src o t).elim 0 s
  | .relu _ _, s => s
  | .batchNorm gamma _ _ sd, s => fun k => |gamma k| / sd k * s k
  | .reshape e, s => fun k => s (e k)
  | .skip, s => s

/-- The same for the merge layers on two inputs, except `Multiply`. `Maximum` and `Minimum` are computed as `ReLU(y - x) + x`, which uses the
first input twice. -/
def MergeOp.spread (op : MergeOp) (a b : α) : α :=
  match op with
  | .add => a + b
  | .average => (a + b) / 2
  | .subtract => a + b
  | .maximum => 2 * a + b
  | .minimum => 2 * a + b
  | .multiply => 0

/-- The same for a network on a box of widths `s`. -/
def Net.spread (s : ι → α) : {κ : Type} → Net α ι κ → κ → α
  | _, .input => s
  | _, @Net.layer _ _ _ _ _ _ _ n l => l.spread (n.spread s)
  | _, .merge op n0 n1 => fun k => op.spread (n0.spread s k) (n1.spread s k)

/-- Networks that compute an affine function layer by layer: no ReLU, no `Maximum`, no `Minimum`, no `Multiply`. -/
def Lay.IsAffine : Lay α κ κ' → Prop
  | .relu _ _ => False
  | _ => True

def Net.IsAffine : {κ : Type} → Net α ι κ → Prop
  | _, .input => True
  | _, @Net.layer _ _ _ _ _ _ _ n l => n.IsAffine ∧ l.IsAffine
  | _, .merge op n0 n1 => (op = .add ∨ op = .average ∨ op = .subtract) ∧ n0.IsAffine ∧ n1.IsAffine

end

end Decomon
