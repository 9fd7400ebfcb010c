import Verif.SpecNet

/-!
Specification for the continuity of the bounds: the points where the relaxation of a ReLU jumps.
-/

namespace Decomon

section
variable {ι κ κ' α : Type} [Field α] [LinearOrder α]

/-- The bounds `l ≤ u` of the input of a ReLU between which the lower line of the option `slope` jumps: the two candidates leave the same area
(`volume-slope`, `adaptative-slope`), the neuron is about to become active while the lower line is zero (`zero-lb`), or about to become inactive
while the lower line is the identity (`one-lb`).  The line of `same-slope` never jumps. -/
def Slope.Tied : Slope → α → α → Prop
  | .vSlope, u, l | .aSlope, u, l => u + l = 0
  | .zSlope, _, l => l = 0
  | .oSlope, u, _ => u = 0
  | .sSlope, _, _ => False

/-- A ReLU neuron whose input is in `[l, u]` is steady: strictly active, strictly inactive, or with a range wider than `eps` that is not tied. -/
def Steady (eps : α) (slope : Slope) (u l : α) : Prop := 0 < l ∨ (l < 0 ∧ u < 0) ∨ (eps < u - l ∧ ¬ slope.Tied u l)

/-- `P slope n` holds for the input `n` of every ReLU of the network, with its slope.  `Maximum` and `Minimum` contain a ReLU of the difference
of their inputs, with the default slope. -/
def Net.EachRelu (slope : Slope) (P : {κ : Type} → Slope → Net α ι κ → Prop) : {κ : Type} → Net α ι κ → Prop
  | _, .input => True
  | _, @Net.layer _ _ _ _ _ _ _ n l => n.EachRelu slope P ∧ match l with
    | .relu _ _ => P slope n
    | _ => True
  | _, .merge op n0 n1 => n0.EachRelu slope P ∧ n1.EachRelu slope P ∧ match op with
    | .maximum => P .vSlope (.merge .subtract n1 n0)
    | .minimum => P .vSlope (.merge .subtract n0 n1)
    | _ => True

/-- No ReLU layer has finetuning variables. -/
def Lay.NoFinetune : Lay α κ κ' → Prop
  | .relu gf gb => ∀ k, gf k = 1 ∧ gb k = 1
  | _ => True

def Net.NoFinetune : {κ : Type} → Net α ι κ → Prop
  | _, .input => True
  | _, @Net.layer _ _ _ _ _ _ _ n l => n.NoFinetune ∧ l.NoFinetune
  | _, .merge _ n0 n1 => n0.NoFinetune ∧ n1.NoFinetune

end

end Decomon
