import Verif.SpecFold

/-!
Specification for the comparison of the backward and the forward bounds.
-/

namespace Decomon

section
variable {ι κ κ' α : Type}

/-- The finetuning parameters of a ReLU are the same in the forward and in the backward layer (without finetuning both are one). -/
def Lay.SameAlpha : Lay α κ κ' → Prop
  | .dense _ _ => True
  | @Lay.linear _ _ _ _ _ _ _ _ _ => True
  | .relu gf gb => gf = gb
  | .batchNorm _ _ _ _ => True
  | .reshape _ => True
  | .skip => True

/-- The finetuning parameters of every ReLU are the same in the forward and in the backward layer. -/
def Net.SameAlpha : {κ : Type} → Net α ι κ → Prop
  | _, .input => True
  | _, @Net.layer _ _ _ _ _ _ _ n l => n.SameAlpha ∧ l.SameAlpha
  | _, .merge _ n0 n1 => n0.SameAlpha ∧ n1.SameAlpha

end

section
variable {ι α : Type} [Field α] [LinearOrder α]

/-- A chain of layers without activation. -/
def Net.PlainChain : {κ : Type} → Net α ι κ → Prop
  | _, .input => True
  | _, @Net.layer _ _ _ _ _ _ _ n l => n.PlainChain ∧ l.Plain
  | _, .merge _ _ _ => False

/-- A chain of layers with at most one activation layer. -/
def Net.OneRelu : {κ : Type} → Net α ι κ → Prop
  | _, .input => True
  | _, @Net.layer _ _ _ _ _ _ _ n l => n.PlainChain ∨ n.OneRelu ∧ l.Plain
  | _, .merge _ _ _ => False

end

section
variable {X Y ι κ α : Type} [Fintype ι] [Field α] [LinearOrder α]

/-- On the set `S` the affine bounds `f` lie between the affine bounds `g`. -/
def InsideOn (S : Set (ι → α)) (f : Full X ι κ α) (g : Full Y ι κ α) : Prop :=
  ∀ p ∈ S, ∀ k, affEval (fun i => g.wl i k) (g.bl k) p ≤ affEval (fun i => f.wl i k) (f.bl k) p ∧
    affEval (fun i => f.wu i k) (f.bu k) p ≤ affEval (fun i => g.wu i k) (g.bu k) p

end

end Decomon
