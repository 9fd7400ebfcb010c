import Verif.Spec
import Verif.Model.Network

/-!
Specifications for networks and backward bounds.  Only the syntax of networks (`Lay`, `MergeOp`, `Net`) and of backward bounds
(`Back`) is taken from the model.
-/

namespace Decomon

section
variable {ι κ κ' α : Type*} [Fintype κ] [Field α] [LinearOrder α]

/-- The backward bounds `b` enclose the vector `t` at the vector `y`: `w_l·y + b_l ≤ t ≤ w_u·y + b_u`. -/
def Back.Holds (b : Back κ κ' α) (y : κ → α) (t : κ' → α) : Prop :=
  ∀ k, affEval (fun i => b.wl i k) (b.bl k) y ≤ t k ∧ t k ≤ affEval (fun i => b.wu i k) (b.bu k) y

end

section
variable {ι κ κ' α : Type} [Field α] [LinearOrder α]

/-- The function computed by a Keras layer. -/
def Lay.eval [Fintype κ] : Lay α κ κ' → (κ → α) → κ' → α
  | .dense kernel bias, y => fun o => (∑ t, kernel t o * y t) + bias o
  | @Lay.linear _ _ _ _ _ _ L kernel bias, y => fun o =>
    (∑ t, kernel (L.kidx o t) * (match L.src o t with | none => 0 | some s => y s)) + bias o
  | .relu _ _, y => fun k => max (y k) 0
  | .batchNorm gamma beta mean sd, y => fun k => gamma k * ((y k - mean k) / sd k) + beta k
  | .reshape e, y => fun k => y (e k)
  | .skip, y => y

/-- The function computed by a Keras merge layer on two inputs. -/
def MergeOp.eval (op : MergeOp) (a b : α) : α :=
  match op with
  | .add => a + b
  | .average => (a + b) / 2
  | .subtract => a - b
  | .maximum => max a b
  | .minimum => min a b
  | .multiply => a * b

/-- The function computed by a Keras model. -/
def Net.eval (p : ι → α) : {κ : Type} → Net α ι κ → κ → α
  | _, .input => p
  | _, @Net.layer _ _ _ _ _ _ _ n l => l.eval (n.eval p)
  | _, .merge op n0 n1 => fun k => op.eval (n0.eval p k) (n1.eval p k)

/-- The parameters of a layer are admissible: finetuning variables in `[0,1]` (the constraint `ClipAlpha`), positive standard
deviation. -/
def Lay.WF : Lay α κ κ' → Prop
  | .dense _ _ => True
  | @Lay.linear _ _ _ _ _ _ _ _ _ => True
  | .relu gf gb => ∀ k, (0 ≤ gf k ∧ gf k ≤ 1) ∧ 0 ≤ gb k ∧ gb k ≤ 1
  | .batchNorm _ _ _ sd => ∀ k, 0 < sd k
  | .reshape _ => True
  | .skip => True

/-- All the layers of the network are admissible. -/
def Net.WF : {κ : Type} → Net α ι κ → Prop
  | _, .input => True
  | _, @Net.layer _ _ _ _ _ _ _ n l => n.WF ∧ l.WF
  | _, .merge _ n0 n1 => n0.WF ∧ n1.WF

/-- No merge layer: the network is a chain of layers. -/
def Net.Chain : {κ : Type} → Net α ι κ → Prop
  | _, .input => True
  | _, @Net.layer _ _ _ _ _ _ _ n _ => n.Chain
  | _, .merge _ _ _ => False

/-- The merge layers of the network. -/
def Net.mergeOps : {κ : Type} → Net α ι κ → List MergeOp
  | _, .input => []
  | _, @Net.layer _ _ _ _ _ _ _ n _ => n.mergeOps
  | _, .merge op n0 n1 => op :: (n0.mergeOps ++ n1.mergeOps)

/-- The merge layer that is met first from the output. -/
def Net.lastMerge : {κ : Type} → Net α ι κ → Option MergeOp
  | _, .input => none
  | _, @Net.layer _ _ _ _ _ _ _ n _ => n.lastMerge
  | _, .merge op _ _ => some op

end

end Decomon
