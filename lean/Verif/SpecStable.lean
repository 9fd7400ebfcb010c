import Verif.SpecNet

/-!
Specification for regions on which the activations of a network do not switch.
-/

namespace Decomon

section
variable {ι κ κ' α : Type} [Field α] [LinearOrder α]

/-- No neuron of a ReLU layer changes sign on the set `T` of inputs of the layer. -/
def Lay.KeepsSign (T : Set (κ → α)) : Lay α κ κ' → Prop
  | .relu _ _ => ∀ k, (∀ v ∈ T, 0 ≤ v k) ∨ ∀ v ∈ T, v k ≤ 0
  | _ => True

/-- The same input of a `Maximum` or `Minimum` layer is the greater one on all of `S`.  A `Multiply` layer is excluded. -/
def MergeOp.KeepsOrder (S : Set (ι → α)) (y0 y1 : (ι → α) → κ → α) : MergeOp → Prop
  | .maximum | .minimum => ∀ k, (∀ p ∈ S, y0 p k ≤ y1 p k) ∨ ∀ p ∈ S, y1 p k ≤ y0 p k
  | .multiply => False
  | _ => True

/-- No activation of the network switches on the set `S` of inputs. -/
def Net.Stable (S : Set (ι → α)) : {κ : Type} → Net α ι κ → Prop
  | _, .input => True
  | _, @Net.layer _ _ _ _ _ _ _ n l => n.Stable S ∧ l.KeepsSign ((fun p => n.eval p) '' S)
  | _, .merge op n0 n1 => n0.Stable S ∧ n1.Stable S ∧ op.KeepsOrder S (fun p => n0.eval p) fun p => n1.eval p

/-- The tensors `f` tell exactly what the function `F` does on `S`: the two affine bounds are `F` itself, and `u` and `l` are the greatest and
the least value of `F`. -/
structure ExactOn {X : Type} [Fintype ι] (m : Mode) (S : Set (ι → α)) (f : Full X ι κ α) (F : (ι → α) → κ → α) (u l : κ → α) : Prop where
  aff : getAffine m = true → ∀ p ∈ S, ∀ k, affEval (fun i => f.wu i k) (f.bu k) p = F p k ∧ affEval (fun i => f.wl i k) (f.bl k) p = F p k
  upper : ∀ k, IsGreatest ((fun p => F p k) '' S) (u k)
  lower : ∀ k, IsLeast ((fun p => F p k) '' S) (l k)

end

end Decomon
