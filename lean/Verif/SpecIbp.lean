import Verif.SpecNet
import Verif.Model.IbpNet
import Mathlib.Analysis.SpecialFunctions.Log.Basic

/-!
The function computed by a network of `Model/IbpNet.lean`, written without decomon's definitions: only the syntax of networks is taken from
the model.
-/

namespace Decomon

section
variable {ι κ : Type}

/-- The Keras activations. -/
noncomputable def SmoothAct.eval (a : SmoothAct) (z : ℝ) : ℝ :=
  match a with
  | .sigmoid => 1 / (1 + Real.exp (-z))
  | .tanh => Real.tanh z
  | .softsign => z / (1 + |z|)
  | .exponential => Real.exp z
  | .softplus => Real.log (1 + Real.exp z)

/-- The Keras merge layers, entry by entry. -/
noncomputable def NaryOp.eval (op : NaryOp) {r : ℕ} (y0 : ℝ) (ys : Fin r → ℝ) : ℝ :=
  match op with
  | .add => y0 + ∑ i, ys i
  | .average => (y0 + ∑ i, ys i) / (r + 1)
  | .maximum => Finset.univ.fold max y0 ys
  | .minimum => Finset.univ.fold min y0 ys
  | .multiply => y0 * ∏ i, ys i

/-- The function computed by a Keras model. -/
noncomputable def RNet.eval (p : ι → ℝ) : {κ : Type} → RNet ι κ → κ → ℝ
  | _, .input => p
  | _, @RNet.layer _ _ _ _ n l => l.eval (n.eval p)
  | _, .act a n => fun k => a.eval (n.eval p k)
  | _, .pool win hw n => fun k => (win k).sup' (hw k) (n.eval p)
  | _, .merge op _ n0 ns => fun k => op.eval (n0.eval p k) fun i => (ns i).eval p k
  | _, .subtract n0 n1 => fun k => n0.eval p k - n1.eval p k
  | _, .concat _ ns => fun k => (ns k.1).eval p k.2
  | _, @RNet.dot _ _ _ _ _ _ _ e0 e1 n0 n1 => fun o => ∑ t, n0.eval p (e0 (t, o.1)) * n1.eval p (e1 (t, o.2))

/-- All the layers are admissible (see `Lay.WF`). -/
def RNet.WF : {κ : Type} → RNet ι κ → Prop
  | _, .input => True
  | _, @RNet.layer _ _ _ _ n l => n.WF ∧ l.WF
  | _, .act _ n => n.WF
  | _, .pool _ _ n => n.WF
  | _, .merge _ _ n0 ns => n0.WF ∧ ∀ i, (ns i).WF
  | _, .subtract n0 n1 => n0.WF ∧ n1.WF
  | _, .concat _ ns => ∀ j, (ns j).WF
  | _, @RNet.dot _ _ _ _ _ _ _ _ _ n0 n1 => n0.WF ∧ n1.WF

end

end Decomon
