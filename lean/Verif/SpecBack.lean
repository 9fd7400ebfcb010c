import Verif.SpecIbp
import Verif.SpecTight
import Verif.Model.BackAct
import Verif.Lemmas.Network

/-!
Vocabulary for the backward pass through activations: the intervals on which the relaxation of an s-shaped function is right, and the
function computed by a chain of layers.  Only the syntax of networks and the bounds that reach a layer are taken from the model.
-/

namespace Decomon

/-- An interval that is a point, or that is at least `eps` wide and does not meet zero. -/
def OneSided (eps l u : ℝ) : Prop := l = u ∨ (eps ≤ u - l ∧ (0 < l ∨ u < 0))

/-- The s-shaped activations. -/
def SmoothAct.IsSShape : SmoothAct → Prop
  | .sigmoid | .tanh | .softsign => True
  | .exponential | .softplus => False

section
variable {X ι κ : Type}

/-- The function computed by a Keras model that is a chain. -/
noncomputable def SNet.eval (p : ι → ℝ) : {κ : Type} → SNet ι κ → κ → ℝ
  | _, .input => p
  | _, @SNet.layer _ _ _ _ _ _ n l => l.eval (n.eval p)
  | _, @SNet.act _ _ _ _ a _ n => fun k => a.eval (n.eval p k)

/-- All the layers are admissible (see `Lay.WF`). -/
def SNet.WF : {κ : Type} → SNet ι κ → Prop
  | _, .input => True
  | _, @SNet.layer _ _ _ _ _ _ n l => n.WF ∧ l.WF
  | _, @SNet.act _ _ _ _ _ _ n => n.WF

/-- All the activations other than `relu` and `linear` are s-shaped. -/
def SNet.OnlySShape : {κ : Type} → SNet ι κ → Prop
  | _, .input => True
  | _, @SNet.layer _ _ _ _ _ _ n _ => n.OnlySShape
  | _, @SNet.act _ _ _ _ a _ n => a.IsSShape ∧ n.OnlySShape

variable [Fintype ι] [DecidableEq ι]

/-- The bounds that reach the activations during the backward pass: one-sided for the s-shaped ones, outside the sliver for `relu`. -/
def CrownCfg.SafeS (c : CrownCfg X ι ℝ) : {κ : Type} → SNet ι κ → Prop
  | _, .input => True
  | _, @SNet.layer _ _ _ _ _ _ n l => c.SafeS n ∧ ∀ f, c.childInputS n (c.nodeS n) = .ok f → l.BackSliverOK c.D c.m c.eps f
  | _, @SNet.act _ _ _ _ _ _ n => c.SafeS n ∧ ∀ f, c.childInputS n (c.nodeS n) = .ok f → ∀ k,
      OneSided c.eps ((f.tighten c.D c.m true true).lc k) ((f.tighten c.D c.m true true).uc k)

end

end Decomon
