import Verif.SpecIbp
import Verif.SpecBack
import Verif.Model.AnyNet
import Verif.Lemmas.Network

/-!
The exceptions of C128: the neurons on which the lines of one activation are wrong, described by the interval that the activation is given.
-/

namespace Decomon

/-- The intervals on which the lines of an activation are right: for sigmoid, tanh and softsign a point, or a wide interval that does not
meet zero (C18); for the exponential a point or a wide interval (C21); for softplus none (C20). -/
def SmoothAct.GoodOn (eps l u : ℝ) : SmoothAct → Prop
  | .sigmoid | .tanh | .softsign => OneSided eps l u
  | .exponential => l = u ∨ eps ≤ u - l
  | .softplus => False

section
variable {X ι : Type}

/-- No activation of the network is given an interval on which its lines are wrong. -/
def RNet.Good (D : PertDomain X ι ℝ) (m : Mode) (eps : ℝ) (slope : Slope) (inp : Full X ι ι ℝ) : {κ : Type} → RNet ι κ → Prop
  | _, .input => True
  | _, @RNet.layer _ _ _ _ n l => n.Good D m eps slope inp ∧ l.SliverOK D m eps (n.forwardIn D m eps slope inp)
  | _, .act a n => n.Good D m eps slope inp ∧ (getAffine m = true → ∀ k,
      a.GoodOn eps (((n.forwardIn D m eps slope inp).tighten D m true true).lc k) (((n.forwardIn D m eps slope inp).tighten D m true true).uc k))
  | _, .pool _ _ n => n.Good D m eps slope inp
  | _, .merge op _ n0 ns => n0.Good D m eps slope inp ∧ (∀ i, (ns i).Good D m eps slope inp) ∧
      match op with
      | .maximum => FoldSliverFree D m eps (n0.forwardIn D m eps slope inp) (List.ofFn fun i => (ns i).forwardIn D m eps slope inp)
      | .minimum => FoldSliverFree D m eps (minusT D m (n0.forwardIn D m eps slope inp))
          ((List.ofFn fun i => (ns i).forwardIn D m eps slope inp).map (minusT D m))
      | _ => True
  | _, .subtract n0 n1 => n0.Good D m eps slope inp ∧ n1.Good D m eps slope inp
  | _, .concat _ ns => ∀ j, (ns j).Good D m eps slope inp
  | _, @RNet.dot _ _ _ _ _ _ _ _ _ n0 n1 => n0.Good D m eps slope inp ∧ n1.Good D m eps slope inp

/-- No activation of the network is softplus. -/
def RNet.NoSoftplus : {κ : Type} → RNet ι κ → Prop
  | _, .input => True
  | _, @RNet.layer _ _ _ _ n _ => n.NoSoftplus
  | _, .act a n => a ≠ .softplus ∧ n.NoSoftplus
  | _, .pool _ _ n => n.NoSoftplus
  | _, .merge _ _ n0 ns => n0.NoSoftplus ∧ ∀ i, (ns i).NoSoftplus
  | _, .subtract n0 n1 => n0.NoSoftplus ∧ n1.NoSoftplus
  | _, .concat _ ns => ∀ j, (ns j).NoSoftplus
  | _, @RNet.dot _ _ _ _ _ _ _ _ _ n0 n1 => n0.NoSoftplus ∧ n1.NoSoftplus

end

end Decomon
