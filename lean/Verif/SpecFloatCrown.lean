import Verif.SpecFloatBack
import Verif.SpecFloatMode

/-!
Specification for the methods `crown-forward-ibp`, `crown-forward-affine` and `crown-forward-hybrid` in rounded arithmetic: the data of every node of a
chain, as for the method `crown`, when the bounds of the inputs of the layers come from a forward pass in the same arithmetic.
-/

namespace Decomon

section
variable {ι κ α : Type} [Field α] [LinearOrder α]

/-- The data of every node of a chain.  In modes affine and hybrid the bounds of the input node are merged once more with the identity (`Fuse`). -/
def Net.crownFwdFloat [Fintype ι] (m : Mode) (δ eps bn : α) (X : ι → α) : {κ : Type} → Net α ι κ → CrownFloat κ α
  | _, .input =>
    let G := (1 + δ) ^ (Fintype.card ι + 2)
    let top := if m = .ibp then 1 else G
    { size := X
      grow := G * top
      top := top
      slack := fun i => (top - 1) * X i
      next := fun _ M => (G * top - 1) * M }
  | κ', @Net.layer _ _ _ _ _ _ _ n l =>
    let below := n.crownFwdFloat m δ eps bn X
    let L := fun k => (n.modeErr m δ eps bn X k).readSize m δ (Fintype.card ι)
    let own := l.ownFloat δ eps bn below.size L fun k => (n.modeErr m δ eps bn X k).readSlack m δ (Fintype.card ι)
    let size := l.sizeFloat δ bn below.size L
    let G := (1 + δ) ^ (Fintype.card κ' + 2)
    { size := size
      grow := G * below.grow
      top := below.grow
      slack := fun k => own k + below.next (fun i => l.weightFloat δ bn i k) (size k)
      next := fun B M => (∑ k, B k * own k) + (G - 1) * M + below.next (fun i => G * ∑ k, l.weightFloat δ bn i k * B k) (G * M) }
  | _, .merge _ _ _ => ⟨fun _ => 0, 0, 0, fun _ => 0, fun _ _ => 0⟩

/-- How far the score that `get_adv_box` computes for two outputs can be from bounding their difference, with `n` inputs. -/
def CrownFloat.score (d : CrownFloat κ α) (δ : α) (n : ℕ) (j c : κ) : α :=
  d.slack j + d.slack c + ((1 + δ) ^ (n + 3) - 1) * (d.top * d.size j + d.top * d.size c)

end

end Decomon
