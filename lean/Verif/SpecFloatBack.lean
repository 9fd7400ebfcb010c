import Verif.SpecTolBack
import Mathlib.Data.Fintype.Card

/-!
Specification for the method `crown` in rounded arithmetic, when one operation has the relative error `δ`: how far the computed bounds of a chain
of layers can be from bounding it.  The slack is known before running: it depends on the weights, on the precision, on `eps` and on the largest
absolute values `X` of the inputs.
-/

namespace Decomon

section
variable {ι κ κ' ν α : Type} [Field α] [LinearOrder α]

/-- Backward bounds of the output `n` are of absolute value at most this, term by term, where the entries of the layer are at most `Y`. -/
def Back.sizeB [Fintype κ] (Y : κ → α) (b : Back κ ν α) (n : ν) : α := (∑ k, max |b.wu k n| |b.wl k n| * Y k) + max |b.bu n| |b.bl n|

/-- The largest weights of the backward tensors of a layer; `BatchNormalization` has the relative error `bn`. -/
def Lay.weightFloat [DecidableEq κ] (δ bn : α) : Lay α κ κ' → κ → κ' → α
  | .relu _ _ => fun i k => if i = k then (1 + δ) ^ 2 / (1 - δ) else 0
  | .batchNorm gamma _ _ sd => fun i k => if i = k then (1 + bn) * (|gamma k| / sd k) else 0
  | l => l.absWeight

/-- The size of the backward tensors of a layer, where its inputs are at most `Y` and their computed bounds are at most `L`. -/
def Lay.sizeFloat [Fintype κ] [DecidableEq κ] (δ bn : α) : Lay α κ κ' → (κ → α) → (κ → α) → κ' → α
  | .dense kernel bias, Y, _ => fun o => (∑ t, |kernel t o| * Y t) + |bias o|
  | @Lay.linear _ _ _ _ _ _ L kernel bias, Y, _ => fun o => (∑ i, (Lay.linear L kernel bias).absWeight i o * Y i) + |bias o|
  | .relu _ _, Y, L => fun k => (1 + δ) ^ 2 / (1 - δ) * Y k + (1 + δ) ^ 4 / (1 - δ) * L k
  | .batchNorm gamma beta mean sd, Y, _ => fun k => (1 + bn) * (|gamma k| / sd k * (Y k + |mean k|) + |beta k|)
  | .reshape e, Y, _ => fun k => Y (e k)
  | .skip, Y, _ => Y

/-- The error of the lines of a layer, when the computed bounds of its inputs have the slack `s`. -/
def Lay.ownFloat (δ eps bn : α) : Lay α κ κ' → (κ → α) → (κ → α) → (κ → α) → κ' → α
  | .relu _ _, Y, L, s => fun k => s k + eps / 4 + ((1 + δ) ^ 2 / (1 - δ) - 1) * Y k + ((1 + δ) ^ 4 / (1 - δ) - 1) * L k
  | .batchNorm gamma beta mean sd, Y, _, _ => fun k => bn * (|gamma k| / sd k * (Y k + |mean k|) + |beta k|)
  | _, _, _, _ => fun _ => 0

/-- What is known in advance about the bounds of a node.  `size`: of its values and of its tensors.  `grow`: the factor by which the bounds of the
layers above can grow on their way to the input.  `top`, `slack`: the same factor and the error for the bounds of the node itself.  `next`: the error
added to the bounds of the layers above, with weights at most `B` and of size `M`. -/
structure CrownFloat (κ α : Type) where
  size : κ → α
  grow : α
  top : α
  slack : κ → α
  next : (κ → α) → α → α

/-- How far the constant bounds computed from the backward bounds can be from enclosing the node: a sum over the `m` inputs of the model. -/
def CrownFloat.range (c : CrownFloat κ α) (δ : α) (m : ℕ) (k : κ) : α := c.slack k + ((1 + δ) ^ (m + 2) - 1) * (c.top * c.size k)

/-- The error of the bounds of a combination of the entries of the node with the coefficients `C`. -/
def CrownFloat.rangeBack [Fintype κ] (c : CrownFloat κ α) (δ : α) (m : ℕ) (C : κ → α) : α :=
  c.next (fun k => |C k|) (∑ k, |C k| * c.size k) + ((1 + δ) ^ (m + 2) - 1) * (c.grow * ∑ k, |C k| * c.size k)

/-- The data of every node of a chain. -/
def Net.crownFloat [Fintype ι] (δ eps bn : α) (X : ι → α) : {κ : Type} → Net α ι κ → CrownFloat κ α
  | _, .input =>
    { size := X
      grow := (1 + δ) ^ (Fintype.card ι + 2)
      top := 1
      slack := fun _ => 0
      next := fun _ M => ((1 + δ) ^ (Fintype.card ι + 2) - 1) * M }
  | κ', @Net.layer _ _ _ _ _ _ _ n l =>
    let below := n.crownFloat δ eps bn X
    let L := fun k => (1 + δ) ^ (Fintype.card ι + 2) * (below.top * below.size k)
    let own := l.ownFloat δ eps bn below.size L (below.range δ (Fintype.card ι))
    let size := l.sizeFloat δ bn below.size L
    let G := (1 + δ) ^ (Fintype.card κ' + 2)
    { size := size
      grow := G * below.grow
      top := below.grow
      slack := fun k => own k + below.next (fun i => l.weightFloat δ bn i k) (size k)
      next := fun B M => (∑ k, B k * own k) + (G - 1) * M + below.next (fun i => G * ∑ k, l.weightFloat δ bn i k * B k) (G * M) }
  | _, .merge _ _ _ => ⟨fun _ => 0, 0, 0, fun _ => 0, fun _ _ => 0⟩

end

end Decomon
