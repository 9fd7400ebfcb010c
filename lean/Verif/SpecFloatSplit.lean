import Verif.Model.Graph
import Verif.SpecFloatCrown
import Verif.SpecFloatMode

/-!
Specification for the refined ranges and scores in rounded arithmetic: what is known in advance about the tensors of a clone, for every method, and what
converting the inputs to the format of the model adds.
-/

namespace Decomon

section
variable {ι κ α : Type} [Field α] [LinearOrder α]

/-- A conversion to another format: it preserves the order and has the relative error `δ`. -/
structure Conversion (cast : α → α) (δ : α) : Prop where
  mono : Monotone cast
  err : ∀ x, |cast x - x| ≤ δ * |x|

/-- The corners of a box after the conversion. -/
def castBox (cast : α → α) (b : (ι → α) × (ι → α)) : (ι → α) × (ι → α) := (fun i => cast (b.1 i), fun i => cast (b.2 i))

/-- Affine bounds of the converted inputs, read at the inputs: the sizes are those of the larger inputs, and the conversion is one more error. -/
def ModeErr.cast (δ : α) (e : ModeErr α) : ModeErr α where
  cSize := e.cSize
  cSlack := e.cSlack
  aSize := e.aSize / (1 - δ)
  aSlack := e.aSlack + δ * (e.aSize / (1 - δ))

/-- The mode of the tensors that a clone returns, by default. -/
def Method.outMode : Method → Mode
  | .crown | .crownForwardIbp | .forwardIbp => .ibp
  | .crownForwardAffine | .forwardAffine => .affine
  | .crownForwardHybrid | .forwardHybrid => .hybrid

/-- The methods that end with a backward pass. -/
def Method.isCrown : Method → Bool
  | .forwardIbp | .forwardAffine | .forwardHybrid => false
  | _ => true

/-- What is known in advance about the tensors made from backward bounds, for a model with `n` inputs. -/
def CrownFloat.out (d : CrownFloat κ α) (δ : α) (n : ℕ) (k : κ) : ModeErr α where
  cSize := (1 + δ) ^ (n + 2) * (d.top * d.size k)
  cSlack := d.range δ n k
  aSize := d.top * d.size k
  aSlack := d.slack k

/-- What is known in advance about the outputs of `clone(model, method)`. -/
def Net.cloneErr [Fintype ι] (method : Method) (δ eps bn : α) (X : ι → α) (n : Net α ι κ) (k : κ) : ModeErr α :=
  match method with
  | .crown => (n.crownFloat δ eps bn X).out δ (Fintype.card ι) k
  | .crownForwardIbp | .crownForwardAffine | .crownForwardHybrid => (n.crownFwdFloat method.outMode δ eps bn X).out δ (Fintype.card ι) k
  | .forwardIbp | .forwardAffine | .forwardHybrid => n.modeErr method.outMode δ eps bn X k

/-- The slack of a range of `get_range_box`, which reads the affine bounds at the box as the user gave it. -/
def Net.cloneRangeSlack [Fintype ι] (method : Method) (δ eps bn : α) (X : ι → α) (n : Net α ι κ) (k : κ) : α :=
  ((n.cloneErr method δ eps bn X k).cast δ).readSlack method.outMode δ (Fintype.card ι)

/-- The slack of a score of `get_adv_box`, which reads the affine bounds at the box that the model returns. -/
def Net.cloneAdvSlack [Fintype ι] (method : Method) (δ eps bn : α) (X : ι → α) (n : Net α ι κ) (j c : κ) : α :=
  (n.cloneErr method δ eps bn X j).score method.outMode δ (Fintype.card ι) (n.cloneErr method δ eps bn X c)

end

end Decomon
