import Verif.SpecNet
import Verif.SpecPipeline

/-!
The expression read off a Keras graph by writing every node once per use.  It is a relation between syntaxes: nothing is said about bounds.
-/

namespace Decomon

/-- The merge layer on two inputs of a merge layer on any number of inputs. -/
def NaryOp.two : NaryOp → MergeOp
  | .add => .add
  | .average => .average
  | .maximum => .maximum
  | .minimum => .minimum
  | .multiply => .multiply

section
variable {n : ℕ}

/-- `N` is the expression of a node whose parents have the expressions given: for the input, the layers of `Model/Network.lean`, the merge layers
on two inputs. -/
def KOp.IsNet : {as : List (List ℕ)} → {b : List ℕ} → KOp n as b → HList (fun s => Net ℝ (Idx [n]) (Idx s)) as → Net ℝ (Idx [n]) (Idx b) → Prop
  | _, _, .input, _, N => N = .input
  | _, _, .layer (.lay l), .cons N0 _, N => N = .layer N0 l
  | _, _, .merge op _ r, .cons N0 t, N => ∃ h : r = 1, N = .merge op.two N0 (t.rep r ⟨0, by omega⟩)
  | _, _, .subtract _, .cons N0 (.cons N1 _), N => N = .merge .subtract N0 N1
  | _, _, _, _, _ => False

/-- `N` gives the expressions of all the nodes of the graph. -/
def KGraph.IsNet (G : KGraph n) (order : List ℕ) (N : (v : ℕ) → Net ℝ (Idx [n]) (Idx (G.sh v))) : Prop :=
  ∀ v ∈ order, (G.op v).IsNet (HList.ofNodes N (G.parents v)) (N v)

/-- The node is of one of these kinds. -/
def KOp.InNet : {as : List (List ℕ)} → {b : List ℕ} → KOp n as b → Prop
  | _, _, .input => True
  | _, _, .layer (.lay _) => True
  | _, _, .merge _ _ r => r = 1
  | _, _, .subtract _ => True
  | _, _, _ => False

/-- The node is the input or a layer of `Model/Network.lean`. -/
def KOp.InChain : {as : List (List ℕ)} → {b : List ℕ} → KOp n as b → Prop
  | _, _, .input => True
  | _, _, .layer (.lay _) => True
  | _, _, _ => False

/-- The node does not multiply its inputs. -/
def KOp.NotMultiply : {as : List (List ℕ)} → {b : List ℕ} → KOp n as b → Prop
  | _, _, .merge op _ _ => op ≠ .multiply
  | _, _, _ => True

end

end Decomon
