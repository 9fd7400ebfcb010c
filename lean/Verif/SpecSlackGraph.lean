import Verif.SpecSlack
import Verif.SpecPipeline

/-!
Specifications for the error of the bounds of a Keras graph: how every kind of node passes on the errors of its parents, in units of
`keras.config.epsilon()`.  Nothing here depends on the inputs, on the box or on the method.
-/

namespace Decomon

/-- The merge layers on any number of inputs: the errors of a sum add up; `Maximum` and `Minimum` take one ReLU of a difference for every
input after the first. -/
noncomputable def NaryOp.gain (op : NaryOp) {r : ℕ} (s0 : ℝ) (s : Fin r → ℝ) : ℝ :=
  match op with
  | .add => s0 + ∑ i, s i
  | .average => (s0 + ∑ i, s i) / (r + 1)
  | .maximum | .minimum => (List.ofFn s).foldl (fun a b => 2 * (a + b) + 1 / 4 + a) s0
  | .multiply => 0

/-- The layers with one input: `MaxPooling2D` takes the largest error of the window. -/
noncomputable def Step.gain {a b : List ℕ} : Step a b → (Idx a → ℝ) → Idx b → ℝ
  | .lay l, s => l.gain s
  | .act _, _ => fun _ => 0
  | .pool win hw, s => fun k => (win k).sup' (hw k) s

/-- The layer is not a smooth activation. -/
def Step.PieceLinear {a b : List ℕ} : Step a b → Prop
  | .act _ => False
  | _ => True

section
variable {n : ℕ}

/-- The nodes: the input nodes have no error. -/
noncomputable def KOp.gain : {as : List (List ℕ)} → {b : List ℕ} → KOp n as b → HList (fun s => Idx s → ℝ) as → Idx b → ℝ
  | _, _, .input, _ => fun _ => 0
  | _, _, .layer l, .cons s _ => l.gain s
  | _, _, .merge op _ r, .cons s t => fun k => op.gain (s k) fun i => t.rep r i k
  | _, _, .subtract _, .cons s (.cons t _) => fun k => s k + t k
  | _, _, .concat _ _ _ e, ss => fun k => ss.get (e k).1 (e k).2
  | _, _, @KOp.dot _ _ _ _ _ _ _ _ _ _ _, _ => fun _ => 0

/-- The node is piecewise linear: no smooth activation, no `Multiply`, no `Dot`. -/
def KOp.PieceLinear : {as : List (List ℕ)} → {b : List ℕ} → KOp n as b → Prop
  | _, _, .layer l => l.PieceLinear
  | _, _, .merge op _ _ => op ≠ .multiply
  | _, _, @KOp.dot _ _ _ _ _ _ _ _ _ _ _ => False
  | _, _, _ => True

/-- `s` gives the errors of all the nodes of the graph. -/
def KGraph.IsGain (G : KGraph n) (order : List ℕ) (s : (v : ℕ) → Idx (G.sh v) → ℝ) : Prop :=
  ∀ v ∈ order, s v = (G.op v).gain (HList.ofNodes s (G.parents v))

end

end Decomon
