import Verif.SpecAny
import Verif.Model.Pipeline

/-!
The function computed by a Keras graph, node by node, and the exceptions of C131, written without the definitions of the conversion: only the
syntax of graphs is taken from the model.
-/

namespace Decomon

/-- The function of a Keras layer with one input. -/
noncomputable def Step.eval {a b : List ℕ} : Step a b → (Idx a → ℝ) → Idx b → ℝ
  | .lay l, y => l.eval y
  | .act g, y => fun k => g.eval (y k)
  | .pool win hw, y => fun k => (win k).sup' (hw k) y

/-- The layer is admissible (see `Lay.WF`). -/
def Step.WF {a b : List ℕ} : Step a b → Prop
  | .lay l => l.WF
  | .act _ => True
  | .pool _ _ => True

section
variable {n : ℕ}

/-- The function of a node of the graph, from the values of its parents; the input nodes have the value `p`. -/
noncomputable def KOp.eval (p : Idx [n] → ℝ) : {as : List (List ℕ)} → {b : List ℕ} → KOp n as b → HList (fun s => Idx s → ℝ) as → Idx b → ℝ
  | _, _, .input, _ => p
  | _, _, .layer l, .cons y _ => l.eval y
  | _, _, .merge op _ r, .cons y t => fun k => op.eval (y k) fun i => t.rep r i k
  | _, _, .subtract _, .cons y (.cons z _) => fun k => y k - z k
  | _, _, .concat _ _ _ e, ys => fun k => ys.get (e k).1 (e k).2
  | _, _, @KOp.dot _ _ _ _ _ _ _ _ e0 e1 e, .cons y (.cons z _) => fun k => ∑ t, y (e0 (t, (e k).1)) * z (e1 (t, (e k).2))

/-- The layers of the node are admissible. -/
def KOp.WF : {as : List (List ℕ)} → {b : List ℕ} → KOp n as b → Prop
  | _, _, .layer l => l.WF
  | _, _, _ => True

/-- `y` gives the values of all the nodes of the Keras graph for the input `p`. -/
def KGraph.IsValue (G : KGraph n) (p : Idx [n] → ℝ) (order : List ℕ) (y : (v : ℕ) → Idx (G.sh v) → ℝ) : Prop :=
  ∀ v ∈ order, y v = (G.op v).eval p (HList.ofNodes y (G.parents v))

end

section
variable {X ι : Type}

/-- The layer is not an activation that is given an interval on which its lines are wrong (see `RNet.Good`). -/
def Step.Good (D : PertDomain X ι ℝ) (m : Mode) (eps : ℝ) {a b : List ℕ} : Step a b → Full X ι (Idx a) ℝ → Prop
  | .lay l, f => l.SliverOK D m eps f
  | .act g, f => getAffine m = true → ∀ k, g.GoodOn eps ((f.tighten D m true true).lc k) ((f.tighten D m true true).uc k)
  | .pool _ _, _ => True

/-- The layer is not softplus. -/
def Step.NoSoftplus {a b : List ℕ} : Step a b → Prop
  | .act g => g ≠ .softplus
  | _ => True

variable {n : ℕ}

/-- The same for a node. -/
def KOp.Good (D : PertDomain X (Idx [n]) ℝ) (m : Mode) (eps : ℝ) :
    {as : List (List ℕ)} → {b : List ℕ} → KOp n as b → HList (fun s => Full X (Idx [n]) (Idx s) ℝ) as → Prop
  | _, _, .layer l, .cons f _ => l.Good D m eps f
  | _, _, .merge .maximum _ r, .cons f t => FoldSliverFree D m eps f (List.ofFn (t.rep r))
  | _, _, .merge .minimum _ r, .cons f t => FoldSliverFree D m eps (minusT D m f) ((List.ofFn (t.rep r)).map (minusT D m))
  | _, _, _, _ => True

/-- `f` gives the tensors unpacked from every node of the converted model, so that `KOp.Good` can be asked of them. -/
def KGraph.IsBounds (D : PertDomain X (Idx [n]) ℝ) (m : Mode) (eps : ℝ) (slope : Slope) (inp : Full X (Idx [n]) (Idx [n]) ℝ) (G : KGraph n)
    (order : List ℕ) (f : (v : ℕ) → Full X (Idx [n]) (Idx (G.sh v)) ℝ) : Prop :=
  ∀ v ∈ order, f v = ((G.op v).forward D m eps slope inp (HList.ofNodes f (G.parents v))).carried m inp.x

/-- The same for a node. -/
def KOp.NoSoftplus : {as : List (List ℕ)} → {b : List ℕ} → KOp n as b → Prop
  | _, _, .layer l => l.NoSoftplus
  | _, _, _ => True

end

end Decomon
