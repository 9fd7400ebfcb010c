import Verif.SpecFloatMode
import Verif.SpecRuns
import Verif.SpecSlackGraph

/-!
Specification for the forward methods on Keras graphs in rounded arithmetic: the sizes and the errors of the bounds of every node, and of the value that
Keras computes at the node.  Everything is known before running: it depends on the graph, on the precision and on the largest absolute values of the inputs.
-/

namespace Decomon

section
variable {α : Type} [Field α] [LinearOrder α]

/-- The bounds that a merge layer reads: the constant ones may be tightened by the affine ones in `n` inputs. -/
def ModeErr.read (m : Mode) (δ : α) (n : ℕ) (e : ModeErr α) : ModeErr α := ⟨e.readSize m δ n, e.readSlack m δ n, e.aSize, e.aSlack⟩

/-- One rounded addition. -/
def ModeErr.plus (δ : α) (e e' : ModeErr α) : ModeErr α :=
  ⟨(1 + δ) * (e.cSize + e'.cSize), e.cSlack + e'.cSlack + δ * (e.cSize + e'.cSize),
    (1 + δ) * (e.aSize + e'.aSize), e.aSlack + e'.aSlack + δ * (e.aSize + e'.aSize)⟩

/-- One rounded division by `c`. -/
def ModeErr.over (δ c : α) (e : ModeErr α) : ModeErr α :=
  ⟨(1 + δ) * (e.cSize / c), e.cSlack / c + δ * (e.cSize / c), (1 + δ) * (e.aSize / c), e.aSlack / c + δ * (e.aSize / c)⟩

/-- The merge layers on any number of inputs: sums are computed from the left; `Maximum` and `Minimum` take one ReLU of a difference for every input
after the first. -/
def NaryOp.modeErr (m : Mode) (δ eps : α) (n : ℕ) (op : NaryOp) (e0 : ModeErr α) (es : List (ModeErr α)) : ModeErr α :=
  match op with
  | .add => (es.map (ModeErr.read m δ n)).foldl (ModeErr.plus δ) (e0.read m δ n)
  | .average => ((es.map (ModeErr.read m δ n)).foldl (ModeErr.plus δ) (e0.read m δ n)).over δ (es.length + 1)
  | .maximum | .minimum => es.foldl (fun a b => MergeOp.maximum.modeErr m δ eps n a b) e0
  | .multiply => ⟨0, 0, 0, 0⟩

/-- What is known in advance about the value that Keras computes for one entry: its size and its distance from the exact value. -/
structure CallErr (α : Type) where
  size : α
  err : α

/-- One rounded addition. -/
def CallErr.plus (δ : α) (e e' : CallErr α) : CallErr α := ⟨(1 + δ) * (e.size + e'.size), e.err + e'.err + δ * (e.size + e'.size)⟩

/-- One rounded division by `c`. -/
def CallErr.over (δ c : α) (e : CallErr α) : CallErr α := ⟨(1 + δ) * (e.size / c), e.err / c + δ * (e.size / c)⟩

/-- The larger or the smaller of two values. -/
def CallErr.join (e e' : CallErr α) : CallErr α := ⟨max e.size e'.size, max e.err e'.err⟩

/-- The layers, when the call of a layer has the error `E`; the standard deviations are at least `σ`. -/
def Lay.callErr {κ κ' : Type} [Fintype κ] (E : OpError α) (σ : α) (l : Lay α κ κ') (e : κ → CallErr α) (k : κ') : CallErr α :=
  ⟨l.size id σ (fun j => (e j).size) k + E.lay l (fun j => (e j).size) k,
    l.drift id 0 σ (fun j => (e j).size) (fun j => (e j).err) k + E.lay l (fun j => (e j).size) k⟩

/-- The merge layers on any number of inputs. -/
def NaryOp.callErr (δ : α) (op : NaryOp) (e0 : CallErr α) (es : List (CallErr α)) : CallErr α :=
  match op with
  | .add => es.foldl (CallErr.plus δ) e0
  | .average => (es.foldl (CallErr.plus δ) e0).over δ (es.length + 1)
  | .maximum | .minimum => es.foldl CallErr.join e0
  | .multiply => ⟨0, 0⟩

end

/-- The forward factor of a ReLU is the one of the code (1). -/
def Lay.PlainRelu {α κ κ' : Type} [Field α] [LinearOrder α] : Lay α κ κ' → Prop
  | .relu gf _ => ∀ k, gf k = 1
  | _ => True

/-- The layers with one input: `MaxPooling2D` reads constant bounds and takes the largest size and the largest error of the window. -/
noncomputable def Step.modeErr (m : Mode) (δ eps bn : ℝ) (n : ℕ) {a b : List ℕ} : Step a b → (Idx a → ModeErr ℝ) → Idx b → ModeErr ℝ
  | .lay l, e => l.modeErr m δ eps bn n e
  | .act _, _ => fun _ => ⟨0, 0, 0, 0⟩
  | .pool win hw, e => fun k =>
    ⟨(win k).sup' (hw k) fun j => (e j).readSize m δ n, (win k).sup' (hw k) fun j => (e j).readSlack m δ n,
      (win k).sup' (hw k) fun j => (e j).readSize m δ n, (win k).sup' (hw k) fun j => (e j).readSlack m δ n⟩

/-- The call of the layers with one input. -/
noncomputable def Step.callErr (E : OpError ℝ) (σ : ℝ) {a b : List ℕ} : Step a b → (Idx a → CallErr ℝ) → Idx b → CallErr ℝ
  | .lay l, e => l.callErr E σ e
  | .act _, _ => fun _ => ⟨0, 0⟩
  | .pool win hw, e => fun k => ⟨(win k).sup' (hw k) fun j => (e j).size, (win k).sup' (hw k) fun j => (e j).err⟩

/-- Every standard deviation of the layer is at least `σ`. -/
def Step.SdAbove (σ : ℝ) {a b : List ℕ} : Step a b → Prop
  | .lay l => l.SdAbove σ
  | _ => True

section
variable {n : ℕ}

/-- The nodes, when the inputs are at most `X` in absolute value: the input nodes are exact. -/
noncomputable def KOp.modeErr (m : Mode) (δ eps bn : ℝ) (X : Idx [n] → ℝ) :
    {as : List (List ℕ)} → {b : List ℕ} → KOp n as b → HList (fun s => Idx s → ModeErr ℝ) as → Idx b → ModeErr ℝ
  | _, _, .input, _ => fun i => ⟨X i, 0, X i, 0⟩
  | _, _, .layer l, .cons e _ => l.modeErr m δ eps bn (Fintype.card (Idx [n])) e
  | _, _, .merge op _ r, .cons e t => fun k => op.modeErr m δ eps (Fintype.card (Idx [n])) (e k) (List.ofFn fun i => t.rep r i k)
  | _, _, .subtract _, .cons e (.cons e' _) => fun k => (e k).add m δ (Fintype.card (Idx [n])) (e' k)
  | _, _, .concat _ _ _ pos, es => fun k => (es.get (pos k).1 (pos k).2).read m δ (Fintype.card (Idx [n]))
  | _, _, @KOp.dot _ _ _ _ _ _ _ _ _ _ _, _ => fun _ => ⟨0, 0, 0, 0⟩

/-- `e` gives the sizes and the errors of the bounds of all the nodes of the graph. -/
def KGraph.IsErr (m : Mode) (δ eps bn : ℝ) (X : Idx [n] → ℝ) (G : KGraph n) (order : List ℕ) (e : (v : ℕ) → Idx (G.sh v) → ModeErr ℝ) : Prop :=
  ∀ v ∈ order, e v = (G.op v).modeErr m δ eps bn X (HList.ofNodes e (G.parents v))

/-- The calls of the nodes. -/
noncomputable def KOp.callErr (E : OpError ℝ) (δ σ : ℝ) (X : Idx [n] → ℝ) :
    {as : List (List ℕ)} → {b : List ℕ} → KOp n as b → HList (fun s => Idx s → CallErr ℝ) as → Idx b → CallErr ℝ
  | _, _, .input, _ => fun i => ⟨X i, 0⟩
  | _, _, .layer l, .cons e _ => l.callErr E σ e
  | _, _, .merge op _ r, .cons e t => fun k => op.callErr δ (e k) (List.ofFn fun i => t.rep r i k)
  | _, _, .subtract _, .cons e (.cons e' _) => fun k => (e k).plus δ (e' k)
  | _, _, .concat _ _ _ pos, es => fun k => es.get (pos k).1 (pos k).2
  | _, _, @KOp.dot _ _ _ _ _ _ _ _ _ _ _, _ => fun _ => ⟨0, 0⟩

/-- `e` gives the sizes and the errors of the values of all the nodes of the graph. -/
def KGraph.IsCallErr (E : OpError ℝ) (δ σ : ℝ) (X : Idx [n] → ℝ) (G : KGraph n) (order : List ℕ) (e : (v : ℕ) → Idx (G.sh v) → CallErr ℝ) : Prop :=
  ∀ v ∈ order, e v = (G.op v).callErr E δ σ X (HList.ofNodes e (G.parents v))

/-- Every standard deviation of the node is at least `σ`. -/
def KOp.SdAbove (σ : ℝ) : {as : List (List ℕ)} → {b : List ℕ} → KOp n as b → Prop
  | _, _, .layer l => l.SdAbove σ
  | _, _, _ => True

/-- The node is not a ReLU with another factor. -/
def KOp.PlainRelu : {as : List (List ℕ)} → {b : List ℕ} → KOp n as b → Prop
  | _, _, .layer (.lay l) => l.PlainRelu
  | _, _, _ => True

end

end Decomon
