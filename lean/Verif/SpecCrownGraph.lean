import Verif.SpecPipeline
import Verif.SpecBack
import Verif.Model.CrownGraph

/-!
Vocabulary for the backward conversion of a graph: the bounds that the backward pass computes from each node, by recursion on the graph and
without the dictionaries of the code, so that conditions can be asked of the bounds that reach the activations.
-/

namespace Decomon

/-- What the backward pass returns when it starts from a node of shape `s`: without backward bounds (`first`), or with the bounds of the layers
above (`next`). -/
structure GNode (n : ℕ) (s : List ℕ) where
  first : Except PyErr (Back (Idx [n]) (Idx s) ℝ)
  next : (c : List ℕ) → Back (Idx s) (Idx c) ℝ → Except PyErr (Back (Idx [n]) (Idx c) ℝ)

section
variable {X : Type} {n : ℕ}

/-- The backward pass from a node, given for its parents the backward pass from them and the bounds of their output. -/
noncomputable def KOp.node (D : PertDomain X (Idx [n]) ℝ) (m : Mode) (eps : ℝ) (slope : Slope) (inp : Full X (Idx [n]) (Idx [n]) ℝ) :
    {as : List (List ℕ)} → {b : List ℕ} → KOp n as b →
      HList (fun s => GNode n s × Except PyErr (Full X (Idx [n]) (Idx s) ℝ)) as → GNode n b
  | _, _, .input, _ => ⟨.ok (fuse m inp Back.identity), fun _ b => .ok (fuse m inp (mergeWithPrevious Back.identity b))⟩
  | _, b, .layer l, .cons w _ =>
    ⟨(w.2.bind (l.back D m eps slope)).bind (w.1.next b), fun c B => (w.2.bind (l.back D m eps slope)).bind fun B0 => w.1.next c (mergeWithPrevious B0 B)⟩
  | _, _, _, _ => ⟨.error .notImplemented, fun _ _ => .error .notImplemented⟩

/-- The bounds of the output of a node that its children receive: those of the forward pass `fw` if there is one, or else the result of the
backward pass from the node. -/
noncomputable def crownOut (D : PertDomain X (Idx [n]) ℝ) (stack : (Idx [n] → ℝ) → (Idx [n] → ℝ) → X) (m : Mode)
    (inp : Full X (Idx [n]) (Idx [n]) ℝ) {s : List ℕ} (fw : Option (Full X (Idx [n]) (Idx s) ℝ)) (w : GNode n s) :
    Except PyErr (Full X (Idx [n]) (Idx s) ℝ) :=
  match fw with
  | some f => .ok f
  | none => w.first.map (convert2BackwardMode D stack m inp)

/-- `fw` gives the bounds of a forward pass with the methods `crown-forward-*` (`useForward`), nothing with the method `crown`. -/
def KGraph.IsForward (D : PertDomain X (Idx [n]) ℝ) (m : Mode) (eps : ℝ) (slope : Slope) (useForward : Bool)
    (inp : Full X (Idx [n]) (Idx [n]) ℝ) (G : KGraph n) (order : List ℕ) (fw : (v : ℕ) → Option (Full X (Idx [n]) (Idx (G.sh v)) ℝ)) : Prop :=
  if useForward then ∃ f, G.IsBounds D m eps slope inp order f ∧ ∀ v ∈ order, fw v = some (f v) else ∀ v, fw v = none

/-- `w` gives the backward pass from every node of the graph. -/
def KGraph.IsCrown (D : PertDomain X (Idx [n]) ℝ) (stack : (Idx [n] → ℝ) → (Idx [n] → ℝ) → X) (m : Mode) (eps : ℝ) (slope : Slope)
    (inp : Full X (Idx [n]) (Idx [n]) ℝ) (G : KGraph n) (order : List ℕ) (fw : (v : ℕ) → Option (Full X (Idx [n]) (Idx (G.sh v)) ℝ))
    (w : (v : ℕ) → GNode n (G.sh v)) : Prop :=
  ∀ v ∈ order, w v = (G.op v).node D m eps slope inp (HList.ofNodes (fun u => (w u, crownOut D stack m inp (fw u) (w u))) (G.parents v))

/-- The node has a backward layer that can be called: an input, a layer of `Model/Network.lean`, or an s-shaped activation (of rank one
for `sigmoid` and `tanh`, which do not flatten what they receive from a forward pass, see C113). -/
def KOp.HasBack : {as : List (List ℕ)} → {b : List ℕ} → KOp n as b → Prop
  | _, _, .input => True
  | _, _, .layer (.lay _) => True
  | _, b, .layer (.act g) => g.IsSShape ∧ (g = .softsign ∨ b.length = 1)
  | _, _, _ => False

/-- The node is of a kind for which no backward layer can be made or called: a merge layer, a pooling layer, `exponential`. -/
def KOp.NoBack : {as : List (List ℕ)} → {b : List ℕ} → KOp n as b → Prop
  | _, _, .input => False
  | _, _, .layer (.lay _) => False
  | _, _, .layer (.act g) => g = .exponential
  | _, _, _ => True

/-- The node is not an activation that receives bounds on which its lines are wrong: the slivers of `relu`, the intervals that are not
one-sided for the s-shaped activations. -/
def KOp.SafeBack (D : PertDomain X (Idx [n]) ℝ) (m : Mode) (eps : ℝ) :
    {as : List (List ℕ)} → {b : List ℕ} → KOp n as b → HList (fun s => GNode n s × Except PyErr (Full X (Idx [n]) (Idx s) ℝ)) as → Prop
  | _, _, .layer (.lay l), .cons w _ => ∀ f, w.2 = .ok f → l.BackSliverOK D m eps f
  | _, _, .layer (.act _), .cons w _ => ∀ f, w.2 = .ok f → ∀ k,
      OneSided eps ((f.tighten D m true true).lc k) ((f.tighten D m true true).uc k)
  | _, _, _, _ => True

end

end Decomon
