import Verif.Model.AnyNet
import Verif.Model.Nested

/-!
Model of `clone(model, method="forward-...")` on a graph of Keras layers, with the lists of tensors that really travel between the nodes:
`get_input_tensors`, the loop over the nodes (`convertFunctionalE` in Model/Nested.lean), the unpacking and the packing of the tensors in every
layer, `Convert2Mode`.  In Model/Network.lean and Model/IbpNet.lean a model is an expression and the tensors are a record.
-/

namespace Decomon

/-- The indices of a tensor of a given shape (the batch axis is left out). -/
abbrev Idx (s : List ℕ) : Type := (i : Fin s.length) → Fin (s.get i)

/-- A tensor of the lists that decomon layers exchange: the empty tensor, the description of the domain, a tensor of shape `s`, the weights of
an affine function of the model inputs `ι` with values of shape `s`. -/
inductive Ten (X ι : Type)
  | empty
  | dom (x : X)
  | vec (s : List ℕ) (t : Idx s → ℝ)
  | mat (s : List ℕ) (t : ι → Idx s → ℝ)

/-- A list of values, one for each element of a list. -/
inductive HList {σ : Type} (F : σ → Type*) : List σ → Type _
  | nil : HList F []
  | cons {s : σ} {l : List σ} (a : F s) (t : HList F l) : HList F (s :: l)

namespace HList
variable {σ : Type} {F : σ → Type*}

/-- Element of a given rank. -/
def get : {l : List σ} → HList F l → (j : Fin l.length) → F (l.get j)
  | _, .cons a _, ⟨0, _⟩ => a
  | _, .cons _ t, ⟨j + 1, h⟩ => t.get ⟨j, Nat.lt_of_succ_lt_succ h⟩

/-- Elements that all belong to the same `s`. -/
def rep {s : σ} : (r : ℕ) → HList F (List.replicate r s) → Fin r → F s
  | _ + 1, .cons a _, ⟨0, _⟩ => a
  | _ + 1, .cons _ t, ⟨j + 1, h⟩ => rep _ t ⟨j, Nat.lt_of_succ_lt_succ h⟩

/-- The values of the nodes of a list. -/
def ofNodes {sh : ℕ → σ} (f : (v : ℕ) → F (sh v)) : (l : List ℕ) → HList F (l.map sh)
  | [] => .nil
  | v :: t => .cons (f v) (ofNodes f t)

end HList

section
variable {X ι : Type}

/-- A layer with one input, from shape `a` to shape `b`. -/
inductive Step : List ℕ → List ℕ → Type 1
  /-- the layers of `Model/Network.lean` -/
  | lay {a b : List ℕ} (l : Lay ℝ (Idx a) (Idx b)) : Step a b
  /-- an activation layer -/
  | act {a : List ℕ} (f : SmoothAct) : Step a a
  /-- `MaxPooling2D` -/
  | pool {a b : List ℕ} (win : Idx b → Finset (Idx a)) (hw : ∀ k, (win k).Nonempty) : Step a b

/-- The call of a layer on its tensors, once unpacked (see `RNet.forwardIn`). -/
noncomputable def Step.forward (D : PertDomain X ι ℝ) (m : Mode) (eps : ℝ) (slope : Slope) {a b : List ℕ} :
    Step a b → Full X ι (Idx a) ℝ → Full X ι (Idx b) ℝ
  | .lay l, f => l.forward D m eps slope f
  | .act g, f => g.forwardIn D m eps slope f
  | .pool win hw, f => maxPoolFastT D m win hw f

/-- What a node of the graph runs, from the shapes of its parents to its own shape: the input layer, a layer with one
input, or a merge layer (after `preprocess_keras_model`, every layer is converted into one layer).  `n` is the number of model inputs.  For `Concatenate` and `Dot`, `e` finds an entry of the
output in the inputs. -/
inductive KOp (n : ℕ) : List (List ℕ) → List ℕ → Type 1
  | input : KOp n [] [n]
  | layer {a b : List ℕ} (l : Step a b) : KOp n [a] b
  | merge (op : NaryOp) (a : List ℕ) (r : ℕ) : KOp n (a :: List.replicate r a) a
  | subtract (a : List ℕ) : KOp n [a, a] a
  | concat (as : List (List ℕ)) (j0 : Fin as.length) (b : List ℕ) (e : Idx b → Sigma fun j : Fin as.length => Idx (as.get j)) : KOp n as b
  | dot {a0 a1 b : List ℕ} {o0 o1 t : Type} [Fintype t] (e0 : t × o0 → Idx a0) (e1 : t × o1 → Idx a1) (e : Idx b → o0 × o1) : KOp n [a0, a1] b

/-- A Keras model with `n` inputs and one output: the parents of every node, the shape of its output, what it runs. -/
structure KGraph (n : ℕ) where
  parents : ℕ → List ℕ
  sh : ℕ → List ℕ
  op : (v : ℕ) → KOp n ((parents v).map sh) (sh v)

/-- The nine tensors that a layer has when it packs its outputs. -/
def Full.toNine {s : List ℕ} (f : Full X ι (Idx s) ℝ) : Nine (Ten X ι) :=
  ⟨.dom f.x, .vec s f.uc, .mat s f.wu, .vec s f.bu, .vec s f.lc, .mat s f.wl, .vec s f.bl, .vec s f.h, .vec s f.g⟩

/-- The list of tensors that goes from a layer to the next one, `extract_outputsformode_from_fulloutputs`, core.py:446-457. -/
def Full.toList (m : Mode) {s : List ℕ} (f : Full X ι (Idx s) ℝ) : List (Ten X ι) := extractForMode m false f.toNine

/-- What is left of the tensors of a layer when the next layer has unpacked them: those of the mode. -/
def Full.carried (m : Mode) (x0 : X) {κ : Type} (f : Full X ι κ ℝ) : Full X ι κ ℝ :=
  { x := if getAffine m then f.x else x0
    uc := if getIbp m then f.uc else fun _ => 0
    wu := if getAffine m then f.wu else fun _ _ => 0
    bu := if getAffine m then f.bu else fun _ => 0
    lc := if getIbp m then f.lc else fun _ => 0
    wl := if getAffine m then f.wl else fun _ _ => 0
    bl := if getAffine m then f.bl else fun _ => 0
    h := fun _ => 0
    g := fun _ => 0 }

/-- The tensor read as the description of the domain.  `x0` stands for the empty tensor, which is never used. -/
def Ten.toDom (x0 : X) : Ten X ι → Except PyErr X
  | .dom x => .ok x
  | .empty => .ok x0
  | _ => .error .valueError

/-- The tensor read with shape `s`. -/
def Ten.toVec (s : List ℕ) : Ten X ι → Except PyErr (Idx s → ℝ)
  | .vec s' t => if h : s' = s then .ok (h ▸ t) else .error .valueError
  | .empty => .ok fun _ => 0
  | _ => .error .valueError

/-- The tensor read as weights of shape `s`. -/
def Ten.toMat (s : List ℕ) : Ten X ι → Except PyErr (ι → Idx s → ℝ)
  | .mat s' t => if h : s' = s then .ok (h ▸ t) else .error .valueError
  | .empty => .ok fun _ _ => 0
  | _ => .error .valueError

/-- The nine tensors unpacked by a layer (core.py:293-328), read with the shape that the layer expects; tensors of other shapes make the
operations of the layer raise `ValueError`. -/
def readNine (x0 : X) (s : List ℕ) (t : Nine (Ten X ι)) : Except PyErr (Full X ι (Idx s) ℝ) := do
  let x ← t.x.toDom x0
  let uc ← t.uc.toVec s
  let wu ← t.wu.toMat s
  let bu ← t.bu.toVec s
  let lc ← t.lc.toVec s
  let wl ← t.wl.toMat s
  let bl ← t.bl.toVec s
  let h ← t.h.toVec s
  let g ← t.g.toVec s
  return ⟨x, uc, wu, bu, lc, wl, bl, h, g⟩

/-- A list of tensors unpacked by a layer. -/
def readList (x0 : X) (m : Mode) (s : List ℕ) (l : List (Ten X ι)) : Except PyErr (Full X ι (Idx s) ℝ) :=
  (fullInputsList m false .empty l).bind (readNine x0 s)

/-- The lists of a merge layer, one for each input. -/
def readLists (x0 : X) (m : Mode) : (as : List (List ℕ)) → List (List (Ten X ι)) → Except PyErr (HList (fun s => Full X ι (Idx s) ℝ) as)
  | [], [] => .ok .nil
  | a :: as, l :: ls => (readList x0 m a l).bind fun f => (readLists x0 m as ls).map fun t => .cons f t
  | _, _ => .error .valueError

end

section
variable {X : Type} {n : ℕ}

/-- What a node does to the tensors of its parents, once unpacked. -/
noncomputable def KOp.forward (D : PertDomain X (Idx [n]) ℝ) (m : Mode) (eps : ℝ) (slope : Slope) (inp : Full X (Idx [n]) (Idx [n]) ℝ) :
    {as : List (List ℕ)} → {b : List ℕ} → KOp n as b → HList (fun s => Full X (Idx [n]) (Idx s) ℝ) as → Full X (Idx [n]) (Idx b) ℝ
  | _, _, .input, _ => inp
  | _, _, .layer l, .cons f _ => l.forward D m eps slope f
  | _, _, .merge op _ r, .cons f t => op.forwardIn D m eps f (List.ofFn (t.rep r))
  | _, _, .subtract _, .cons f (.cons g _) => subtractT D m f g
  | _, _, .concat _ j0 _ e, fs => (concatLayerT D m j0 fun j => fs.get j).reindex e
  | _, _, @KOp.dot _ _ _ _ _ _ _ _ e0 e1 e, .cons f (.cons g _) => (dotLayerT D m e0 e1 f g).reindex e

/-- Models the call of the converted layer of a node on the concatenated tensors of its parents, forward_cloning.py:175-215: the lists are
separated by `split_inputsformode_to_merge` (core.py:422-424) or by type (core.py:364-401, the same tensors by C103), unpacked, and the outputs
packed. -/
noncomputable def KOp.call (D : PertDomain X (Idx [n]) ℝ) (m : Mode) (eps : ℝ) (slope : Slope) (inp : Full X (Idx [n]) (Idx [n]) ℝ)
    {as : List (List ℕ)} {b : List ℕ} (o : KOp n as b) (l : List (Ten X (Idx [n]))) : Except PyErr (List (Ten X (Idx [n]))) :=
  (readLists inp.x m as (splitToMerge m false l)).map fun fs => (o.forward D m eps slope inp fs).toList m

/-- Models `convert_forward` on a model with the output node `out`, forward_cloning.py:40-137, then `Convert2Mode`, convert.py:154-164 (except
from ibp to another mode).  `inp` is the result of `get_input_tensors`, models/utils.py:88-148. -/
noncomputable def KGraph.convert (D : PertDomain X (Idx [n]) ℝ) (m mTo : Mode) (eps : ℝ) (slope : Slope) (inp : Full X (Idx [n]) (Idx [n]) ℝ)
    (G : KGraph n) (top : ℤ) (fuel : ℕ) (order : List ℕ) (nameOf : ℕ → String) (out : ℕ) : Except PyErr (List (Ten X (Idx [n]))) :=
  (convertFunctionalE G.parents top fuel order nameOf [out] (fun v => (G.op v).call D m eps slope inp) (inp.toList m)).bind fun l =>
    (readList inp.x m (G.sh out) l).map fun f => (convert2Mode D m mTo f).toList mTo

end

end Decomon
