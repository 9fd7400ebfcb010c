import Verif.Model.EndToEnd
import Verif.Model.FloatMode
import Verif.Model.FloatSplit
import Verif.Model.Pipeline
import Verif.Model.Runs

/-!
Model of the methods `forward-ibp`, `forward-affine` and `forward-hybrid` on a graph of Keras layers, over a box and in rounded arithmetic: the merge layers
on any number of inputs, `Concatenate`, `MaxPooling2D`, nodes used several times.  Every operation of `keras.ops` is followed by a rounding `rd`.

Simplified: as in `Model/FloatAffine.lean`; smooth activations, `Multiply` and `Dot` are left out (no tensors are possible for them here); the nodes are run in
the order of a topological sort, which is what `convert_forward_functional_model` does by C131.
-/

namespace Decomon

section
variable {ι κ κ' α : Type} [Field α] [LinearOrder α] [Fintype ι]

/-- One list of tensors as a merge layer reads it, `get_fullinputs_by_type_from_inputsformode_to_merge`, core.py:364-401: in hybrid mode the constant bounds
are tightened by the affine ones. -/
def ReadRounded (rd : α → α) (m : Mode) (f f' : Full (BoxOf ι α) ι κ α) : Prop :=
  f'.SameAff f ∧ (getIbp m = true → TightRounded rd m f f'.uc f'.lc)

/-- Two lists of tensors added entry by entry: one step of `sum`, decomon_merge_layers.py:137-146 and 187. -/
def plusRounded (rd : α → α) (f g : Full (BoxOf ι α) ι κ α) : Full (BoxOf ι α) ι κ α :=
  { x := f.x
    uc := fun k => rd (f.uc k + g.uc k)
    wu := fun i k => rd (f.wu i k + g.wu i k)
    bu := fun k => rd (f.bu k + g.bu k)
    lc := fun k => rd (f.lc k + g.lc k)
    wl := fun i k => rd (f.wl i k + g.wl i k)
    bl := fun k => rd (f.bl k + g.bl k)
    h := fun _ => 0
    g := fun _ => 0 }

/-- All the tensors divided by `c`, decomon_merge_layers.py:187 and 208-217. -/
def overRounded (rd : α → α) (c : α) (f : Full (BoxOf ι α) ι κ α) : Full (BoxOf ι α) ι κ α :=
  { x := f.x
    uc := fun k => rd (f.uc k / c)
    wu := fun i k => rd (f.wu i k / c)
    bu := fun k => rd (f.bu k / c)
    lc := fun k => rd (f.lc k / c)
    wl := fun i k => rd (f.wl i k / c)
    bl := fun k => rd (f.bl k / c)
    h := fun _ => 0
    g := fun _ => 0 }

/-- Models `DecomonAdd.call`, decomon_merge_layers.py:118-157: the inputs are read and added from the left. -/
def AddMany (rd : α → α) (m : Mode) (f0 : Full (BoxOf ι α) ι κ α) (fs : List (Full (BoxOf ι α) ι κ α)) (g : Full (BoxOf ι α) ι κ α) : Prop :=
  ∃ f0' fs', ReadRounded rd m f0 f0' ∧ List.Forall₂ (ReadRounded rd m) fs fs' ∧ g = fs'.foldl (plusRounded rd) f0'

/-- Models `DecomonAverage.call`, decomon_merge_layers.py:189-228: the sum is divided by the number of inputs. -/
def AverageMany (rd : α → α) (m : Mode) (f0 : Full (BoxOf ι α) ι κ α) (fs : List (Full (BoxOf ι α) ι κ α)) (g : Full (BoxOf ι α) ι κ α) : Prop :=
  ∃ s, AddMany rd m f0 fs s ∧ g = overRounded rd (fs.length + 1) s

/-- Models `DecomonMaximum.call`, decomon_merge_layers.py:371-398: `maximum` of the result so far and the next input. -/
def MaxMany (rd : α → α) (m : Mode) (eps : α) : Full (BoxOf ι α) ι κ α → List (Full (BoxOf ι α) ι κ α) → Full (BoxOf ι α) ι κ α → Prop
  | f0, [], g => g = f0
  | f0, f :: fs, g => ∃ a, MaxMode rd m eps f0 f a ∧ MaxMany rd m eps a fs g

/-- Models `DecomonMinimum.call`, decomon_merge_layers.py:308-340: a single input is returned as it is. -/
def MinMany (rd : α → α) (m : Mode) (eps : α) (f0 : Full (BoxOf ι α) ι κ α) (fs : List (Full (BoxOf ι α) ι κ α)) (g : Full (BoxOf ι α) ι κ α) : Prop :=
  match fs with
  | [] => g = f0
  | _ => ∃ a, MaxMany rd m eps (minusT boxDomain m f0) (fs.map (minusT boxDomain m)) a ∧ g = minusT boxDomain m a

/-- The merge layers on any number of inputs. -/
def NaryOp.RoundedMode (rd : α → α) (m : Mode) (eps : α) (op : NaryOp) (f0 : Full (BoxOf ι α) ι κ α) (fs : List (Full (BoxOf ι α) ι κ α))
    (g : Full (BoxOf ι α) ι κ α) : Prop :=
  match op with
  | .add => AddMany rd m f0 fs g
  | .average => AverageMany rd m f0 fs g
  | .maximum => MaxMany rd m eps f0 fs g
  | .minimum => MinMany rd m eps f0 fs g
  | .multiply => False

/-- Models `DecomonMaxPooling2D._pooling_function_fast`, maxpooling.py:158-185. -/
def PoolRounded {o : Type} (rd : α → α) (m : Mode) (win : o → Finset κ) (hw : ∀ k, (win k).Nonempty) (f : Full (BoxOf ι α) ι κ α)
    (g : Full (BoxOf ι α) ι o α) : Prop :=
  ∃ u l, TightRounded rd m f u l ∧ g.x = f.x ∧ (getIbp m = true → g.uc = maxPool win hw u ∧ g.lc = maxPool win hw l) ∧
    (getAffine m = true → (∀ i k, g.wu i k = 0 ∧ g.wl i k = 0) ∧ g.bu = maxPool win hw u ∧ g.bl = maxPool win hw l)

/-- The Keras merge layers on any number of inputs in rounded arithmetic: `Add` and `Average` add from the left. -/
def NaryOp.roundedCall (rd : α → α) (op : NaryOp) (a : α) (as : List α) : α :=
  match op with
  | .add => as.foldl (fun a b => rd (a + b)) a
  | .average => rd (as.foldl (fun a b => rd (a + b)) a / (as.length + 1))
  | .maximum => as.foldl max a
  | .minimum => as.foldl min a
  | .multiply => as.foldl (fun a b => rd (a * b)) a

end

/-- The layers with one input. -/
def Step.RoundedMode {ι : Type} [Fintype ι] (rd : ℝ → ℝ) (m : Mode) (eps : ℝ) (slope : Slope) (bn : ℝ) {a b : List ℕ} :
    Step a b → Full (BoxOf ι ℝ) ι (Idx a) ℝ → Full (BoxOf ι ℝ) ι (Idx b) ℝ → Prop
  | .lay l, f, g => l.RoundedMode rd m eps slope bn f g
  | .act _, _, _ => False
  | .pool win hw, f, g => PoolRounded rd m win hw f g

/-- The call of a Keras layer with one input. -/
def Step.RoundedCall (rd : ℝ → ℝ) (bk : ℝ → ℝ → ℝ → ℝ → ℝ → ℝ) {a b : List ℕ} : Step a b → (Idx a → ℝ) → (Idx b → ℝ) → Prop
  | .lay l, w, v => l.RoundedCall rd bk w v
  | .act _, _, _ => False
  | .pool win hw, w, v => ∀ k, v k = (win k).sup' (hw k) w

section
variable {n : ℕ}

/-- What a node does to the tensors of its parents, forward_cloning.py:175-215.  `Subtract`: decomon_merge_layers.py:259-277; `Concatenate`:
decomon_merge_layers.py:440-479. -/
def KOp.RoundedMode (rd : ℝ → ℝ) (m : Mode) (eps : ℝ) (slope : Slope) (bn : ℝ) (inp : Full (BoxOf (Idx [n]) ℝ) (Idx [n]) (Idx [n]) ℝ) :
    {as : List (List ℕ)} → {b : List ℕ} → KOp n as b → HList (fun s => Full (BoxOf (Idx [n]) ℝ) (Idx [n]) (Idx s) ℝ) as →
      Full (BoxOf (Idx [n]) ℝ) (Idx [n]) (Idx b) ℝ → Prop
  | _, _, .input, _, g => g = inp
  | _, _, .layer l, .cons f _, g => l.RoundedMode rd m eps slope bn f g
  | _, _, .merge op _ r, .cons f t, g => op.RoundedMode rd m eps f (List.ofFn (t.rep r)) g
  | _, _, .subtract _, .cons f (.cons f' _), g => AddMode rd m f (minusT boxDomain m f') g
  | _, _, .concat as j0 _ pos, fs, g => ∃ fs' : (j : Fin as.length) → Full (BoxOf (Idx [n]) ℝ) (Idx [n]) (Idx (as.get j)) ℝ,
      (∀ j, ReadRounded rd m (fs.get j) (fs' j)) ∧ g.x = (fs.get j0).x ∧
        (getIbp m = true → ∀ k, g.uc k = (fs' (pos k).1).uc (pos k).2 ∧ g.lc k = (fs' (pos k).1).lc (pos k).2) ∧
        (getAffine m = true → ∀ k, (∀ i, g.wu i k = (fs' (pos k).1).wu i (pos k).2 ∧ g.wl i k = (fs' (pos k).1).wl i (pos k).2) ∧
          g.bu k = (fs' (pos k).1).bu (pos k).2 ∧ g.bl k = (fs' (pos k).1).bl (pos k).2)
  | _, _, @KOp.dot _ _ _ _ _ _ _ _ _ _ _, _, _ => False

/-- `f` gives the tensors of every node of the converted model, forward_cloning.py:132-228. -/
def KGraph.RoundedBounds (rd : ℝ → ℝ) (m : Mode) (eps : ℝ) (slope : Slope) (bn : ℝ) (inp : Full (BoxOf (Idx [n]) ℝ) (Idx [n]) (Idx [n]) ℝ) (G : KGraph n)
    (order : List ℕ) (f : (v : ℕ) → Full (BoxOf (Idx [n]) ℝ) (Idx [n]) (Idx (G.sh v)) ℝ) : Prop :=
  ∀ v ∈ order, (G.op v).RoundedMode rd m eps slope bn inp (HList.ofNodes f (G.parents v)) (f v)

/-- What Keras computes at a node from the values of its parents. -/
def KOp.RoundedCall (rd : ℝ → ℝ) (bk : ℝ → ℝ → ℝ → ℝ → ℝ → ℝ) (p : Idx [n] → ℝ) :
    {as : List (List ℕ)} → {b : List ℕ} → KOp n as b → HList (fun s => Idx s → ℝ) as → (Idx b → ℝ) → Prop
  | _, _, .input, _, v => v = p
  | _, _, .layer l, .cons w _, v => l.RoundedCall rd bk w v
  | _, _, .merge op _ r, .cons w t, v => ∀ k, v k = op.roundedCall rd (w k) (List.ofFn fun i => t.rep r i k)
  | _, _, .subtract _, .cons w (.cons w' _), v => ∀ k, v k = rd (w k - w' k)
  | _, _, .concat _ _ _ pos, ws, v => ∀ k, v k = ws.get (pos k).1 (pos k).2
  | _, _, @KOp.dot _ _ _ _ _ _ _ _ _ _ _, _, _ => False

/-- `w` gives the values that Keras computes at the nodes of the graph for the input `p`. -/
def KGraph.RoundedValue (rd : ℝ → ℝ) (bk : ℝ → ℝ → ℝ → ℝ → ℝ → ℝ) (p : Idx [n] → ℝ) (G : KGraph n) (order : List ℕ)
    (w : (v : ℕ) → Idx (G.sh v) → ℝ) : Prop :=
  ∀ v ∈ order, (G.op v).RoundedCall rd bk p (HList.ofNodes w (G.parents v)) (w v)

/-- What `get_range_box` may return for a sample that `refine_boxes` replaced by the boxes `bs`, wrapper.py:432-613: as `Net.RangeOver`, for the model that
`clone` made from a graph with a method `forward-*`. -/
def KGraph.RangeOver (rd rm cv : ℝ → ℝ) (m : Mode) (eps : ℝ) (slope : Slope) (bn : ℝ) (bs : List (BoxOf (Idx [n]) ℝ)) (G : KGraph n) (order : List ℕ) (o : ℕ)
    (k : Idx (G.sh o)) (U L : ℝ) : Prop :=
  ∃ rs : List (ℝ × ℝ), List.Forall₂ (fun b r => ∃ f, G.RoundedBounds rm m eps slope bn (inputTensorsBox m (castBox cv b).1 (castBox cv b).2) order f ∧
    RangeMode rd m b (f o) k r.1 r.2) bs rs ∧ U = listMax (rs.map Prod.fst) ∧ L = listMin (rs.map Prod.snd)

/-- What `get_adv_box` may return for the source class `c` and the target classes `T`, wrapper.py:80-262: as `Net.AdvOver`. -/
def KGraph.AdvOver (rd rm cv : ℝ → ℝ) (m : Mode) (eps : ℝ) (slope : Slope) (bn : ℝ) (bs : List (BoxOf (Idx [n]) ℝ)) (G : KGraph n) (order : List ℕ) (o : ℕ)
    (T : Set (Idx (G.sh o))) (c : Idx (G.sh o)) (R : ℝ) : Prop :=
  ∃ rs, List.Forall₂ (fun b r => ∃ f, G.RoundedBounds rm m eps slope bn (inputTensorsBox m (castBox cv b).1 (castBox cv b).2) order f ∧
    AdvMode rd m (castBox cv b) (f o) T c r) bs rs ∧ R = listMax rs

/-- The box of an input of shape `(n,)`, whose entries `wrapper.py` numbers from 0 to `n - 1`. -/
def onAxis (b : BoxOf (Fin n) ℝ) : BoxOf (Idx [n]) ℝ := (fun i => b.1 ((oneAxis n).symm i), fun i => b.2 ((oneAxis n).symm i))

end

end Decomon
