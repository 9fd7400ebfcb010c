import Verif.Model.IbpNet

/-!
Forward propagation in every mode through the networks of `Model/IbpNet.lean` (which is restricted to ibp mode).
-/

namespace Decomon

section
variable {X ι κ : Type}

/-- Models `softplus_`, layers/utils.py:110-146, called by `softplus`, layers/activations.py:379-406 (`dc_decomp=True` raises).  With the slope
`a-slope` the call raises in affine and hybrid mode (utils.py:243-244); here the lines are zero in that case. -/
noncomputable def softplusT (D : PertDomain X ι ℝ) (m : Mode) (eps : ℝ) (slope : Slope) (inp : Full X ι κ ℝ) : Full X ι κ ℝ :=
  let a := inp.tighten D m true true
  let hull : κ → Hull ℝ := fun k =>
    match softplusHull eps slope none (a.uc k) (a.lc k) with
    | .ok h => h
    | .error _ => ⟨0, 0, 0, 0⟩
  { x := a.x
    uc := fun k => softplus (a.uc k)
    lc := fun k => softplus (a.lc k)
    wu := fun i k => if getAffine m then (hull k).wu * a.wu i k else 0
    bu := fun k => if getAffine m then (hull k).wu * a.bu k + (hull k).bu else 0
    wl := fun i k => if getAffine m then (hull k).wl * a.wl i k else 0
    bl := fun k => if getAffine m then (hull k).wl * a.bl k + (hull k).bl else 0
    h := fun _ => 0
    g := fun _ => 0 }

/-- `DecomonActivation.call`, decomon_layers.py:600-633, with the functions of layers/activations.py. -/
noncomputable def SmoothAct.forwardIn (D : PertDomain X ι ℝ) (m : Mode) (eps : ℝ) (slope : Slope) (a : SmoothAct) (f : Full X ι κ ℝ) :
    Full X ι κ ℝ :=
  match a with
  | .sigmoid => sShapeT D m eps Real.sigmoid sigmoidPrime f
  | .tanh => sShapeT D m eps Real.tanh tanhPrime f
  | .softsign => sShapeT D m eps Decomon.softsign softsignPrime f
  | .exponential => expT D m eps f
  | .softplus => softplusT D m eps slope f

/-- The merge layers (see `Model/Layers.lean`). -/
noncomputable def NaryOp.forwardIn (D : PertDomain X ι ℝ) (m : Mode) (eps : ℝ) (op : NaryOp) (f0 : Full X ι κ ℝ) (fs : List (Full X ι κ ℝ)) :
    Full X ι κ ℝ :=
  match op with
  | .add => addLayerT D m f0 fs
  | .average => averageLayerT D m f0 fs
  | .maximum => maximumLayerT D m eps f0 fs
  | .minimum => minimumLayerT D m eps f0 fs
  | .multiply => multiplyLayerT D m f0 fs

/-- Models `convert_forward_functional_model`, forward_cloning.py:132-228 (methods `forward-ibp`, `forward-affine`, `forward-hybrid`). -/
noncomputable def RNet.forwardIn (D : PertDomain X ι ℝ) (m : Mode) (eps : ℝ) (slope : Slope) (inp : Full X ι ι ℝ) :
    {κ : Type} → RNet ι κ → Full X ι κ ℝ
  | _, .input => inp
  | _, @RNet.layer _ _ _ _ n l => l.forward D m eps slope (n.forwardIn D m eps slope inp)
  | _, .act a n => a.forwardIn D m eps slope (n.forwardIn D m eps slope inp)
  | _, .pool win hw n => maxPoolFastT D m win hw (n.forwardIn D m eps slope inp)
  | _, .merge op _ n0 ns =>
      op.forwardIn D m eps (n0.forwardIn D m eps slope inp) (List.ofFn fun i => (ns i).forwardIn D m eps slope inp)
  | _, .subtract n0 n1 => subtractT D m (n0.forwardIn D m eps slope inp) (n1.forwardIn D m eps slope inp)
  | _, .concat j0 ns => concatLayerT D m j0 fun j => (ns j).forwardIn D m eps slope inp
  | _, @RNet.dot _ _ _ _ _ _ _ e0 e1 n0 n1 =>
      dotLayerT D m e0 e1 (n0.forwardIn D m eps slope inp) (n1.forwardIn D m eps slope inp)

/-- The tensors returned by `clone(model, method="forward-...")` on a box. -/
noncomputable def RNet.onBoxIn [DecidableEq ι] [Fintype ι] (m : Mode) (eps : ℝ) (slope : Slope) (n : RNet ι κ) (b : (ι → ℝ) × (ι → ℝ)) :
    Full ((ι → ℝ) × (ι → ℝ)) ι κ ℝ :=
  n.forwardIn boxDomain m eps slope (inputTensorsBox m b.1 b.2)

end

end Decomon
