import Verif.Model.Network
import Verif.Model.Activations

/-!
Networks of all the layers whose forward interval propagation is meant to work, over the reals: the layers of `Model/Network.lean`, the
activations that are not piecewise linear, max pooling, the merge layers on any number of inputs, `Concatenate`, `Dot` (over the last axes).
Not in the list: `softmax` (C22), whose interval bounds are wrong, and the activations that raise (C64).
-/

namespace Decomon

/-- `Activation("sigmoid")`, `Activation("tanh")`, ...: layers/activations.py:94-440. -/
inductive SmoothAct
  | sigmoid
  | tanh
  | softsign
  | exponential
  | softplus
  deriving DecidableEq, Repr

/-- Merge layers on any number of inputs. -/
inductive NaryOp
  | add
  | average
  | maximum
  | minimum
  | multiply
  deriving DecidableEq, Repr

/-- A network with inputs indexed by `ι` and outputs indexed by the last argument. -/
inductive RNet (ι : Type) : Type → Type 1
  | input : RNet ι ι
  /-- the layers of `Model/Network.lean` -/
  | layer {κ κ' : Type} [Fintype κ] (n : RNet ι κ) (l : Lay ℝ κ κ') : RNet ι κ'
  /-- an activation layer -/
  | act {κ : Type} (a : SmoothAct) (n : RNet ι κ) : RNet ι κ
  /-- `MaxPooling2D`; `win k` is the window of the output entry `k` -/
  | pool {κ o : Type} (win : o → Finset κ) (hw : ∀ k, (win k).Nonempty) (n : RNet ι κ) : RNet ι o
  /-- `Add`, `Average`, `Maximum`, `Minimum`, `Multiply` on `r + 1` inputs -/
  | merge {κ : Type} (op : NaryOp) (r : ℕ) (n0 : RNet ι κ) (ns : Fin r → RNet ι κ) : RNet ι κ
  /-- `Subtract` -/
  | subtract {κ : Type} (n0 n1 : RNet ι κ) : RNet ι κ
  /-- `Concatenate` of the inputs of `J`, the first of which is `j0` -/
  | concat {J : Type} {κ : J → Type} (j0 : J) (ns : (j : J) → RNet ι (κ j)) : RNet ι (Sigma κ)
  /-- `Dot`; see `dotLayerT` -/
  | dot {κ0 κ1 o0 o1 n : Type} [Fintype n] (e0 : n × o0 → κ0) (e1 : n × o1 → κ1) (n0 : RNet ι κ0) (n1 : RNet ι κ1) : RNet ι (o0 × o1)

section
variable {X ι κ : Type}

/-- `DecomonActivation.call` in ibp mode, decomon_layers.py:600-633, with the functions of layers/activations.py. -/
noncomputable def SmoothAct.forward (D : PertDomain X ι ℝ) (eps : ℝ) (a : SmoothAct) (f : Full X ι κ ℝ) : Full X ι κ ℝ :=
  match a with
  | .sigmoid => sShapeT D .ibp eps Real.sigmoid sigmoidPrime f
  | .tanh => sShapeT D .ibp eps Real.tanh tanhPrime f
  | .softsign => sShapeT D .ibp eps Decomon.softsign softsignPrime f
  | .exponential => expT D .ibp eps f
  | .softplus => softplusIbpT D f

/-- The merge layers in ibp mode (see `Model/Layers.lean`). -/
noncomputable def NaryOp.forward (D : PertDomain X ι ℝ) (eps : ℝ) (op : NaryOp) (f0 : Full X ι κ ℝ) (fs : List (Full X ι κ ℝ)) : Full X ι κ ℝ :=
  match op with
  | .add => addLayerT D .ibp f0 fs
  | .average => averageLayerT D .ibp f0 fs
  | .maximum => maximumLayerT D .ibp eps f0 fs
  | .minimum => minimumLayerT D .ibp eps f0 fs
  | .multiply => multiplyLayerT D .ibp f0 fs

/-- Models `convert_forward_functional_model`, forward_cloning.py:132-228, in ibp mode (method `forward-ibp`). -/
noncomputable def RNet.forward (D : PertDomain X ι ℝ) (eps : ℝ) (slope : Slope) (inp : Full X ι ι ℝ) : {κ : Type} → RNet ι κ → Full X ι κ ℝ
  | _, .input => inp
  | _, @RNet.layer _ _ _ _ n l => l.forward D .ibp eps slope (n.forward D eps slope inp)
  | _, .act a n => a.forward D eps (n.forward D eps slope inp)
  | _, .pool win hw n => maxPoolFastT D .ibp win hw (n.forward D eps slope inp)
  | _, .merge op _ n0 ns => op.forward D eps (n0.forward D eps slope inp) (List.ofFn fun i => (ns i).forward D eps slope inp)
  | _, .subtract n0 n1 => subtractT D .ibp (n0.forward D eps slope inp) (n1.forward D eps slope inp)
  | _, .concat j0 ns => concatLayerT D .ibp j0 fun j => (ns j).forward D eps slope inp
  | _, @RNet.dot _ _ _ _ _ _ _ e0 e1 n0 n1 => dotLayerT D .ibp e0 e1 (n0.forward D eps slope inp) (n1.forward D eps slope inp)

/-- The constants returned by `clone(model, method="forward-ibp")` on a box. -/
noncomputable def RNet.onBox [DecidableEq ι] [Fintype ι] (eps : ℝ) (slope : Slope) (n : RNet ι κ) (b : (ι → ℝ) × (ι → ℝ)) :
    Full ((ι → ℝ) × (ι → ℝ)) ι κ ℝ :=
  n.forward boxDomain eps slope (inputTensorsBox .ibp b.1 b.2)

end

end Decomon
