import Verif.Model.Network
import Verif.Model.Wrapper

/-!
Model of changing the perturbation domain of a converted model (`DecomonModel.set_domain`) and of the "finetuned" concretisation over
a ball (core.py:623-722).
-/

namespace Decomon

/-! ### set_domain

`set_domain` (models.py:64-69) assigns `layer.perturbation_domain`.  The copy made in `DecomonLayer.__init__` when
`self.inputs_outputs_spec` is built (layers/core.py:53-58) is not touched, nor are the symbolic input tensors built by
`get_input_tensors` (models/utils.py:88-148), which have read the radius of the first domain. -/

/-- Whether the `call` of a layer reads the attribute `self.perturbation_domain` (else: `self.inputs_outputs_spec`).
`DecomonActivation` passes the attribute to the activation function (decomon_layers.py:612-620); `DecomonDense`,
`DecomonConv2D` and `DecomonBatchNormalization` only use `self.inputs_outputs_spec`; `DecomonReshape` and `DecomonFlatten` too;
`Dropout` and the linear activation return their inputs. -/
def Lay.readsAttr {α κ κ' : Type} : Lay α κ κ' → Bool
  | .relu _ _ => true
  | _ => false

/-- The same for merge layers: `DecomonAdd` and `DecomonAverage` (decomon_merge_layers.py:118-157, 189-228) use
`self.inputs_outputs_spec`; `DecomonSubtract`, `DecomonMinimum`, `DecomonMaximum` and `DecomonMultiply` pass the attribute on
(lines 259-277, 308-340, 371-398, 510-537). -/
def MergeOp.readsAttr : MergeOp → Bool
  | .add => false
  | .average => false
  | _ => true

section
variable {X ι α : Type} [Field α] [LinearOrder α]

/-- Models the forward pass of a converted model after `set_domain`, models.py:64-69: `Dold` is the domain at conversion time, `Dnew`
the one given to `set_domain`. -/
def Net.forwardAfter (Dold Dnew : PertDomain X ι α) (m : Mode) (eps : α) (slope : Slope) (inp : Full X ι ι α) :
    {κ : Type} → Net α ι κ → Full X ι κ α
  | _, .input => inp
  | _, @Net.layer _ _ _ _ _ _ _ n l =>
    l.forward (if l.readsAttr then Dnew else Dold) m eps slope (n.forwardAfter Dold Dnew m eps slope inp)
  | _, .merge op n0 n1 => op.forward (if op.readsAttr then Dnew else Dold) m eps (n0.forwardAfter Dold Dnew m eps slope inp)
      (n1.forwardAfter Dold Dnew m eps slope inp)

/-- Models `convert` followed by `set_domain` and a call, for balls of another radius or norm.  Only the type of the domain is
compared (`_check_domain`, models.py:122-128), so no exception. -/
noncomputable def ballAfter [Fintype ι] [DecidableEq ι] [Nonempty ι] (m : Mode) (leps : ℝ) (slope : Slope) (epsOld : ℝ)
    (pOld : PVal) (epsNew : ℝ) (pNew : PVal) (z : ι → ℝ) {κ : Type} (n : Net ℝ ι κ) : Full (ι → ℝ) ι κ ℝ :=
  n.forwardAfter (ballDomain epsOld pOld) (ballDomain epsNew pNew) m leps slope (inputTensorsBall m epsOld pOld z)

end

/-! ### Finetuned concretisation over a ball -/

section
variable {ι : Type*} [Fintype ι] [Nonempty ι]

/-- The keyword arguments read by the functions below: `finetune` is `finetune_lower` or `finetune_upper`; `extra` says whether some
other keyword is present (it only matters for `len(kwargs)`). -/
structure BallKwargs (ι : Type*) where
  finetune : Option (ι → ℝ)
  upper : Option (ι → ℝ)
  lower : Option (ι → ℝ)
  extra : Bool

/-- Models `get_lower_ball_finetune`, core.py:623-671, for one output coordinate.  Line 630 reads `"upper" and "lower" in kwargs`, which
only tests `"lower"`; hence the `KeyError` when `lower` is given without `upper`, and the last branch (lines 659-669) is dead. -/
noncomputable def getLowerBallFinetune (x0 : ι → ℝ) (eps : ℝ) (p : PVal) (w : ι → ℝ) (b : ℝ) (kw : BallKwargs ι) :
    Except PyErr ℝ :=
  if (kw.finetune.isSome && kw.upper.isSome) || kw.lower.isSome then
    match kw.finetune with
    | none => .error .keyError
    | some a =>
      match kw.lower, kw.upper with
      | some _, none => .error .keyError
      | some lo, some up => do
        let box := (∑ i, max 0 (w i * (1 - a i)) * lo i) + ∑ i, min 0 (w i * (1 - a i)) * up i
        let ball ← getLowerBall x0 eps p (fun i => w i * a i) b
        return box + ball
      | none, some up => do
        let box := ∑ i, min 0 (min 0 (w i) * (1 - a i)) * up i
        let ball ← getLowerBall x0 eps p (fun i => min 0 (w i) * a i + max 0 (w i)) b
        return box + ball
      | none, none => getLowerBall x0 eps p w b
  else getLowerBall x0 eps p w b

/-- Models `get_upper_ball_finetune`, core.py:674-722: every branch concretises the ball part with `get_lower_ball` (lines 694, 706,
718). -/
noncomputable def getUpperBallFinetune (x0 : ι → ℝ) (eps : ℝ) (p : PVal) (w : ι → ℝ) (b : ℝ) (kw : BallKwargs ι) :
    Except PyErr ℝ :=
  if (kw.finetune.isSome && kw.upper.isSome) || kw.lower.isSome then
    match kw.finetune with
    | none => .error .keyError
    | some a =>
      match kw.lower, kw.upper with
      | some _, none => .error .keyError
      | some lo, some up => do
        let box := (∑ i, max 0 (w i * (1 - a i)) * up i) + ∑ i, min 0 (w i * (1 - a i)) * lo i
        let ball ← getLowerBall x0 eps p (fun i => w i * a i) b
        return box + ball
      | none, some up => do
        let box := ∑ i, max 0 (min 0 (w i) * (1 - a i)) * up i
        let ball ← getLowerBall x0 eps p (fun i => min 0 (w i) * a i + max 0 (w i)) b
        return box + ball
      | none, none => getUpperBall x0 eps p w b
  else getUpperBall x0 eps p w b

/-- `len(kwargs)` is not zero. -/
def BallKwargs.nonempty (kw : BallKwargs ι) : Bool := kw.finetune.isSome || kw.upper.isSome || kw.lower.isSome || kw.extra

/-- Models `get_upper_ball` with keyword arguments for a full weight tensor, core.py:549-583. -/
noncomputable def getUpperBallKw (x0 : ι → ℝ) (eps : ℝ) (p : PVal) (w : ι → ℝ) (b : ℝ) (kw : BallKwargs ι) : Except PyErr ℝ :=
  if p = .inf then getUpperBall x0 eps p w b
  else if kw.nonempty then getUpperBallFinetune x0 eps p w b kw
  else getUpperBall x0 eps p w b

/-- Models `get_lower_ball` with keyword arguments for a full weight tensor, core.py:586-620. -/
noncomputable def getLowerBallKw (x0 : ι → ℝ) (eps : ℝ) (p : PVal) (w : ι → ℝ) (b : ℝ) (kw : BallKwargs ι) : Except PyErr ℝ :=
  if p = .inf then getLowerBall x0 eps p w b
  else if kw.nonempty then getLowerBallFinetune x0 eps p w b kw
  else getLowerBall x0 eps p w b

end

end Decomon
