import Verif.Model.Metrics
import Verif.Model.Network
import Verif.Model.Clone

/-!
Model of `build_radius_robust_model` and of the constructor and unpacking of `DecomonRadiusRobust`
(`/repo/src/decomon/metrics/loss.py`).

Simplifications: the entries of the layer are `radiusRobust` and `radiusRobustBackward` of Verif/Model/Metrics.lean; the size of the batch is
known (`_create_identity_tensor_like`, loss.py:349-352, raises on an unknown one).
-/

namespace Decomon

/-- Models `DecomonRadiusRobust.__init__`, loss.py:453-479. -/
def radiusInit (m : Mode) (d : DomArg) : Except PyErr Unit :=
  if m = .ibp then .error .notImplemented
  else if d.resolve = .box then .ok ()
  else .error .notImplemented

/-- What `build_radius_robust_model` decides: the mode of the layer and whether it takes the margins from `backward_bounds`. -/
structure RadiusPlan where
  mode : Mode
  backward : Bool
  deriving DecidableEq

/-- Models `build_radius_robust_model`, loss.py:569-591, on a model returned by `clone`.  The class overrides `compute_output_shape`, so the
layer is not run here. -/
def buildRadius (r : CloneResult) : Except PyErr RadiusPlan := do
  let m := getMode r.ibp r.affine
  radiusInit m r.domain
  return ⟨m, r.backwardBounds⟩

/-- Models the unpacking of the inputs, loss.py:491-494 and 527-530: `x, w_u, b_u, w_l, b_l`.  A tuple assignment from a list of another
length raises. -/
def radiusUnpack {τ : Type} (m : Mode) (l : List τ) : Except PyErr (τ × τ × τ × τ × τ) :=
  match m, l with
  | .hybrid, [x, _, wu, bu, _, wl, bl] => .ok (x, wu, bu, wl, bl)
  | .ibp, [x, wu, bu, wl, bl] => .ok (x, wu, bu, wl, bl)
  | .affine, [x, wu, bu, wl, bl] => .ok (x, wu, bu, wl, bl)
  | _, _ => .error .valueError

/-- The shape test of `W_adv * x_0[:, :, None]` and `W_adv * radius[:, :, None]`, loss.py:512-516: `x` has `n` columns, the weights have
`rows` rows. -/
def radiusShape (n rows : ℕ) : Except PyErr Unit :=
  if rows = n ∨ rows = 1 ∨ n = 1 then .ok () else .error .valueError

section
variable {ι κ α : Type} [Fintype ι] [Fintype κ] [Nonempty κ] [DecidableEq κ] [Field α] [LinearOrder α]

/-- Entry `i` of the model returned by `build_radius_robust_model`: the box is read in the tensor `x` (loss.py:497-498). -/
def radiusEntry (eps : α) (f : Full ((ι → α) × (ι → α)) ι κ α) (i : κ) : α := radiusRobust eps f.x.1 f.x.2 f i

/-- The same on a model with backward bounds. -/
def radiusEntryBackward (eps : α) (f : Full ((ι → α) × (ι → α)) ι κ α) (i : κ) : α := radiusRobustBackward eps f.x.1 f.x.2 f i

/-- The outputs of a backward conversion from ibp to affine or hybrid when there are as many outputs as inputs: the weights of
`Convert2Mode` (models/utils.py:322-328), and `x` replaced by the box of the inputs (backward_cloning.py:457-462). -/
def crownDummy (xmin xmax : κ → α) (f : Full ((κ → α) × (κ → α)) κ κ α) : Full ((κ → α) × (κ → α)) κ κ α :=
  { convert2ModeDummy f with x := (xmin, xmax) }

end

end Decomon
