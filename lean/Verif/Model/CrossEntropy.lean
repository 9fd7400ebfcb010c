import Verif.Model.Metrics
import Verif.Model.Network

/-!
Model of `build_crossentropy_model` and `build_asymptotic_crossentropy_model`
(`/repo/src/decomon/metrics/loss.py`) and of the domain that they use.
-/

namespace Decomon

/-- `BoxDomain.get_upper/get_lower` (core.py:59-71) on the tensor `x` of a ball model, of shape `(batch, n)` with `n ≥ 2`: `x[:, 0]` and
`x[:, 1]` are the first two coordinates of the centre, broadcast to all coordinates by `expand_dims` (core.py:491-495). -/
def boxOfCentre {α : Type*} [Field α] [LinearOrder α] {n : ℕ} : PertDomain (Fin (n + 2) → α) (Fin (n + 2)) α where
  getUpper x w b := getUpperBox (fun _ => x 0) (fun _ => x 1) w b
  getLower x w b := getLowerBox (fun _ => x 0) (fun _ => x 1) w b

section
variable {ι κ : Type} [Fintype ι] [Fintype κ] [Nonempty κ]

/-- Models the output of `build_crossentropy_model` on a model without backward bounds and over a box, entry `i`, loss.py:382-386, 398-402
and 595-615: `DecomonLossFusion(mode=mode, ...)` is built without domain, so with `BoxDomain`. -/
noncomputable def crossEntropyBox (m : Mode) (f : Full ((ι → ℝ) × (ι → ℝ)) ι κ ℝ) (i : κ) : ℝ :=
  fusionCall (convert2Mode boxDomain m .ibp f).uc (convert2Mode boxDomain m .ibp f).lc i

/-- The same on a model over a ball (at least two inputs). -/
noncomputable def crossEntropyBall {n : ℕ} (m : Mode) (f : Full (Fin (n + 2) → ℝ) (Fin (n + 2)) κ ℝ) (i : κ) : ℝ :=
  fusionCall (convert2Mode boxOfCentre m .ibp f).uc (convert2Mode boxOfCentre m .ibp f).lc i

/-- Models the output of `build_asymptotic_crossentropy_model` on a model over a box, entry `i`, loss.py:404-425, 619-639. -/
noncomputable def asymptoticBox [DecidableEq κ] (m : Mode) (f : Full ((ι → ℝ) × (ι → ℝ)) ι κ ℝ) (i : κ) : ℝ :=
  fusionAsymptotic (convert2Mode boxDomain m .ibp f).uc (convert2Mode boxDomain m .ibp f).lc i

/-- The same on a model over a ball. -/
noncomputable def asymptoticBall [DecidableEq κ] {n : ℕ} (m : Mode) (f : Full (Fin (n + 2) → ℝ) (Fin (n + 2)) κ ℝ) (i : κ) : ℝ :=
  fusionAsymptotic (convert2Mode boxOfCentre m .ibp f).uc (convert2Mode boxOfCentre m .ibp f).lc i

end

end Decomon
