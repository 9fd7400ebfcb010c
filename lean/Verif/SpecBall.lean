import Verif.Model.Core

/-!
Specification for the comparison of models over different domains.
-/

namespace Decomon

variable {X Y ι κ α : Type*}

/-- The two results hold the same bounds; only the tensor `x`, which describes the domain, may differ. -/
structure SameNumbers (f : Full X ι κ α) (g : Full Y ι κ α) : Prop where
  uc : f.uc = g.uc
  lc : f.lc = g.lc
  wu : f.wu = g.wu
  bu : f.bu = g.bu
  wl : f.wl = g.wl
  bl : f.bl = g.bl

/-- The domains `D` at `x` and `D'` at `y` give the same bounds to every affine function. -/
def AffAgree (D : PertDomain X ι α) (x : X) (D' : PertDomain Y ι α) (y : Y) : Prop :=
  ∀ w b, D.getUpper x w b = D'.getUpper y w b ∧ D.getLower x w b = D'.getLower y w b

end Decomon
