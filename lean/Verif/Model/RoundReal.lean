import Verif.Model.Rounded
import Mathlib.Data.Real.Archimedean

/-!
Rounding of real numbers to the nearest one with `p` binary digits, by the formulas of `Model/Rounded.lean` (which are over the rationals, to compute).  No code of
decomon is modelled here: it is an instance of the roundings of the theorems on graphs.
-/

namespace Decomon.RealFormat

/-- Rounding of a positive number to the nearest one with `p` binary digits, ties up, exponents unbounded. -/
noncomputable def roundPos (p : ℕ) (x : ℝ) : ℝ := round (x / (2 : ℝ) ^ (Int.log 2 x + 1 - p)) * (2 : ℝ) ^ (Int.log 2 x + 1 - p)

/-- Rounding to the nearest number with `p` binary digits (`p = 24` for `float32`), ties away from zero. -/
noncomputable def roundNearest (p : ℕ) (x : ℝ) : ℝ := if 0 < x then roundPos p x else if x < 0 then - roundPos p (-x) else 0

end Decomon.RealFormat
