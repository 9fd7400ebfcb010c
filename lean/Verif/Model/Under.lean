import Verif.Model.Rounded

/-! Rounding in the IEEE formats with a bounded exponent, for the models of `Model/Runs.lean` (`Net.RoundedCall`, `Net.RoundedIbp`). -/

namespace Decomon

/-- Rounding to nearest with `p` binary digits: from `2 ^ q` on as `roundNearest`, below it to a multiple of `2 ^ (q + 1 - p)` (gradual underflow), and any value
beyond the largest number `Ω` (overflow).  `float32` is `p = 24`, `q = -126` and `Ω = (2 - 2 ^ -23) 2 ^ 127`. -/
def roundFloat (p : ℕ) (q : ℤ) (Ω : ℚ) (beyond : ℚ → ℚ) (x : ℚ) : ℚ :=
  if Ω < |x| then beyond x
  else if |x| < (2 : ℚ) ^ q then round (x / (2 : ℚ) ^ (q + 1 - p)) * (2 : ℚ) ^ (q + 1 - p)
  else roundNearest p x

end Decomon
