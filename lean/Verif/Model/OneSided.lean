import Verif.Model.Wrapper

/-! Model of the functions of wrapper.py that return one of the two ends of a range. -/

namespace Decomon

section
variable {n : ℕ} {X α : Type*} [Field α] [LinearOrder α]

/-- Models `get_upper_box`, wrapper.py:422-442: item 0 of the result of `get_range_box`. -/
def upperOfBox {d : ℕ} (net : BoxOf (Fin (n + 1)) α → Full X (Fin (n + 1)) (Fin d) α) (m : Mode) (batch nSub : ℕ)
    (bs : List (BoxOf (Fin (n + 1)) α)) : Except PyErr (List α) :=
  match getRangeBox net m batch nSub bs with
  | .error e => .error e
  | .ok r => .ok r.1

/-- Models `get_lower_box`, wrapper.py:445-465: item 1. -/
def lowerOfBox {d : ℕ} (net : BoxOf (Fin (n + 1)) α → Full X (Fin (n + 1)) (Fin d) α) (m : Mode) (batch nSub : ℕ)
    (bs : List (BoxOf (Fin (n + 1)) α)) : Except PyErr (List α) :=
  match getRangeBox net m batch nSub bs with
  | .error e => .error e
  | .ok r => .ok r.2

end

section
variable {ι κ X : Type*} [Fintype ι] [Nonempty ι]

/-- One sample of `get_range_noise`, wrapper.py:687-755. -/
noncomputable def noiseRow (net : (ι → ℝ) → Full X ι κ ℝ) (m : Mode) (eps : ℝ) (p : PVal) (x : ι → ℝ) : κ → Except PyErr (ℝ × ℝ) := fun k =>
  match noiseUpper m eps p x (net x) k, noiseLower m eps p x (net x) k with
  | .ok u, .ok l => .ok (u, l)
  | .error e, _ => .error e
  | _, .error e => .error e

/-- Models `get_upper_noise`, wrapper.py:598-620, for one sample and one output. -/
noncomputable def upperOfNoise (net : (ι → ℝ) → Full X ι κ ℝ) (m : Mode) (eps : ℝ) (p : PVal) (x : ι → ℝ) (k : κ) : Except PyErr ℝ :=
  match noiseRow net m eps p x k with
  | .error e => .error e
  | .ok r => .ok r.1

/-- Models `get_lower_noise`, wrapper.py:624-646, for one sample and one output. -/
noncomputable def lowerOfNoise (net : (ι → ℝ) → Full X ι κ ℝ) (m : Mode) (eps : ℝ) (p : PVal) (x : ι → ℝ) (k : κ) : Except PyErr ℝ :=
  match noiseRow net m eps p x k with
  | .error e => .error e
  | .ok r => .ok r.2

end

end Decomon
