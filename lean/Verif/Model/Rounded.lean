import Verif.Model.Core
import Mathlib.Algebra.Order.Round
import Mathlib.Data.Int.Log
import Mathlib.Data.Rat.Floor

/-!
Model of the method `forward-ibp` (`DecomonDense`, layers/decomon_layers.py; `relu_`, utils.py) in rounded
arithmetic: every operation of `keras.ops` is followed by a rounding `rd`.  A product of matrices sums its terms in an order chosen by the
backend, which may differ from call to call: a tree whose leaves are the terms.

Simplified: no overflow, underflow, NaN or fused multiply-add; networks are chains of `Dense` and ReLU layers.
-/

namespace Decomon

/-- An order in which a sum is computed. -/
inductive SumTree (κ : Type*)
  | leaf (k : κ)
  | node (a b : SumTree κ)

section
variable {κ κ' α : Type*}

/-- The terms of a sum. -/
def SumTree.leaves : SumTree κ → List κ
  | .leaf k => [k]
  | .node a b => a.leaves ++ b.leaves

/-- The largest number of additions that a term goes through. -/
def SumTree.depth : SumTree κ → ℕ
  | .leaf _ => 0
  | .node a b => max a.depth b.depth + 1

/-- A rounded sum. -/
def SumTree.sum [Add α] (rd : α → α) (p : κ → α) : SumTree κ → α
  | .leaf k => rd (p k)
  | .node a b => rd (a.sum rd p + b.sum rd p)

variable [Field α] [LinearOrder α]

/-- One entry of `K.dot(x, kernel)` (`op_dot`, decomon_layers.py:321; `keras.layers.Dense.call`). -/
def roundedDot (rd : α → α) (t : SumTree κ) (w x : κ → α) : α := t.sum rd fun k => x k * w k

/-- The sums of a `Dense` layer, of its own call and of the four calls of `op_dot` of its decomon layer. -/
structure DenseSums (κ : Type*) where
  self : SumTree κ
  uPos : SumTree κ
  uNeg : SumTree κ
  lPos : SumTree κ
  lNeg : SumTree κ

/-- `keras.layers.Dense.call`: `K.dot(x, kernel) + bias`. -/
def roundedDense (rd : α → α) (t : κ' → DenseSums κ) (kernel : κ → κ' → α) (bias : κ' → α) (x : κ → α) (o : κ') : α :=
  rd (roundedDot rd (t o).self (fun k => kernel k o) x + bias o)

/-- Models `DecomonDense.call`, decomon_layers.py:421-511, in ibp mode: lines 441-442, 458-459 and 489-490. -/
def roundedDenseIbp (rd : α → α) (t : κ' → DenseSums κ) (kernel : κ → κ' → α) (bias : κ' → α) (b : (κ → α) × (κ → α)) :
    (κ' → α) × (κ' → α) :=
  (fun o => rd (rd (roundedDot rd (t o).lPos (fun k => max 0 (kernel k o)) b.1 + roundedDot rd (t o).lNeg (fun k => min 0 (kernel k o)) b.2) + bias o),
   fun o => rd (rd (roundedDot rd (t o).uPos (fun k => max 0 (kernel k o)) b.2 + roundedDot rd (t o).uNeg (fun k => min 0 (kernel k o)) b.1) + bias o))

/-- A chain of `Dense` and ReLU layers with the orders of their sums. -/
inductive RChain (α : Type*) : Type → Type → Type _
  | nil {κ : Type} : RChain α κ κ
  | dense {κ κ' ν : Type} (kernel : κ → κ' → α) (bias : κ' → α) (t : κ' → DenseSums κ) (rest : RChain α κ' ν) : RChain α κ ν
  | relu {κ ν : Type} (rest : RChain α κ ν) : RChain α κ ν

/-- What the Keras model returns. -/
def RChain.eval (rd : α → α) : {κ ν : Type} → RChain α κ ν → (κ → α) → ν → α
  | _, _, .nil, x => x
  | _, _, .dense kernel bias t rest, x => rest.eval rd (roundedDense rd t kernel bias x)
  | _, _, .relu rest, x => rest.eval rd (fun k => max (x k) 0)

/-- The pair `(l_c, u_c)` returned by the model of `clone(model, method="forward-ibp")`; the ReLU is `relu_` in ibp mode, utils.py:379-381. -/
def RChain.ibp (rd : α → α) : {κ ν : Type} → RChain α κ ν → (κ → α) × (κ → α) → (ν → α) × (ν → α)
  | _, _, .nil, b => b
  | _, _, .dense kernel bias t rest, b => rest.ibp rd (roundedDenseIbp rd t kernel bias b)
  | _, _, .relu rest, b => rest.ibp rd (fun k => max (b.1 k) 0, fun k => max (b.2 k) 0)

end

/-- Rounding of a positive number to the nearest one with `p` binary digits, ties up, exponents unbounded. -/
def roundPos (p : ℕ) (x : ℚ) : ℚ := round (x / (2 : ℚ) ^ (Int.log 2 x + 1 - p)) * (2 : ℚ) ^ (Int.log 2 x + 1 - p)

/-- Rounding to the nearest number with `p` binary digits (`p = 24` for `float32`), ties away from zero. -/
def roundNearest (p : ℕ) (x : ℚ) : ℚ := if 0 < x then roundPos p x else if x < 0 then - roundPos p (-x) else 0

end Decomon
