import Verif.SpecNet

/-!
Specifications for bounds that hold up to a stated error.
-/

namespace Decomon

section
variable {X ι κ κ' α : Type*} [Fintype ι] [Field α] [LinearOrder α]

/-- The tensors of mode `m` bound the layer value `y` at the model input `p` up to the error `s k` in coordinate `k`. -/
structure Near (m : Mode) (f : Full X ι κ α) (p : ι → α) (y s : κ → α) : Prop where
  /-- constant bounds -/
  const : getIbp m = true → ∀ k, f.lc k - s k ≤ y k ∧ y k ≤ f.uc k + s k
  /-- affine bounds -/
  aff : getAffine m = true → ∀ k, affEval (fun i => f.wl i k) (f.bl k) p - s k ≤ y k ∧
    y k ≤ affEval (fun i => f.wu i k) (f.bu k) p + s k

/-- The backward bounds `b` enclose the vector `t` at the vector `y` up to the error `s`. -/
def Back.Near [Fintype κ] (b : Back κ κ' α) (y : κ → α) (t s : κ' → α) : Prop :=
  ∀ k, affEval (fun i => b.wl i k) (b.bl k) y - s k ≤ t k ∧ t k ≤ affEval (fun i => b.wu i k) (b.bu k) y + s k

end

section
variable {ι κ κ' α : Type} [Field α] [LinearOrder α]

/-- How a layer passes on an error of its input: a linear layer multiplies it by the absolute values of its weights, a ReLU at most
doubles it and adds one quarter (of the constant `keras.config.epsilon()`). -/
def Lay.gain [Fintype κ] : Lay α κ κ' → (κ → α) → κ' → α
  | .dense kernel _, s => fun o => ∑ t, |kernel t o| * s t
  | @Lay.linear _ _ _ _ _ _ L kernel _, s => fun o =>
    ∑ t, |kernel (L.kidx o t)| * (match L.src o t with | none => 0 | some q => s q)
  | .relu _ _, s => fun k => 2 * s k + 1 / 4
  | .batchNorm gamma _ _ sd, s => fun k => |gamma k| / sd k * s k
  | .reshape e, s => fun k => s (e k)
  | .skip, s => s

/-- The same for the merge layers on two inputs, except `Multiply`; `Maximum` and `Minimum` contain a ReLU. -/
def MergeOp.gain (op : MergeOp) (a b : α) : α :=
  match op with
  | .add => a + b
  | .average => (a + b) / 2
  | .subtract => a + b
  | .maximum => 2 * (a + b) + 1 / 4 + a
  | .minimum => 2 * (a + b) + 1 / 4 + a
  | .multiply => 0

/-- The error of the bounds of a network, in units of `keras.config.epsilon()`; it depends on the weights only. -/
def Net.gain : {κ : Type} → Net α ι κ → κ → α
  | _, .input => fun _ => 0
  | _, @Net.layer _ _ _ _ _ _ _ n l => l.gain n.gain
  | _, .merge op n0 n1 => fun k => op.gain (n0.gain k) (n1.gain k)

end

end Decomon
