import Verif.SpecNet
import Verif.Model.Weights

/-!
Specification for the stability of interval bounds: how much they can move when the corners of the box and the weights move a little.
A network is given with the names of its parameters (`Net β ι κ`) and a memory `M : β → α` for their values.
-/

namespace Decomon

section
variable {β ι κ κ' α : Type} [Field α] [LinearOrder α]

/-- How large the outputs of a layer can be on inputs of absolute value at most `A`; `σ` is a lower bound of the standard deviations. -/
def Lay.size [Fintype κ] (M : β → α) (σ : α) (A : κ → α) : Lay β κ κ' → κ' → α
  | .dense kernel bias => fun o => (∑ t, |M (kernel t o)| * A t) + |M (bias o)|
  | @Lay.linear _ _ _ _ _ _ L kernel bias => fun o => (∑ t, |M (kernel (L.kidx o t))| * (L.src o t).elim 0 A) + |M (bias o)|
  | .relu _ _ => A
  | .batchNorm gamma beta mean _ => fun k => |M (gamma k)| * ((A k + |M (mean k)|) / σ) + |M (beta k)|
  | .reshape e => fun k => A (e k)
  | .skip => A

/-- The same for the merge layers on two inputs; `Maximum` and `Minimum` are computed as `ReLU(y - x) + x`, and `Multiply` as a sum of three
products. -/
def MergeOp.size (op : MergeOp) (a b : α) : α :=
  match op with
  | .add => a + b
  | .average => (a + b) / 2
  | .subtract => a + b
  | .maximum => 2 * a + b
  | .minimum => 2 * a + b
  | .multiply => 3 * (a * b)

def Net.size (M : β → α) (σ : α) (A : ι → α) : {κ : Type} → Net β ι κ → κ → α
  | _, .input => A
  | _, @Net.layer _ _ _ _ _ _ _ n l => l.size M σ (n.size M σ A)
  | _, .merge op n0 n1 => fun k => op.size (n0.size M σ A k) (n1.size M σ A k)

/-- How much the outputs of a layer can move when its inputs, of absolute value at most `A`, move by at most `s`, and its parameters by at
most `δ`. -/
def Lay.drift [Fintype κ] (M : β → α) (δ σ : α) (A s : κ → α) : Lay β κ κ' → κ' → α
  | .dense kernel bias => fun o => (∑ t, ((|M (kernel t o)| + δ) * s t + δ * A t)) + δ
  | @Lay.linear _ _ _ _ _ _ L kernel bias => fun o =>
    (∑ t, ((|M (kernel (L.kidx o t))| + δ) * (L.src o t).elim 0 s + δ * (L.src o t).elim 0 A)) + δ
  | .relu _ _ => s
  | .batchNorm gamma beta mean _ => fun k =>
    (|M (gamma k)| + δ) * ((s k + δ) / σ + (A k + |M (mean k)|) / σ * (δ / σ)) + δ * ((A k + |M (mean k)|) / σ) + δ
  | .reshape e => fun k => s (e k)
  | .skip => s

def MergeOp.drift (op : MergeOp) (a b s t : α) : α :=
  match op with
  | .add => s + t
  | .average => (s + t) / 2
  | .subtract => s + t
  | .maximum => 2 * s + t
  | .minimum => 2 * s + t
  | .multiply => 3 * (a * t + s * b + s * t)

/-- The same for a network on a box whose corners, of absolute value at most `A`, move by at most `s`. -/
def Net.drift (M : β → α) (δ σ : α) (A s : ι → α) : {κ : Type} → Net β ι κ → κ → α
  | _, .input => s
  | _, @Net.layer _ _ _ _ _ _ _ n l => l.drift M δ σ (n.size M σ A) (n.drift M δ σ A s)
  | _, .merge op n0 n1 => fun k => op.drift (n0.size M σ A k) (n1.size M σ A k) (n0.drift M δ σ A s k) (n1.drift M δ σ A s k)

/-- Every standard deviation of the network is at least `σ`. -/
def Lay.SdAbove (σ : α) : Lay α κ κ' → Prop
  | .batchNorm _ _ _ sd => ∀ k, σ ≤ sd k
  | _ => True

def Net.SdAbove (σ : α) : {κ : Type} → Net α ι κ → Prop
  | _, .input => True
  | _, @Net.layer _ _ _ _ _ _ _ n l => n.SdAbove σ ∧ l.SdAbove σ
  | _, .merge _ n0 n1 => n0.SdAbove σ ∧ n1.SdAbove σ

/-- Interval bounds `f'` within `s` of the bounds `f`. -/
def Within {X : Type} (f f' : Full X ι κ α) (s : κ → α) : Prop := ∀ k, |f.uc k - f'.uc k| ≤ s k ∧ |f.lc k - f'.lc k| ≤ s k

/-- Interval bounds of absolute value at most `A`. -/
def Bounded {X : Type} (f : Full X ι κ α) (A : κ → α) : Prop := ∀ k, |f.uc k| ≤ A k ∧ |f.lc k| ≤ A k

end

end Decomon
