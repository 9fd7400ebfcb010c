import Verif.SpecTol
import Mathlib.Data.Fintype.Card

/-!
Specification for the method `forward-affine` in rounded arithmetic, when one operation has the relative error `δ`: how large the computed affine
bounds can be, and how far they can be from bounding the network.  Both are known before running: they depend on the weights, on the
precision and on the largest absolute values `X` of the inputs.
-/

namespace Decomon

section
variable {X' ι κ κ' α : Type} [Field α] [LinearOrder α]

/-- An affine bound of the coordinate `k` is of absolute value at most this, term by term, where the inputs are at most `X`. -/
def Full.sizeAff [Fintype ι] (X : ι → α) (f : Full X' ι κ α) (k : κ) : α := (∑ i, max |f.wu i k| |f.wl i k| * X i) + max |f.bu k| |f.bl k|

/-- The factor by which a ReLU on tensors with `n` inputs can enlarge the size. -/
def reluGrow (δ : α) (n : ℕ) : α := (1 + δ) ^ 5 / (1 - δ) * (1 + (1 + δ) ^ (n + 2))

/-- The error of a ReLU, in proportion to the size: of the bounds of its input, of the slope of its upper line and of the results. -/
def reluLoss (δ : α) (n : ℕ) : α := ((1 + δ) ^ (n + 2) - 1) + ((1 + δ) ^ 5 / (1 - δ) - 1) * (1 + (1 + δ) ^ (n + 2))

/-- The size of the tensors computed by a layer on tensors of size `M`; `BatchNormalization` has the relative error `bn`. -/
def Lay.growAff [Fintype κ] (δ bn : α) (n : ℕ) : Lay α κ κ' → (κ → α) → κ' → α
  | .dense kernel bias, M => fun o => (1 + δ) ^ (Fintype.card κ + 2) * ((∑ t, |kernel t o| * M t) + |bias o|)
  | @Lay.linear _ _ _ T _ _ L kernel bias, M => fun o =>
    (1 + δ) ^ (Fintype.card T + 2) * ((∑ t, |kernel (L.kidx o t)| * (L.src o t).elim 0 M) + |bias o|)
  | .relu _ _, M => fun k => reluGrow δ n * M k
  | .batchNorm gamma beta mean sd, M => fun k => (1 + bn) * (|gamma k| / sd k * (M k + |mean k|) + |beta k|)
  | .reshape e, M => fun k => M (e k)
  | .skip, M => M

/-- The error of a layer on tensors of size `M`. -/
def Lay.lossAff [Fintype κ] (δ bn : α) (n : ℕ) : Lay α κ κ' → (κ → α) → κ' → α
  | .dense kernel bias, M => fun o => ((1 + δ) ^ (Fintype.card κ + 2) - 1) * ((∑ t, |kernel t o| * M t) + |bias o|)
  | @Lay.linear _ _ _ T _ _ L kernel bias, M => fun o =>
    ((1 + δ) ^ (Fintype.card T + 2) - 1) * ((∑ t, |kernel (L.kidx o t)| * (L.src o t).elim 0 M) + |bias o|)
  | .relu _ _, M => fun k => reluLoss δ n * M k
  | .batchNorm gamma beta mean sd, M => fun k => bn * (|gamma k| / sd k * (M k + |mean k|) + |beta k|)
  | .reshape _, _ => fun _ => 0
  | .skip, _ => fun _ => 0

/-- The size for the merge layers on two inputs, except `Multiply`; `Maximum` and `Minimum` compute a difference, a ReLU and a sum. -/
def MergeOp.growAff (δ : α) (n : ℕ) (op : MergeOp) (M0 M1 : α) : α :=
  match op with
  | .add | .subtract => (1 + δ) * (M0 + M1)
  | .average => (1 + δ) ^ 2 * ((M0 + M1) / 2)
  | .maximum | .minimum => (1 + δ) * (reluGrow δ n * ((1 + δ) * (M1 + M0)) + M0)
  | .multiply => 0

/-- The slack for the merge layers on two inputs of sizes `M0`, `M1` and slacks `s0`, `s1`. -/
def MergeOp.slackAff (δ eps : α) (n : ℕ) (op : MergeOp) (M0 M1 s0 s1 : α) : α :=
  match op with
  | .add | .subtract => s0 + s1 + δ * (M0 + M1)
  | .average => (s0 + s1) / 2 + ((1 + δ) ^ 2 - 1) * ((M0 + M1) / 2)
  | .maximum | .minimum =>
    2 * (s1 + s0 + δ * (M1 + M0)) + eps / 4 + reluLoss δ n * ((1 + δ) * (M1 + M0)) + s0 + δ * (reluGrow δ n * ((1 + δ) * (M1 + M0)) + M0)
  | .multiply => 0

/-- The size of the affine bounds computed for a network. -/
def Net.sizeAff [Fintype ι] (δ bn : α) (X : ι → α) : {κ : Type} → Net α ι κ → κ → α
  | _, .input => X
  | _, @Net.layer _ _ _ _ _ _ _ n l => l.growAff δ bn (Fintype.card ι) (n.sizeAff δ bn X)
  | _, .merge op n0 n1 => fun k => op.growAff δ (Fintype.card ι) (n0.sizeAff δ bn X k) (n1.sizeAff δ bn X k)

/-- How far the affine bounds computed for a network can be from bounding it. -/
def Net.slackAff [Fintype ι] (δ eps bn : α) (X : ι → α) : {κ : Type} → Net α ι κ → κ → α
  | _, .input => fun _ => 0
  | _, @Net.layer _ _ _ _ _ _ _ n l => fun k =>
    l.spreadTol eps (n.slackAff δ eps bn X) k + l.lossAff δ bn (Fintype.card ι) (n.sizeAff δ bn X) k
  | _, .merge op n0 n1 => fun k =>
    op.slackAff δ eps (Fintype.card ι) (n0.sizeAff δ bn X k) (n1.sizeAff δ bn X k) (n0.slackAff δ eps bn X k) (n1.slackAff δ eps bn X k)

/-- The largest absolute values of the inputs of a box. -/
def boxPeak (b : (ι → α) × (ι → α)) (i : ι) : α := max |b.1 i| |b.2 i|

/-- How far the two ends of the range that `get_range_box` computes can be from enclosing an output: the affine bounds, then a sum over the inputs. -/
def Net.rangeSlack [Fintype ι] (δ eps bn : α) (X : ι → α) (n : Net α ι κ) (k : κ) : α :=
  n.slackAff δ eps bn X k + ((1 + δ) ^ (Fintype.card ι + 2) - 1) * n.sizeAff δ bn X k

/-- How far the score that `get_adv_box` computes for two outputs can be from bounding their difference. -/
def Net.scoreSlack [Fintype ι] (δ eps bn : α) (X : ι → α) (n : Net α ι κ) (j c : κ) : α :=
  n.slackAff δ eps bn X j + n.slackAff δ eps bn X c + ((1 + δ) ^ (Fintype.card ι + 3) - 1) * (n.sizeAff δ bn X j + n.sizeAff δ bn X c)

end

end Decomon
