import Verif.SpecSlack

/-!
Specification for tensors that are computed with errors: the tolerance of a layer and the slack of a network.
-/

namespace Decomon

/-- For each layer, how much an entry of its output tensors may differ from the value of the formula on the tensors that were actually given to it. -/
structure Tol (α : Type) where
  lay : {κ κ' : Type} → Lay α κ κ' → κ' → α
  merge : MergeOp → α

section
variable {X ι κ κ' α : Type} [Field α] [LinearOrder α]

def Tol.Nonneg (t : Tol α) : Prop := (∀ {κ κ' : Type} (l : Lay α κ κ') k, 0 ≤ t.lay l k) ∧ ∀ op, 0 ≤ t.merge op

/-- The tensors `g` of mode `m` differ by at most `t k` from the tensors `f` in every entry that concerns the coordinate `k`. -/
structure Full.Off (m : Mode) (t : κ → α) (f g : Full X ι κ α) : Prop where
  x : g.x = f.x
  const : getIbp m = true → ∀ k, |g.uc k - f.uc k| ≤ t k ∧ |g.lc k - f.lc k| ≤ t k
  weight : getAffine m = true → ∀ i k, |g.wu i k - f.wu i k| ≤ t k ∧ |g.wl i k - f.wl i k| ≤ t k
  bias : getAffine m = true → ∀ k, |g.bu k - f.bu k| ≤ t k ∧ |g.bl k - f.bl k| ≤ t k

/-- How a layer passes on a slack of its input: a linear layer multiplies it by the absolute values of its weights, a ReLU at most doubles it and
adds a quarter of `eps = keras.config.epsilon()`. -/
def Lay.spreadTol [Fintype κ] (eps : α) : Lay α κ κ' → (κ → α) → κ' → α
  | .dense kernel _, s => fun o => ∑ t, |kernel t o| * s t
  | @Lay.linear _ _ _ _ _ _ L kernel _, s => fun o => ∑ t, |kernel (L.kidx o t)| * (match L.src o t with | none => 0 | some q => s q)
  | .relu _ _, s => fun k => 2 * s k + eps / 4
  | .batchNorm gamma _ _ sd, s => fun k => |gamma k| / sd k * s k
  | .reshape e, s => fun k => s (e k)
  | .skip, s => s

/-- What the tolerance of a layer adds to the slack, when the absolute values of the inputs of the model add up to at most `r`: a ReLU computes the
bounds of its input first. -/
def Lay.tolCost (r : α) : Lay α κ κ' → α
  | .relu _ _ => 2 + r
  | _ => 1 + r

/-- The same for the merge layers on two inputs, except `Multiply`; `Maximum` and `Minimum` compute a difference, a ReLU and a sum. -/
def MergeOp.spreadTol (eps r : α) (op : MergeOp) (t a b : α) : α :=
  match op with
  | .add | .subtract => a + b + t * (1 + r)
  | .average => (a + b) / 2 + t * (1 + r)
  | .maximum | .minimum => 2 * (a + b) + a + eps / 4 + t * (5 + 4 * r)
  | .multiply => 0

/-- The slack of the tensors computed for a network. -/
def Net.slackTol (t : Tol α) (eps r : α) : {κ : Type} → Net α ι κ → κ → α
  | _, .input => fun _ => 0
  | _, @Net.layer _ _ _ _ _ _ _ n l => fun k => l.spreadTol eps (n.slackTol t eps r) k + t.lay l k * l.tolCost r
  | _, .merge op n0 n1 => fun k => op.spreadTol eps r (t.merge op) (n0.slackTol t eps r k) (n1.slackTol t eps r k)

end

end Decomon
