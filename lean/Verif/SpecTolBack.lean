import Verif.SpecTol
import Verif.SpecDrift

/-!
Specification for backward bounds that are computed with errors: the slack of a chain of layers.
-/

namespace Decomon

section
variable {X ι κ κ' ν α : Type} [Field α] [LinearOrder α]

/-- The backward bounds `b'` differ by at most `t` from `b` in every entry. -/
structure Back.Off (t : α) (b b' : Back κ ν α) : Prop where
  weight : ∀ i n, |b'.wu i n - b.wu i n| ≤ t ∧ |b'.wl i n - b.wl i n| ≤ t
  bias : ∀ n, |b'.bu n - b.bu n| ≤ t ∧ |b'.bl n - b.bl n| ≤ t

/-- The largest absolute value of the coefficient with which the output `k` of a layer depends on its input `i`. -/
def Lay.absWeight [DecidableEq κ] : Lay α κ κ' → κ → κ' → α
  | .dense kernel _ => fun i k => |kernel i k|
  | @Lay.linear _ _ _ _ _ _ L kernel _ => fun i k => ∑ t, (match L.src k t with | none => 0 | some q => if q = i then |kernel (L.kidx k t)| else 0)
  | .relu _ _ => fun i k => if i = k then 1 else 0
  | .batchNorm gamma _ _ sd => fun i k => if i = k then |gamma k| / sd k else 0
  | .reshape e => fun i k => if i = e k then 1 else 0
  | .skip => fun i k => if i = k then 1 else 0

/-- The error of the lines of a layer when the bounds of its input have the slack `s` and are computed up to `t`: only ReLU has one. -/
def Lay.ownTol (eps t : α) : Lay α κ κ' → (κ → α) → κ' → α
  | .relu _ _, s => fun k => s k + t + eps / 4
  | _, _ => fun _ => 0

/-- The slack of the backward bounds of a chain of layers when every entry of every tensor is computed up to `t`; `r` bounds the sum of the absolute
values of the inputs of the model, `A` each of them.  First component: for each output.  Second component: for a combination of the outputs with
coefficients at most `B` in absolute value. -/
def Net.crownSlack [Fintype ι] (uf : Bool) (t eps r σ : α) (A : ι → α) : {κ : Type} → Net α ι κ → (κ → α) × ((κ → α) → α)
  | _, .input => (fun _ => t * (1 + r), fun _ => 2 * (t * (1 + r)))
  | _, @Net.layer _ _ _ _ _ _ _ n l =>
    let below := n.crownSlack uf t eps r σ A
    let child := fun k => if uf then n.slackTol ⟨fun _ _ => t, fun _ => t⟩ eps r k else below.1 k + t * (1 + r)
    let cost := t * (1 + ∑ k, n.size id σ A k)
    let own := fun k => l.ownTol eps t child k + cost
    (fun k => own k + below.2 fun i => l.absWeight i k + t,
     fun B => ((∑ k, B k * own k) + cost) + below.2 fun i => (∑ k, (l.absWeight i k + t) * B k) + t)
  | _, .merge _ _ _ => (fun _ => 0, fun _ => 0)

end

end Decomon
