import Verif.Model.FloatAffine
import Verif.Model.RunsBack
import Verif.SpecFloatBack

/-!
Model of the method `crown` (the default of `clone`) in rounded arithmetic, over a box, with the operations of the code one by one: every operation of
`keras.ops` is followed by a rounding `rd`.  The method computes in mode ibp (`get_ibp_affine_from_method`, models/utils.py:44-54), where `Fuse` has no effect.

Simplified: no overflow, underflow, NaN or fused multiply-add; multiplying by the indicators 0 and 1 of the hull of ReLU and of the identity images of
`get_toeplitz`, and adding a zero to them, make no error; ReLU without the option `finetune`.
-/

namespace Decomon

section
variable {ι κ κ' ν α : Type} [Field α] [LinearOrder α] [Fintype ι] [DecidableEq ι]

/-- Models `merge_with_previous`, models/crown.py:149-186: `batch_dot(..) + batch_dot(..)`, and for the biases `+ b_b`. -/
structure MergeRounded [Fintype κ] (rd : α → α) (prev : Back ι κ α) (b : Back κ ν α) (g : Back ι ν α) : Prop where
  wu : ∀ i n, ∃ x y, IsSum rd (fun k => prev.wu i k * max (b.wu k n) 0) x ∧ IsSum rd (fun k => prev.wl i k * min (b.wu k n) 0) y ∧ g.wu i n = rd (x + y)
  wl : ∀ i n, ∃ x y, IsSum rd (fun k => prev.wl i k * max (b.wl k n) 0) x ∧ IsSum rd (fun k => prev.wu i k * min (b.wl k n) 0) y ∧ g.wl i n = rd (x + y)
  bu : ∀ n, ∃ x y, IsSum rd (fun k => prev.bu k * max (b.wu k n) 0) x ∧ IsSum rd (fun k => prev.bl k * min (b.wu k n) 0) y ∧
    g.bu n = rd (rd (x + y) + b.bu n)
  bl : ∀ n, ∃ x y, IsSum rd (fun k => prev.bl k * max (b.wl k n) 0) x ∧ IsSum rd (fun k => prev.bu k * min (b.wl k n) 0) y ∧
    g.bl n = rd (rd (x + y) + b.bl n)

/-- The backward layers, for the constant bounds `u`, `l` of their input.  `BackwardDense`, `BackwardConv2D`, `BackwardFlatten`, `BackwardReshape`,
`BackwardDropout` (backward_layers.py) return their weights.  `backward_relu` (backward_layers/activations.py:42-88) computes the hull.
`BackwardBatchNormalization.call` (backward_layers.py:575-608): any result with the relative error `bn`. -/
def Lay.RoundedBack [DecidableEq κ] (rd : α → α) (eps : α) (slope : Slope) (bn : α) : Lay α κ κ' → (u l : κ → α) → Back κ κ' α → Prop
  | .dense kernel bias, _, _, b => b = backwardDense kernel bias
  | @Lay.linear _ _ _ _ _ _ L kernel bias, _, _, b => b = backwardConv L kernel bias
  | .relu _ gb, u, l, b => (∀ k, gb k = 1) ∧ b = Back.ofDiag (fun k => (roundedHullRelu rd eps slope (u k) (l k)).wu)
      (fun k => (roundedHullRelu rd eps slope (u k) (l k)).bu) (fun k => (roundedHullRelu rd eps slope (u k) (l k)).wl)
      (fun k => (roundedHullRelu rd eps slope (u k) (l k)).bl)
  | .batchNorm gamma beta mean sd, _, _, b =>
    (∀ i k, |b.wu i k - (backwardBatchNorm gamma beta mean sd).wu i k| ≤ bn * |(backwardBatchNorm gamma beta mean sd).wu i k| ∧
        |b.wl i k - (backwardBatchNorm gamma beta mean sd).wl i k| ≤ bn * |(backwardBatchNorm gamma beta mean sd).wl i k|) ∧
      ∀ k, |b.bu k - (backwardBatchNorm gamma beta mean sd).bu k| ≤ bn * (|gamma k| / sd k * |mean k| + |beta k|) ∧
        |b.bl k - (backwardBatchNorm gamma beta mean sd).bl k| ≤ bn * (|gamma k| / sd k * |mean k| + |beta k|)
  | .reshape e, _, _, b => b = backwardReindex e
  | .skip, _, _, b => b = Back.identity

/-- What `Convert2BackwardMode` (models/crown.py:66-91) returns in mode ibp on the box `x`: `[u_c, l_c]`. -/
def ConstRounded (rd : α → α) (x : BoxOf ι α) (b : Back ι κ α) (u l : κ → α) : Prop :=
  ∀ k, UpperRounded rd x (fun i => b.wu i k) (b.bu k) (u k) ∧ LowerRounded rd x (fun i => b.wl i k) (b.bl k) (l k)

/-- What `crown_` (backward_cloning.py:82-215) may return on a node: without backward bounds, or with the bounds `b` of the layers above.  The bounds of
the input of a layer come from its own backward pass (`get_input_nodes`, 236-281).  A merge layer raises, see `crownMergeErr`. -/
def Net.RoundedCrown (rd : α → α) (eps : α) (slope : Slope) (bn : α) (x : BoxOf ι α) :
    {κ : Type} → Net α ι κ → (Back ι κ α → Prop) × (∀ ν : Type, Back κ ν α → Back ι ν α → Prop)
  | _, .input => (fun g => g = Back.identity, fun _ b g => MergeRounded rd Back.identity b g)
  | κ', @Net.layer _ _ κ _ _ _ _ n l =>
    let new : Back κ κ' α → Prop := fun nb => ∃ b0 u lo, (n.RoundedCrown rd eps slope bn x).1 b0 ∧ ConstRounded rd x b0 u lo ∧
      l.RoundedBack rd eps slope bn u lo nb
    (fun g => ∃ nb, new nb ∧ (n.RoundedCrown rd eps slope bn x).2 κ' nb g,
     fun ν b g => ∃ nb bm, new nb ∧ MergeRounded rd nb b bm ∧ (n.RoundedCrown rd eps slope bn x).2 ν bm g)
  | _, .merge _ _ _ => (fun _ => False, fun _ _ _ => False)

/-- The bounds that `clone(model, method="crown")` may return (`crown_model`, backward_cloning.py:368-399). -/
def Net.CrownRounded (rd : α → α) (eps : α) (slope : Slope) (bn : α) (x : BoxOf ι α) (n : Net α ι κ) (u l : κ → α) : Prop :=
  ∃ b, (n.RoundedCrown rd eps slope bn x).1 b ∧ ConstRounded rd x b u l

/-- The same with `back_bounds = [C]` (backward_cloning.py:429-433). -/
def Net.CrownBackRounded (rd : α → α) (eps : α) (slope : Slope) (bn : α) (x : BoxOf ι α) (n : Net α ι κ) (C : κ → ν → α) (u l : ν → α) : Prop :=
  ∃ b, (n.RoundedCrown rd eps slope bn x).2 ν ⟨C, fun _ => 0, C, fun _ => 0⟩ b ∧ ConstRounded rd x b u l

end

end Decomon
