import Verif.SpecTolBack
import Verif.Model.RunsAffine
import Verif.Model.Network

/-!
The backward conversion (crown) when every tensor is computed with errors.
-/

namespace Decomon

section
variable {X ι κ κ' ν α : Type} [Field α] [LinearOrder α] [Fintype ι] [DecidableEq ι]

/-- The backward layer (`Lay.backward`) may return `b` for the bounds `f` of its input.  `backward_relu` (backward_layers/activations.py:42-88) first
computes constant bounds, and chooses the lower line, with errors. -/
def Lay.BackComputes [DecidableEq κ] (D : PertDomain X ι α) (m : Mode) (eps : α) (slope : Slope) (t : α) :
    Lay α κ κ' → Full X ι κ α → Back κ κ' α → Prop
  | .relu _ gb, f, b => ∃ u l u2 l2 : κ → α,
      (∀ k, |u k - (f.tighten D m true true).uc k| ≤ t ∧ |l k - (f.tighten D m true true).lc k| ≤ t) ∧
      (∀ k, |u2 k - (f.tighten D m true true).uc k| ≤ t ∧ |l2 k - (f.tighten D m true true).lc k| ≤ t) ∧
      Back.Off t (Back.ofDiag (fun k => (linearHullRelu eps slope (gb k) (u k) (l k)).wu) (fun k => (linearHullRelu eps slope (gb k) (u k) (l k)).bu)
        (fun k => (linearHullRelu eps slope (gb k) (u2 k) (l2 k)).wl) (fun k => (linearHullRelu eps slope (gb k) (u2 k) (l2 k)).bl)) b
  | l, f, b => Back.Off t (l.backward D m eps slope f) b

/-- What `crown_` (backward_cloning.py:82-215) may return on a node: without backward bounds, or with the bounds `b` of the layers above.  Every
backward layer, every `MergeWithPrevious` (models/crown.py:149-186), `Fuse` (18-29) and `Convert2BackwardMode` (66-91) makes errors.  A merge layer
raises, see `crownMergeErr`. -/
def CrownCfg.Computes (c : CrownCfg X ι α) (t : α) : {κ : Type} → Net α ι κ → (Back ι κ α → Prop) × (∀ ν : Type, Back κ ν α → Back ι ν α → Prop)
  | _, .input =>
    (fun g => Back.Off t (fuse c.m c.inp Back.identity) g,
     fun _ b g => ∃ b1, Back.Off t (mergeWithPrevious Back.identity b) b1 ∧ Back.Off t (fuse c.m c.inp b1) g)
  | κ', @Net.layer _ _ κ _ _ _ _ n l =>
    let child : Full X ι κ α → Prop := fun f =>
      if c.useForward then n.Computes c.D c.m c.eps c.slope ⟨fun _ _ => t, fun _ => t⟩ c.inp f
      else ∃ b0, (c.Computes t n).1 b0 ∧ (convert2BackwardMode c.D c.stack c.m c.inp b0).Off c.m (fun _ => t) f
    let new : Back κ κ' α → Prop := fun bn => ∃ f, child f ∧ l.BackComputes c.D c.m c.eps c.slope t f bn
    (fun g => ∃ bn, new bn ∧ (c.Computes t n).2 κ' bn g,
     fun ν b g => ∃ bn bm, new bn ∧ Back.Off t (mergeWithPrevious bn b) bm ∧ (c.Computes t n).2 ν bm g)
  | _, .merge _ _ _ => (fun _ => False, fun _ _ _ => False)

/-- `crown_model` (backward_cloning.py:368-399). -/
def CrownCfg.ComputesModel (c : CrownCfg X ι α) (t : α) (n : Net α ι κ) (out : Full X ι κ α) : Prop :=
  ∃ b, (c.Computes t n).1 b ∧ (convert2BackwardMode c.D c.stack c.m c.inp b).Off c.m (fun _ => t) out

/-- The same with `back_bounds = [C]` (backward_cloning.py:429-433). -/
def CrownCfg.ComputesBack (c : CrownCfg X ι α) (t : α) (n : Net α ι κ) (C : κ → ν → α) (out : Full X ι ν α) : Prop :=
  ∃ b, (c.Computes t n).2 ν ⟨C, fun _ => 0, C, fun _ => 0⟩ b ∧ (convert2BackwardMode c.D c.stack c.m c.inp b).Off c.m (fun _ => t) out

end

end Decomon
