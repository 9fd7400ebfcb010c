import Verif.Model.FloatBack
import Verif.Model.FloatMode
import Verif.SpecFloatCrown

/-!
Model of the methods `crown-forward-ibp`, `crown-forward-affine` and `crown-forward-hybrid` in rounded arithmetic, over a box: the forward pass of
`Model/FloatMode.lean`, then the backward pass of `Model/FloatBack.lean`, which reads the bounds of the forward pass.

Simplified: as in these two files.
-/

namespace Decomon

section
variable {ι κ κ' ν α : Type} [Field α] [LinearOrder α] [Fintype ι] [DecidableEq ι]

/-- Models `Fuse.call`, models/crown.py:18-29: in modes affine and hybrid the bounds are merged with the affine tensors of the input, which are the
identity. -/
def FuseRounded (rd : α → α) (m : Mode) (b g : Back ι ν α) : Prop :=
  match m with
  | .ibp => g = b
  | _ => MergeRounded rd Back.identity b g

/-- What `crown_` (backward_cloning.py:82-215) may return on a node: without backward bounds, or with the bounds `b` of the layers above.  The bounds of
the input of a layer come from the forward pass (`forward_map`, `get_input_nodes`, 236-281).  A merge layer raises, see `crownMergeErr`. -/
def Net.RoundedFwdCrown (rd : α → α) (m : Mode) (eps : α) (slope : Slope) (bn : α) (x : BoxOf ι α) :
    {κ : Type} → Net α ι κ → (Back ι κ α → Prop) × (∀ ν : Type, Back κ ν α → Back ι ν α → Prop)
  | _, .input => (fun g => FuseRounded rd m Back.identity g, fun _ b g => ∃ b1, MergeRounded rd Back.identity b b1 ∧ FuseRounded rd m b1 g)
  | κ', @Net.layer _ _ κ _ _ _ _ n l =>
    let new : Back κ κ' α → Prop := fun nb => ∃ (f : Full (BoxOf ι α) ι κ α) (u lo : κ → α),
      n.RoundedMode rd m eps slope bn (inputTensorsBox m x.1 x.2) f ∧ TightRounded rd m f u lo ∧ l.RoundedBack rd eps slope bn u lo nb
    (fun g => ∃ nb, new nb ∧ (n.RoundedFwdCrown rd m eps slope bn x).2 κ' nb g,
     fun ν b g => ∃ nb bm, new nb ∧ MergeRounded rd nb b bm ∧ (n.RoundedFwdCrown rd m eps slope bn x).2 ν bm g)
  | _, .merge _ _ _ => (fun _ => False, fun _ _ _ => False)

/-- What `Convert2BackwardMode` (models/crown.py:66-91) may return on the box `x`: in modes ibp and hybrid the constant bounds, in modes affine and
hybrid the affine ones. -/
def BackOut (rd : α → α) (m : Mode) (x : BoxOf ι α) (b : Back ι κ α) (g : Full (BoxOf ι α) ι κ α) : Prop :=
  (getIbp m = true → ConstRounded rd x b g.uc g.lc) ∧ (getAffine m = true → g.wu = b.wu ∧ g.bu = b.bu ∧ g.wl = b.wl ∧ g.bl = b.bl)

/-- The tensors that `clone(model, method="crown-forward-…")` may return (`crown_model`, backward_cloning.py:368-399). -/
def Net.FwdCrownRounded (rd : α → α) (m : Mode) (eps : α) (slope : Slope) (bn : α) (x : BoxOf ι α) (n : Net α ι κ) (g : Full (BoxOf ι α) ι κ α) : Prop :=
  ∃ b, (n.RoundedFwdCrown rd m eps slope bn x).1 b ∧ BackOut rd m x b g

/-- The same with `back_bounds = [C]` (backward_cloning.py:429-433). -/
def Net.FwdCrownBackRounded (rd : α → α) (m : Mode) (eps : α) (slope : Slope) (bn : α) (x : BoxOf ι α) (n : Net α ι κ) (C : κ → ν → α)
    (g : Full (BoxOf ι α) ι ν α) : Prop :=
  ∃ b, (n.RoundedFwdCrown rd m eps slope bn x).2 ν ⟨C, fun _ => 0, C, fun _ => 0⟩ b ∧ BackOut rd m x b g

end

end Decomon
