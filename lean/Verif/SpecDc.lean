import Verif.SpecNet
import Mathlib.Analysis.Convex.Function

/-!
Specification for the difference of convex functions: `h` convex, `g` concave, and `h + g` the value of the layer.
-/

namespace Decomon

section
variable {X ι κ κ' α : Type} [Field α] [LinearOrder α]

/-- Two lists of tensors have the same bounds (they may differ in `h` and `g`). -/
structure BoundsEq (f f' : Full X ι κ α) : Prop where
  x : f'.x = f.x
  uc : f'.uc = f.uc
  lc : f'.lc = f.lc
  wu : f'.wu = f.wu
  bu : f'.bu = f.bu
  wl : f'.wl = f.wl
  bl : f'.bl = f.bl

/-- The tensors that a layer sees when the model input `p` runs through `S`, with the bounds computed once for all `p`: `h` is a convex function of
`p`, `g` a concave one. -/
structure DcOn (S : Set (ι → α)) (f : (ι → α) → Full X ι κ α) : Prop where
  same : ∀ p q, BoundsEq (f p) (f q)
  convex : ∀ k, ConvexOn α S fun p => (f p).h k
  concave : ∀ k, ConcaveOn α S fun p => (f p).g k

/-- The layers that accept `dc_decomp=True`. -/
def Lay.KnowsDc : Lay α κ κ' → Prop
  | .batchNorm _ _ _ _ => False
  | _ => True

/-- Chains of layers that accept `dc_decomp=True`. -/
def Net.KnowsDc : {κ : Type} → Net α ι κ → Prop
  | _, .input => True
  | _, @Net.layer _ _ _ _ _ _ _ n l => n.KnowsDc ∧ l.KnowsDc
  | _, .merge _ _ _ => False

end

end Decomon
