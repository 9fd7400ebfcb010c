import Verif.Model.Network

/-!
Models of the forward layers called with `dc_decomp=True`.  `clone` never asks for it (models/convert.py:132, 251); it is reached by
`to_decomon(layer, ..., dc_decomp=True)` (layers/convert.py:100-119) and by the layers of `decomon.layers` themselves, which the user
calls one after the other.  Simplified: the batch axis is dropped, and `h`, `g` are the values for one model input.
-/

namespace Decomon

section
variable {X ι κ κ' α : Type} [Field α] [LinearOrder α]

/-- The layers with `dc_decomp=True`: Conv2D (decomon_layers.py:178-180, 249-251), Dense (decomon_layers.py:450-452, 503-507), ReLU
(utils.py:365-375), Flatten (decomon_layers.py:731-733), Reshape and Permute (decomon_reshape.py:82-84, 190-192), Dropout
(decomon_layers.py:933-937); BatchNormalization raises (decomon_layers.py:872-873). -/
def Lay.forwardDc [Fintype κ] (D : PertDomain X ι α) (m : Mode) (eps : α) (slope : Slope) : Lay α κ κ' → Full X ι κ α → Except PyErr (Full X ι κ' α)
  | .dense kernel bias, f => .ok (denseT D m true kernel bias f)
  | @Lay.linear _ _ _ _ _ _ L kernel bias, f => .ok (linearLayerT D m true L kernel bias f)
  | .relu gf _, f => .ok (reluT D m true eps slope gf f)
  | .batchNorm _ _ _ _, _ => .error .notImplemented
  | .reshape e, f => .ok (reindexT D m true e f)
  | .skip, f => .ok f

/-- The layers called one after the other; every merge layer raises (decomon_merge_layers.py:150-151, 221-222, 260-261, 309-310, 372-373,
472-473, 511-512, 575-576). -/
def Net.forwardDc (D : PertDomain X ι α) (m : Mode) (eps : α) (slope : Slope) (inp : Full X ι ι α) :
    {κ : Type} → Net α ι κ → Except PyErr (Full X ι κ α)
  | _, .input => .ok inp
  | _, @Net.layer _ _ _ _ _ _ _ n l => (n.forwardDc D m eps slope inp).bind (l.forwardDc D m eps slope)
  | _, .merge _ n0 n1 => (n0.forwardDc D m eps slope inp).bind fun _ => (n1.forwardDc D m eps slope inp).bind fun _ => .error .notImplemented

end

end Decomon
