import Verif.Model.Layers
import Verif.Model.Backward
import Verif.Model.Network
import Mathlib.Logic.Equiv.Fin.Basic

/-!
Model of `DecomonFlatten.call` and `BackwardFlatten.call` with the data format of the layer (in `Model/Layers.lean` all the tensors are
re-indexed in the same way, which is what happens with `data_format="channels_last"`).
-/

namespace Decomon

section
variable {X ι α : Type} [Field α] [LinearOrder α] {c s : ℕ}

/-- `K.reshape` of a tensor whose first axis has length `c` and whose other axes hold `s` entries: row-major order. -/
def rowMajor (o : Fin (c * s)) : Fin c × Fin s := finProdFinEquiv.symm o

/-- The order in which the Keras layer `Flatten` reads its input (after the batch axis): row-major, or, with `data_format="channels_first"`,
row-major after the first axis has been moved to the end (keras/src/layers/reshaping/flatten.py, `call`). -/
def flattenOrder (channelsFirst : Bool) (o : Fin (c * s)) : Fin c × Fin s :=
  if channelsFirst then
    let q : Fin s × Fin c := finProdFinEquiv.symm (Fin.cast (Nat.mul_comm c s) o)
    (q.2, q.1)
  else rowMajor o

/-- Models `DecomonFlatten.call`, decomon_layers.py:721-757: the constants, `b_u`, `b_l`, `h` and `g` go through `Flatten.call` (lines 722-723),
the weights through `K.reshape` (lines 748-749). -/
def flattenT (D : PertDomain X ι α) (m : Mode) (dc channelsFirst : Bool) (f : Full X ι (Fin c × Fin s) α) : Full X ι (Fin (c * s)) α :=
  let f := f.tighten D m false true
  { x := f.x
    uc := fun o => if getIbp m then f.uc (flattenOrder channelsFirst o) else 0
    lc := fun o => if getIbp m then f.lc (flattenOrder channelsFirst o) else 0
    wu := fun i o => if getAffine m then f.wu i (rowMajor o) else 0
    bu := fun o => if getAffine m then f.bu (flattenOrder channelsFirst o) else 0
    wl := fun i o => if getAffine m then f.wl i (rowMajor o) else 0
    bl := fun o => if getAffine m then f.bl (flattenOrder channelsFirst o) else 0
    h := fun o => if dc then f.h (flattenOrder channelsFirst o) else 0
    g := fun o => if dc then f.g (flattenOrder channelsFirst o) else 0 }

/-- Models `BackwardFlatten.call`, backward_layers.py:455-456: the identity between the input and the output, both flat in row-major order.
The data format is not read. -/
def backwardFlatten : Back (Fin c × Fin s) (Fin (c * s)) α where
  wu := fun q o => if q = rowMajor o then 1 else 0
  bu := fun _ => 0
  wl := fun q o => if q = rowMajor o then 1 else 0
  bl := fun _ => 0

/-- The tensors returned by `clone(Sequential([Flatten(data_format)]), method="forward-...")` on a box. -/
def flattenOnBox (m : Mode) (channelsFirst : Bool) (b : (Fin c × Fin s → α) × (Fin c × Fin s → α)) :
    Full ((Fin c × Fin s → α) × (Fin c × Fin s → α)) (Fin c × Fin s) (Fin (c * s)) α :=
  flattenT boxDomain m false channelsFirst (inputTensorsBox m b.1 b.2)

end

end Decomon
