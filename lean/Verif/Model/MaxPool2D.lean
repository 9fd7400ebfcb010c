import Verif.Model.Pooling

/-!
Model of `DecomonMaxPooling2D` with `fast=False`, `/repo/src/decomon/layers/maxpooling.py`: the image is cut in slices by a convolution
with one-hot filters, and `max_` is applied to the slices.  Simplified: `data_format="channels_last"` only (with `channels_first` the code
still splits the last axis); `padding="same"` is the padding of `K.conv` with zeros, of which half (rounded down) comes first.
-/

namespace Decomon

/-- `pool_size`, `strides` and `padding == "same"` of the layer, maxpooling.py:27-53. -/
structure PoolCfg where
  p0 : ℕ
  p1 : ℕ
  s0 : ℕ
  s1 : ℕ
  same : Bool

/-- Number of output positions of `K.conv` along an axis of length `size`, maxpooling.py:95-123. -/
def convOut (same : Bool) (size p s : ℕ) : ℕ := if same then (size + s - 1) / s else (size - p) / s + 1

/-- Number of zeros that `K.conv` adds before the first entry. -/
def convPad (same : Bool) (size p s : ℕ) : ℕ := if same then ((convOut same size p s - 1) * s + p - size) / 2 else 0

/-- Entry of the axis at position `i` of the window of output position `o`; `none` in the padding. -/
def convPos (same : Bool) (size p s o i : ℕ) : Option (Fin size) :=
  if h : convPad same size p s ≤ o * s + i ∧ o * s + i - convPad same size p s < size then
    some ⟨o * s + i - convPad same size p s, h.2⟩
  else none

section
variable {X ι α : Type*} [Field α] [LinearOrder α] {H W C : ℕ}

/-- Entry of the image at position `(i, j)` of the window of an output position: one channel at a time, maxpooling.py:211-212. -/
def PoolCfg.entry (c : PoolCfg) (k : Fin (convOut c.same H c.p0 c.s0) × Fin (convOut c.same W c.p1 c.s1) × Fin C) (i j : ℕ) :
    Option (Fin H × Fin W × Fin C) :=
  (convPos c.same H c.p0 c.s0 k.1 i).bind fun a => (convPos c.same W c.p1 c.s1 k.2.1 j).map fun b => (a, b, k.2.2)

/-- `K.concatenate([self.internal_op(elem) for elem in K.split(t, n_split, -1)], -2)` for one tensor, maxpooling.py:200-222; the last
index is the channel of the filter. -/
def PoolCfg.slice (c : PoolCfg) (filters : ℕ → ℕ → ℕ → Bool) (t : Fin H × Fin W × Fin C → α)
    (q : (Fin (convOut c.same H c.p0 c.s0) × Fin (convOut c.same W c.p1 c.s1) × Fin C) × ℕ) : α :=
  poolChannel c.p0 c.p1 filters (fun i j => (c.entry q.1 i j).elim 0 t) q.2

/-- All the tensors cut in slices, maxpooling.py:198-226. -/
def PoolCfg.slices (c : PoolCfg) (filters : ℕ → ℕ → ℕ → Bool) (f : Full X ι (Fin H × Fin W × Fin C) α) :
    Full X ι ((Fin (convOut c.same H c.p0 c.s0) × Fin (convOut c.same W c.p1 c.s1) × Fin C) × ℕ) α :=
  ⟨f.x, c.slice filters f.uc, fun i => c.slice filters (f.wu i), c.slice filters f.bu, c.slice filters f.lc,
    fun i => c.slice filters (f.wl i), c.slice filters f.bl, c.slice filters f.h, c.slice filters f.g⟩

/-- Models the constructor and `_pooling_function_not_fast`, maxpooling.py:84-93, 187-231: the maximum over the `prod(pool_size)`
channels. -/
def maxPoolNotFast (D : PertDomain X ι α) (m : Mode) (dc : Bool) (eps : α) (c : PoolCfg) (f : Full X ι (Fin H × Fin W × Fin C) α) :
    Except PyErr (Full X ι (Fin (convOut c.same H c.p0 c.s0) × Fin (convOut c.same W c.p1 c.s1) × Fin C) α) :=
  (poolFilters c.p0 c.p1).map fun filters =>
    maxReduceT D m dc eps (fun k (i : Fin (c.p0 * c.p1 - 1 + 1)) => (k, i.val)) (c.slices filters f)

end

end Decomon
