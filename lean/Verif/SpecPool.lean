import Verif.Model.MaxPool2D

/-!
What `keras.layers.MaxPooling2D` computes, independently of the way the slices are made: the largest entry of the image that a window
covers.  A window may cover positions outside the image (`padding="same"`), which do not count.
-/

namespace Decomon

/-- Zeros before the first entry for `padding="same"`: the output has `⌈size / s⌉` positions, and the padding is as even as possible. -/
def samePad (size p s : ℕ) : ℕ := (((size + s - 1) / s - 1) * s + p - size) / 2

/-- The shift of the windows. -/
def PoolCfg.shift (c : PoolCfg) (H W : ℕ) : ℕ × ℕ := if c.same then (samePad H c.p0 c.s0, samePad W c.p1 c.s1) else (0, 0)

section
variable {α : Type*} [LinearOrder α] {H W C : ℕ}

/-- The window of output position `(o0, o1)` covers position `(a, b)` of the image, which may be outside. -/
def PoolCfg.Covers (c : PoolCfg) (H W o0 o1 : ℕ) (a b : ℤ) : Prop :=
  ∃ i < c.p0, ∃ j < c.p1, a + ((c.shift H W).1 : ℤ) = o0 * c.s0 + i ∧ b + ((c.shift H W).2 : ℤ) = o1 * c.s1 + j

/-- `z` is the max pooling of `y`. -/
def PoolCfg.IsMaxPool (c : PoolCfg) {Ho Wo : ℕ} (y : Fin H × Fin W × Fin C → α) (z : Fin Ho × Fin Wo × Fin C → α) : Prop :=
  ∀ k, IsGreatest {v | ∃ (a : Fin H) (b : Fin W), c.Covers H W k.1 k.2.1 a b ∧ v = y (a, b, k.2.2)} (z k)

/-- The window of an output position sticks out of the image. -/
def PoolCfg.SticksOut (c : PoolCfg) (H W o0 o1 : ℕ) : Prop :=
  ∃ a b : ℤ, c.Covers H W o0 o1 a b ∧ ¬ (0 ≤ a ∧ a < H ∧ 0 ≤ b ∧ b < W)

end

end Decomon
