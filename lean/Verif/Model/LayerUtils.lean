import Verif.Model.Utils
import Mathlib.Analysis.SpecialFunctions.Log.Basic

/-!
Model of `/repo/src/decomon/layers/utils.py` (part 1: constraints, sum, reciprocal, product, square, absolute value, log,
exp).  All functions of this file that do not say otherwise raise `NotImplementedError` for `dc_decomp=True`
(`raisesOnDc`); the numeric models below are for `dc_decomp=False`.
-/

namespace Decomon

/-- The functions of layers/utils.py and layers/activations.py whose body ends in
`if dc_decomp: raise NotImplementedError` (utils.py:139-140, 188-189, 235-236, 514-515, 1036-1037, 1100-1101, 1163-1164). -/
def raisesOnDc {β : Type*} (dc : Bool) (v : β) : Except PyErr β :=
  if dc then .error .notImplemented else .ok v

section Ops
variable {X ι κ ν σ α : Type*} [Field α] [LinearOrder α]

/-- Models `sum` over one axis, layers/utils.py:149-195.  `e (k, n)` is the position, in the input tensor, of entry `n` of
the summed axis for the output position `k`; the code sums weights on the same axis shifted by one (axis `-1` or `axis ≥ 1`). -/
def sumT [Fintype ν] (D : PertDomain X ι α) (m : Mode) (e : κ × ν → σ) (f : Full X ι σ α) : Full X ι κ α :=
  let f := f.tighten D m false true
  { x := f.x
    uc := fun k => if getIbp m then ∑ n, f.uc (e (k, n)) else 0
    lc := fun k => if getIbp m then ∑ n, f.lc (e (k, n)) else 0
    wu := fun i k => if getAffine m then ∑ n, f.wu i (e (k, n)) else 0
    bu := fun k => if getAffine m then ∑ n, f.bu (e (k, n)) else 0
    wl := fun i k => if getAffine m then ∑ n, f.wl i (e (k, n)) else 0
    bl := fun k => if getAffine m then ∑ n, f.bl (e (k, n)) else 0
    h := fun _ => 0
    g := fun _ => 0 }

/-- Models `frac_pos`, layers/utils.py:198-242. -/
def fracPosT (D : PertDomain X ι α) (m : Mode) (eps : α) (f : Full X ι κ α) : Full X ι κ α :=
  let f := f.tighten D m true true
  let ucOut : κ → α := fun k => 1 / f.lc k
  let lcOut : κ → α := fun k => 1 / f.uc k
  let wu0 : κ → α := fun k => (ucOut k - lcOut k) / max (f.uc k - f.lc k) eps
  let bu0 : κ → α := fun k => lcOut k - wu0 k * f.lc k
  let y : κ → α := fun k => (f.uc k + f.lc k) / 2
  let bl0 : κ → α := fun k => 2 / y k
  let wl0 : κ → α := fun k => - 1 / (y k) ^ 2
  { x := f.x
    uc := ucOut
    lc := lcOut
    wu := fun i k => if getAffine m then wu0 k * f.wl i k else 0
    bu := fun k => if getAffine m then bu0 k * f.bl k + bu0 k else 0
    wl := fun i k => if getAffine m then wl0 k * f.wu i k else 0
    bl := fun k => if getAffine m then bl0 k * f.bu k + bl0 k else 0
    h := fun _ => 0
    g := fun _ => 0 }

/-- Models `multiply`, layers/utils.py:430-521. -/
def multiplyT (D : PertDomain X ι α) (m : Mode) (f0 f1 : Full X ι κ α) : Full X ι κ α :=
  let f0 := f0.tighten D m true true
  let f1 := f1.tighten D m true true
  { x := f0.x
    uc := fun k =>
      if getIbp m then
        let u0 := max (f0.uc k * f1.uc k) (f0.uc k * f1.lc k) + max (f0.uc k * f1.lc k) (f0.lc k * f1.lc k)
          - f0.uc k * f1.lc k
        let u1 := max (f1.uc k * f0.uc k) (f1.uc k * f0.lc k) + max (f1.uc k * f0.lc k) (f1.lc k * f0.lc k)
          - f1.uc k * f0.lc k
        min u0 u1
      else 0
    lc := fun k =>
      if getIbp m then
        min (f0.lc k * f1.lc k) (f0.lc k * f1.uc k) + min (f0.lc k * f1.lc k) (f0.uc k * f1.lc k) - f0.lc k * f1.lc k
      else 0
    wu := fun i k =>
      if getAffine m then
        max (f0.uc k) 0 * f1.wu i k + min (f0.uc k) 0 * f1.wl i k + max (f1.lc k) 0 * f0.wu i k
          + min (f1.lc k) 0 * f0.wl i k
      else 0
    bu := fun k =>
      if getAffine m then
        max (f0.uc k) 0 * f1.bu k + min (f0.uc k) 0 * f1.bl k + max (f1.lc k) 0 * f0.bu k + min (f1.lc k) 0 * f0.bl k
          - f0.uc k * f1.lc k
      else 0
    wl := fun i k =>
      if getAffine m then
        max (f0.lc k) 0 * f1.wl i k + min (f0.lc k) 0 * f1.wu i k + max (f1.lc k) 0 * f0.wl i k
          + min (f1.lc k) 0 * f0.wu i k
      else 0
    bl := fun k =>
      if getAffine m then
        max (f0.lc k) 0 * f1.bl k + min (f0.lc k) 0 * f1.bu k + max (f1.lc k) 0 * f0.bl k + min (f1.lc k) 0 * f0.bu k
          - f0.lc k * f1.lc k
      else 0
    h := fun _ => 0
    g := fun _ => 0 }

/-- Models `pow`, layers/utils.py:858-878: the square, as `multiply(inputs, inputs)`. -/
def powT (D : PertDomain X ι α) (m : Mode) (f : Full X ι κ α) : Full X ι κ α := multiplyT D m f f

/-- Models `abs`, layers/utils.py:881-913 (for `dc_decomp=False`; with `dc_decomp=True` the inner `minus` drops `h, g` and
the following `relu_` raises `ValueError` on unpacking). -/
def absT (D : PertDomain X ι α) (m : Mode) (eps : α) (f : Full X ι κ α) : Full X ι κ α :=
  let i0 := reluT D m false eps .vSlope (fun _ => 1) f
  let i1 := minusT D m (reluT D m false eps .vSlope (fun _ => 1) (minusT D m f))
  addT D m i0 i1

end Ops

section RealOps
variable {X ι κ : Type*}

/-- Models `log`, layers/utils.py:1046-1107. -/
noncomputable def logT (D : PertDomain X ι ℝ) (m : Mode) (eps : ℝ) (f : Full X ι κ ℝ) : Full X ι κ ℝ :=
  let f := f.tighten D m true true
  let lc : κ → ℝ := fun k => if m = .affine then max eps (f.lc k) else f.lc k
  let ucOut : κ → ℝ := fun k => Real.log (f.uc k)
  let lcOut : κ → ℝ := fun k => Real.log (lc k)
  let y : κ → ℝ := fun k => (f.uc k + lc k) / 2
  let wl0 : κ → ℝ := fun k => (ucOut k - lcOut k) / max (f.uc k - lc k) eps
  let bl0 : κ → ℝ := fun k => lcOut k - wl0 k * lc k
  let wu0 : κ → ℝ := fun k => 1 / y k
  let bu0 : κ → ℝ := fun k => Real.log (y k) - 1
  { x := f.x
    uc := ucOut
    lc := lcOut
    wu := fun i k => if getAffine m then wu0 k * f.wu i k else 0
    bu := fun k => if getAffine m then wu0 k * f.bu k + bu0 k else 0
    wl := fun i k => if getAffine m then wl0 k * f.wl i k else 0
    bl := fun k => if getAffine m then wl0 k * f.bl k + bl0 k else 0
    h := fun _ => 0
    g := fun _ => 0 }

/-- Models `exp`, layers/utils.py:1110-1170. -/
noncomputable def expT (D : PertDomain X ι ℝ) (m : Mode) (eps : ℝ) (f : Full X ι κ ℝ) : Full X ι κ ℝ :=
  let f := f.tighten D m true true
  let ucOut : κ → ℝ := fun k => Real.exp (f.uc k)
  let lcOut : κ → ℝ := fun k => Real.exp (f.lc k)
  let y : κ → ℝ := fun k => (f.uc k + f.lc k) / 2
  let wu0 : κ → ℝ := fun k => (ucOut k - lcOut k) / max (f.uc k - f.lc k) eps
  let bu0 : κ → ℝ := fun k => lcOut k - wu0 k * f.lc k
  let wl0 : κ → ℝ := fun k => Real.exp (y k)
  let bl0 : κ → ℝ := fun k => wl0 k * (- y k + 1)
  { x := f.x
    uc := ucOut
    lc := lcOut
    wu := fun i k => if getAffine m then wu0 k * f.wu i k else 0
    bu := fun k => if getAffine m then wu0 k * f.bu k + bu0 k else 0
    wl := fun i k => if getAffine m then wl0 k * f.wl i k else 0
    bl := fun k => if getAffine m then wl0 k * f.bl k + bl0 k else 0
    h := fun _ => 0
    g := fun _ => 0 }

end RealOps

end Decomon
