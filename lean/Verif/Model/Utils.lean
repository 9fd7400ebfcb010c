import Verif.Model.Core

/-!
Model of `/repo/src/decomon/utils.py` (part 1: relu hull, add, minus, subtract, relu, maximum, minimum).
-/

namespace Decomon

section Prim
variable {α : Type*} [Field α] [LinearOrder α]

/-- `K.sign`. -/
def ksign (x : α) : α := if x < 0 then -1 else if x = 0 then 0 else 1

/-- `K.clip(x, a, b)`. -/
def kclip (x a b : α) : α := min (max x a) b

/-- `K.relu`. -/
def relu (x : α) : α := max x 0

end Prim

/-- Models `Slope`, core.py:17-22. -/
inductive Slope
  | vSlope
  | aSlope
  | sSlope
  | zSlope
  | oSlope
  deriving DecidableEq, Repr

/-- A linear hull `[w_u, b_u, w_l, b_l]` for one neuron. -/
structure Hull (α : Type*) where
  wu : α
  bu : α
  wl : α
  bl : α

section Hulls
variable {α : Type*} [Field α] [LinearOrder α]

/-- `index_dead`, utils.py:188: 1 iff `upper ≤ 0`. -/
def indexDead (upper : α) : α := - kclip (ksign upper - 1) (-1) 0

/-- `index_linear`, utils.py:189: 1 iff `lower ≥ 0`. -/
def indexLinear (lower : α) : α := kclip (ksign lower + 1) 0 1

/-- Models `get_linear_hull_relu`, utils.py:128-201, for one neuron.  `eps` is `keras.config.epsilon()`; `gamma` is the
finetuning variable (1 when absent, utils.py:176).  The `upper_grid` branch (always raises) is left out. -/
def linearHullRelu (eps : α) (slope : Slope) (gamma : α) (upper lower : α) : Hull α :=
  let alpha := (relu upper - relu lower) / max eps (upper - lower)
  let wu := alpha
  let bu := relu lower - alpha * lower
  let wl := match slope with
    | .vSlope =>
      let indexA := - kclip (ksign (upper + lower) - 1) (-1) 0
      1 - indexA
    | .aSlope => kclip (ksign (wu - 1 / 2)) 0 1
    | .zSlope => 0 * wu
    | .oSlope => 0 * wu + 1
    | .sSlope => wu
  let bl := 0 * bu
  let wl := gamma * wl + (1 - gamma) * (1 - wl)
  let dead := indexDead upper
  let lin := indexLinear lower
  let wu := (1 - dead) * wu
  let wl := (1 - dead) * wl
  let bu := (1 - dead) * bu
  let bl := (1 - dead) * bl
  { wu := (1 - lin) * wu + lin
    wl := (1 - lin) * wl + lin
    bu := (1 - lin) * bu
    bl := (1 - lin) * bl }

end Hulls

section Ops
variable {X ι κ α : Type*} [Field α] [LinearOrder α]

/-- Models `add`, utils.py:295-340. -/
def addT (D : PertDomain X ι α) (m : Mode) (f0 f1 : Full X ι κ α) : Full X ι κ α :=
  let f0 := f0.tighten D m true true
  let f1 := f1.tighten D m true true
  { x := f0.x
    uc := fun k => f0.uc k + f1.uc k
    wu := fun i k => f0.wu i k + f1.wu i k
    bu := fun k => f0.bu k + f1.bu k
    lc := fun k => f0.lc k + f1.lc k
    wl := fun i k => f0.wl i k + f1.wl i k
    bl := fun k => f0.bl k + f1.bl k
    h := fun k => f0.h k + f1.h k
    g := fun k => f0.g k + f1.g k }

/-- Models `minus`, utils.py:404-440. -/
def minusT (D : PertDomain X ι α) (m : Mode) (f : Full X ι κ α) : Full X ι κ α :=
  let f := f.tighten D m false false
  { x := f.x
    uc := fun k => - f.lc k
    wu := fun i k => - f.wl i k
    bu := fun k => - f.bl k
    lc := fun k => - f.uc k
    wl := fun i k => - f.wu i k
    bl := fun k => - f.bu k
    h := fun k => - f.g k
    g := fun k => - f.h k }

/-- Models `subtract`, utils.py:268-292. -/
def subtractT (D : PertDomain X ι α) (m : Mode) (f0 f1 : Full X ι κ α) : Full X ι κ α :=
  addT D m f0 (minusT D m f1)

/-- Models `relu_`, utils.py:343-401 (the `GridDomain` branch, which always raises in the hull, is left out).
`gamma` is the `finetune` tensor, constantly 1 when absent. -/
def reluT (D : PertDomain X ι α) (m : Mode) (dc : Bool) (eps : α) (slope : Slope) (gamma : κ → α) (f : Full X ι κ α) :
    Full X ι κ α :=
  let f := f.tighten D m true true
  let hull : κ → Hull α := fun k => linearHullRelu eps slope (gamma k) (f.uc k) (f.lc k)
  { x := f.x
    uc := fun k => if getIbp m then relu (f.uc k) else 0
    lc := fun k => if getIbp m then relu (f.lc k) else 0
    wu := fun i k => if getAffine m then (hull k).wu * f.wu i k else 0
    bu := fun k => if getAffine m then (hull k).wu * f.bu k + (hull k).bu else 0
    wl := fun i k => if getAffine m then (hull k).wl * f.wl i k else 0
    bl := fun k => if getAffine m then (hull k).wl * f.bl k + (hull k).bl else 0
    h := fun k =>
      if dc then
        let hOut := (1 - indexDead (f.uc k)) * max (f.h k) (- f.g k)
        (1 - indexLinear (f.lc k)) * hOut + indexLinear (f.lc k) * f.h k
      else 0
    g := fun k =>
      if dc then
        let gOut := (1 - indexDead (f.uc k)) * f.g k
        (1 - indexLinear (f.lc k)) * gOut + indexLinear (f.lc k) * f.g k
      else 0 }

/-- Models `maximum`, utils.py:443-481; the default slope of `relu_` is `V_SLOPE`. -/
def maximumT (D : PertDomain X ι α) (m : Mode) (dc : Bool) (eps : α) (gamma : κ → α) (f0 f1 : Full X ι κ α) :
    Full X ι κ α :=
  let o0 := subtractT D m f1 f0
  let o1 := reluT D m dc eps .vSlope gamma o0
  addT D m o1 f0

/-- Models `minimum`, utils.py:484-521. -/
def minimumT (D : PertDomain X ι α) (m : Mode) (dc : Bool) (eps : α) (gamma : κ → α) (f0 f1 : Full X ι κ α) :
    Full X ι κ α :=
  minusT D m (maximumT D m dc eps gamma (minusT D m f0) (minusT D m f1))

end Ops

end Decomon
