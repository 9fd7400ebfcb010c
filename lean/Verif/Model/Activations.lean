import Verif.Model.Pooling
import Mathlib.Analysis.SpecialFunctions.Sigmoid
import Mathlib.Analysis.SpecialFunctions.Trigonometric.DerivHyp

/-!
Model of `/repo/src/decomon/layers/activations.py` and of the S-shape and softplus hulls of `/repo/src/decomon/utils.py`.
-/

namespace Decomon

/-! ### Activation functions and the derivatives written in decomon -/

section Funcs
variable {α : Type*} [Field α] [LinearOrder α]

/-- `K.softsign`. -/
def softsign (x : α) : α := x / (1 + |x|)

/-- Models `softsign_prime`, utils.py:65-75. -/
def softsignPrime (x : α) : α := 1 / (1 + |x|) ^ 2

end Funcs

/-- Models `sigmoid_prime`, utils.py:37-48; `K.sigmoid` is Mathlib's `Real.sigmoid`. -/
noncomputable def sigmoidPrime (x : ℝ) : ℝ := Real.sigmoid x * (1 - Real.sigmoid x)

/-- Models `tanh_prime`, utils.py:51-62. -/
noncomputable def tanhPrime (x : ℝ) : ℝ := 1 - Real.tanh x ^ 2

/-- `K.softplus`. -/
noncomputable def softplus (x : ℝ) : ℝ := Real.log (1 + Real.exp x)

/-! ### S-shape hull -/

section SShape
variable {α : Type*} [Field α] [LinearOrder α]

/-- `np.linspace(0, 1, 100)[k]`, utils.py:637, 694. -/
def linspace01 (k : ℕ) : α := (k : α) / 99

/-- The scores of `get_t_upper`, utils.py:637-642. -/
def tUpperScores (f f' : α → α) (u l : α) : List α :=
  (List.range 100).map fun k =>
    let t := linspace01 k * u
    |f' t - (f t - f l) / (t - l)|

/-- `index_t` of `get_t_upper`, utils.py:643-648 (`clip(index - 1, 0, 100)`). -/
def tUpperIndex (f f' : α → α) (u l : α) : ℕ :=
  let score := tUpperScores f f' u l
  let index := argminList score
  let threshold := score.foldl min (score.headD 0)
  if 0 * threshold < threshold then index else index - 1

/-- `t_value`, utils.py:649-659, 706-716: the entry of `t` at `index_t`, or zero if there is none. -/
def tValue (index : ℕ) (c : α) : α :=
  ∑ k ∈ Finset.range 100, if k = index then linspace01 k * c else 0 * (linspace01 k * c)

/-- Models `get_t_upper`, utils.py:610-665: `(w_u, b_u)`. -/
def tUpper (eps : α) (f f' : α → α) (u l : α) : α × α :=
  let t := tValue (tUpperIndex f f' u l) u
  let w := (f t - f l) / max eps (t - l)
  (w, - w * l + f l)

/-- The scores of `get_t_lower`, utils.py:694-699. -/
def tLowerScores (f f' : α → α) (u l : α) : List α :=
  (List.range 100).map fun k =>
    let t := linspace01 k * l
    |f' t - (f u - f t) / (u - t)|

/-- `index_t` of `get_t_lower`, utils.py:700-705 (`clip(index + 1, 0, 100)`). -/
def tLowerIndex (f f' : α → α) (u l : α) : ℕ :=
  let score := tLowerScores f f' u l
  let index := argminList score
  let threshold := score.foldl min (score.headD 0)
  if 0 * threshold < threshold then index else index + 1

/-- Models `get_t_lower`, utils.py:668-722: `(w_l, b_l)`. -/
def tLower (eps : α) (f f' : α → α) (u l : α) : α × α :=
  let t := tValue (tLowerIndex f f' u l) l
  let w := (f u - f t) / max eps (u - t)
  (w, - w * u + f u)

/-- Models `get_linear_hull_s_shape`, utils.py:524-607, for one neuron with constant bounds `u, l`.  (For `l = 0 < u` or
`l < u = 0` the code divides 0 by 0 in the scores; the theorems of this development that read the scores assume `l < 0 < u`.) -/
def sShapeHull (eps : α) (f f' : α → α) (u l : α) : Hull α :=
  let su := f u
  let sl := f l
  let coeff := (su - sl) / max eps (u - l)
  let au0 : α := if f' u ≥ coeff then 1 + 0 * u else 0 * u
  let au1 := (1 - au0) * ((ksign l + 1) / 2)
  let t2 := tUpper eps f f' u l
  let al0 : α := if f' l ≥ coeff then 1 + 0 * l else 0 * l
  let al1 := (1 - al0) * ((ksign (- u) + 1) / 2)
  let t3 := tLower eps f f' u l
  { wu := au0 * coeff + au1 * (0 * u) + (1 - au0 - au1) * t2.1
    bu := au0 * (- coeff * l + sl) + au1 * su + (1 - au0 - au1) * t2.2
    wl := al0 * coeff + al1 * (0 * u) + (1 - al0 - al1) * t3.1
    bl := al0 * (- coeff * u + su) + al1 * sl + (1 - al0 - al1) * t3.2 }

variable {X ι κ : Type*}

/-- Models `linear_hull_s_shape`, layers/activations.py:85-158 (general rank branch; `dc_decomp=True` raises
`NotImplementedError`). -/
def sShapeT (D : PertDomain X ι α) (m : Mode) (eps : α) (f f' : α → α) (inp : Full X ι κ α) : Full X ι κ α :=
  let a := inp.tighten D m false true
  let b := inp.tighten D m true true
  let hull : κ → Hull α := fun k => sShapeHull eps f f' (b.uc k) (b.lc k)
  { x := a.x
    uc := fun k => if getIbp m then f (a.uc k) else 0
    lc := fun k => if getIbp m then f (a.lc k) else 0
    wu := fun i k => if getAffine m then (hull k).wu * a.wu i k else 0
    bu := fun k => if getAffine m then (hull k).bu + (hull k).wu * a.bu k else 0
    wl := fun i k => if getAffine m then (hull k).wl * a.wl i k else 0
    bl := fun k => if getAffine m then (hull k).bl + (hull k).wl * a.bl k else 0
    h := fun _ => 0
    g := fun _ => 0 }

end SShape

/-! ### Softplus -/

section Softplus
variable {α : Type*} [Field α] [LinearOrder α]

/-- Models `get_linear_softplus_hull`, utils.py:214-265, for one neuron.  `finetune` is the optional pair
`(alpha_u, alpha_l)`. -/
def softplusHull (eps : α) (slope : Slope) (finetune : Option (α × α)) (upper lower : α) : Except PyErr (Hull α) :=
  let uc := softsign upper
  let lc := softsign lower
  let alpha := (uc - lc) / max eps (upper - lower)
  let wu := alpha
  let bu := - alpha * lower + lc
  let rest : α → Hull α := fun wl =>
    let bl := 0 * bu
    let dead := indexDead upper
    let wu := (1 - dead) * wu
    let wl := (1 - dead) * wl
    let bu := (1 - dead) * bu
    let bl := (1 - dead) * bl
    match finetune with
    | none => ⟨wu, bu, wl, bl⟩
    | some (au, al) => ⟨au * wu, au * bu + (1 - au) * max upper 0, al * wl, al * bl + (1 - al) * max lower 0⟩
  match slope with
  | .vSlope => .ok (rest (1 - (- kclip (ksign (upper + lower) - 1) (-1) 0)))
  | .zSlope => .ok (rest (0 * wu))
  | .oSlope => .ok (rest (0 * wu + 1))
  | .sSlope => .ok (rest wu)
  | .aSlope => .error .valueError

variable {X ι κ : Type*}

/-- Models `softplus_`, layers/utils.py:110-146, in ibp mode (the affine part is `softplusHull` composed with the affine bounds,
lines 133-138). -/
noncomputable def softplusIbpT (D : PertDomain X ι ℝ) (inp : Full X ι κ ℝ) : Full X ι κ ℝ :=
  let a := inp.tighten D .ibp true true
  ⟨a.x, fun k => softplus (a.uc k), fun _ _ => 0, fun _ => 0, fun k => softplus (a.lc k), fun _ _ => 0, fun _ => 0, fun _ => 0,
    fun _ => 0⟩

end Softplus

/-! ### Softmax -/

section Softmax
variable {X ι κ ν : Type*} [Fintype ν]

/-- Models `softmax`, layers/activations.py:441-501; entries are (row, position on the softmax axis).  The argument `clip` is never read. -/
noncomputable def softmaxT (D : PertDomain X ι ℝ) (m : Mode) (eps : ℝ) (f : Full X ι (κ × ν) ℝ) : Full X ι (κ × ν) ℝ :=
  let e := expT D m eps (minusT D m f)
  let s : Full X ι κ ℝ := fracPosT D m eps (sumT D m (fun q => q) e)
  let o := multiplyT D m e (s.reindex Prod.fst)
  let o := o.tighten D m false true
  { o with
    uc := fun k => if getIbp m then min (o.uc k) 1 else o.uc k
    lc := fun k => if getIbp m then max (o.lc k) 0 else o.lc k }

end Softmax

/-! ### Registry -/

/-- The activation functions of layers/activations.py. -/
inductive Act
  | softmax
  | elu
  | selu
  | softplus
  | softsign
  | sigmoid
  | tanh
  | relu
  | exponential
  | linear
  | groupSort2
  | hardSigmoid
  deriving DecidableEq, Repr

/-- Models `deserialize`, layers/activations.py:519-554.  `lower` is Python's `str.lower`. -/
def actDeserialize (lower : String → String) (name : String) : Except PyErr Act :=
  let name := lower name
  if name = "softmax" then .ok .softmax
  else if name = "elu" then .ok .elu
  else if name = "selu" then .ok .selu
  else if name = "softplus" then .ok .softplus
  else if name = "softsign" then .ok .softsign
  else if name = "sigmoid" then .ok .sigmoid
  else if name = "tanh" then .ok .tanh
  else if name = "relu" then .ok .relu
  else if name = "exponential" then .ok .exponential
  else if name = "linear" then .ok .linear
  else if name = "GroupSort2" then .ok .groupSort2
  else .error .valueError

/-- Models which activation functions return (`ok`) rather than raise, for `dc_decomp`; `elu`, `selu`, `hard_sigmoid` and
`group_sort_2` always raise (activations.py:226-323, 504-516), those built on `linear_hull_s_shape` (151-152), `softmax` (467-468),
`softplus` (403-404) and `exp` (layers/utils.py:1163-1164) raise for `dc_decomp=True`. -/
def actCall (dc : Bool) : Act → Except PyErr Unit
  | .elu | .selu | .hardSigmoid | .groupSort2 => .error .notImplemented
  | .softmax | .softplus | .softsign | .sigmoid | .tanh | .exponential => raisesOnDc dc ()
  | .relu | .linear => .ok ()

/-- Models the parameter guard of `relu`, layers/activations.py:70-82. -/
def reluGuard {α : Type*} [Field α] [DecidableEq α] (alpha : α) (maxValue : Option α) (threshold : α) : Except PyErr Unit :=
  if threshold ≠ 0 then .error .notImplemented
  else if alpha = 0 ∧ maxValue = none then .ok ()
  else .error .notImplemented

/-- Python's `str.lower` on ASCII names. -/
def asciiLower (s : String) : String := String.ofList (s.toList.map Char.toLower)

end Decomon
