import Verif.Model.Activations
import Verif.Model.Layers
import Verif.Model.Network
import Mathlib.Analysis.SpecialFunctions.Sigmoid

/-!
Model of `/repo/src/decomon/metrics/metric.py`, `metrics/loss.py` and `metrics/utils.py`.

One sample at a time, except for the mean over the batch at the end of the loss functions (a `List` of samples).
-/

namespace Decomon

/-! ### metric.py -/

section Scores
variable {X ι κ α : Type*} [Fintype κ] [Nonempty κ] [Field α] [LinearOrder α]

/-- Models `_get_ibp_score`, metric.py:380-399. -/
def metricIbp (uc lc src tgt : κ → α) : α :=
  maxOver fun j => lc j * tgt j - (minOver fun k => uc k * src k) - 1000000 * (1 - tgt j)

/-- Models `_get_affine_score`, metric.py:402-432; pairs are (source axis, target axis). -/
def metricAffine (D : PertDomain X ι α) (x : X) (wu : ι → κ → α) (bu : κ → α) (wl : ι → κ → α) (bl src tgt : κ → α) : α :=
  maxOver fun q : κ × κ =>
    D.getUpper x (fun i => wl i q.2 - wu i q.1) (bl q.2 - bu q.1 - 1000000 * (1 - tgt q.2) - 1000000 * (1 - src q.1))

/-- Models `AdversarialCheck.call`, metric.py:117-161.  `back` are the backward tensors (lines 154-159), whose leading axis is taken at
index 0. -/
def advCheckCall (D : PertDomain X ι α) (m : Mode) (back : Option (Full X ι κ α)) (f : Full X ι κ α) (src : κ → α) : α :=
  let ibp := metricIbp f.uc f.lc src fun k => 1 - src k
  let aff := metricAffine D f.x f.wu f.bu f.wl f.bl src fun k => 1 - src k
  let score := match m with
    | .ibp => ibp
    | .hybrid => min ibp aff
    | .affine => aff
  match back with
  | none => score
  | some b => min score (metricAffine D f.x b.wu b.bu b.wl b.bl src fun k => 1 - src k)

/-- Models `AdversarialScore.call`, metric.py:189-239: lower and upper tensors are exchanged, except in the backward score
(lines 232-237). -/
def advScoreCall (D : PertDomain X ι α) (m : Mode) (back : Option (Full X ι κ α)) (f : Full X ι κ α) (src : κ → α) : α :=
  let ibp := metricIbp f.lc f.uc src fun k => 1 - src k
  let aff := metricAffine D f.x f.wl f.bl f.wu f.bu src fun k => 1 - src k
  let score := match m with
    | .ibp => ibp
    | .hybrid => min ibp aff
    | .affine => aff
  match back with
  | none => score
  | some b => min score (metricAffine D f.x b.wu b.bu b.wl b.bl src fun k => 1 - src k)

/-- Models `AdversarialCheck.linear_adv`, metric.py:101-115: the weights of the sources are summed (line 110), their biases are not
(line 111). -/
def linearAdv (D : PertDomain X ι α) (x : X) (y : κ → α) (wu : ι → κ → α) (bu : κ → α) (wl : ι → κ → α) (bl : κ → α) : α :=
  maxOver fun k => D.getUpper x (fun i => wu i k * (1 - y k) - ∑ j, wl i j * y j) (bu k * (1 - y k) - bl k * y k) - 1000000 * y k

end Scores

section Upper
variable {X ι κ α : Type*} [Fintype κ] [Field α] [LinearOrder α]

/-- Models `UpperScore.linear_upper`, metric.py:313-319. -/
def linearUpper (D : PertDomain X ι α) (x : X) (y : κ → α) (wu : ι → κ → α) (bu : κ → α) : α :=
  ∑ k, D.getUpper x (fun i => wu i k * y k) (bu k * y k)

/-- Models `UpperScore.call`, metric.py:321-354.  In affine mode the tuple of four names receives the six tensors `inputs[:6]`
(line 341). -/
def upperScoreCall (D : PertDomain X ι α) (m : Mode) (back : Option (Full X ι κ α)) (f : Full X ι κ α) (y : κ → α) : Except PyErr α :=
  match m with
  | .affine => .error .valueError
  | .ibp =>
    let s := ∑ k, f.uc k * y k
    .ok (match back with
      | none => s
      | some b => min s (linearUpper D f.x y b.wu b.bu))
  | .hybrid =>
    let s := min (∑ k, f.uc k * y k) (linearUpper D f.x y f.wu f.bu)
    .ok (match back with
      | none => s
      | some b => min s (linearUpper D f.x y b.wu b.bu))

end Upper

/-- The attributes set by `DecomonModel.__init__`, models.py:34-44 (`keras.Model` has no attribute `mode` either). -/
def decomonModelAttrs : List String :=
  ["perturbation_domain", "dc_decomp", "method", "ibp", "affine", "finetune", "backward_bounds", "shared"]

/-- Reading an attribute of a `DecomonModel`. -/
def readAttr (attrs : List String) (a : String) : Except PyErr Unit :=
  if a ∈ attrs then .ok () else .error .attributeError

/-- The tensors a metric layer unpacks from its inputs, metric.py:129-136, 201-208: a first tensor that is dropped, then those of the
mode; in ibp mode the tensor `x` is expected too. -/
def metricUnpack {τ : Type*} (m : Mode) (e : τ) (l : List τ) : Except PyErr (Nine τ) :=
  match m, l.take (match m with | .hybrid => 8 | .affine => 6 | .ibp => 4) with
  | .hybrid, [_, x, uc, wu, bu, lc, wl, bl] => .ok ⟨x, uc, wu, bu, lc, wl, bl, e, e⟩
  | .affine, [_, x, wu, bu, wl, bl] => .ok ⟨x, e, wu, bu, e, wl, bl, e, e⟩
  | .ibp, [_, x, uc, lc] => .ok ⟨x, uc, e, e, lc, e, e, e, e⟩
  | _, _ => .error .valueError

/-- Models `build_formal_adv_check_model`, `build_formal_adv_model` and `build_formal_upper_model`, metric.py:242-262, 265-285, 357-377:
the layer is built with `decomon_model.mode`, then called on `decomon_model.output + [y]`. -/
def buildFormal {τ : Type*} (attrs : List String) (m : Mode) (e : τ) (outputs : List τ) (y : τ) : Except PyErr (Nine τ) :=
  match readAttr attrs "mode" with
  | .error err => .error err
  | .ok () => metricUnpack m e (outputs ++ [y])

/-! ### loss.py: packing -/

section Packing
variable {α : Type*} [Field α] [LinearOrder α]

/-- `K.concatenate([a, b], 1)` of two matrices, the first with `n` rows. -/
def catRows (n : ℕ) (a b : ℕ → ℕ → α) : ℕ → ℕ → α := fun r c => if r < n then a r c else b (r - n) c

/-- `K.concatenate([a, b], -1)` of two matrices, the first with `n` columns. -/
def catCols (n : ℕ) (a b : ℕ → ℕ → α) : ℕ → ℕ → α := fun r c => if c < n then a r c else b r (c - n)

/-- A matrix given on `Fin r × Fin c`, as a function on all positions (0 outside). -/
def asMatrix {r c : ℕ} (a : Fin r → Fin c → α) : ℕ → ℕ → α :=
  fun i j => if h : i < r ∧ j < c then a ⟨i, h.1⟩ ⟨j, h.2⟩ else 0

/-- A vector as a matrix of one row. -/
def asRow {c : ℕ} (a : Fin c → α) : ℕ → ℕ → α := asMatrix fun _ : Fin 1 => a

/-- Models the `func` of `get_model`, affine mode, loss.py:45-60. -/
def packAffine {nc nIn nOut : ℕ} (f : Full (Fin nc → Fin nIn → α) (Fin nIn) (Fin nOut) α) : ℕ → ℕ → α :=
  let x0 := asMatrix fun i c => f.x c i
  let fake := asRow fun c => ∑ i, f.x c i
  let wbu := catRows nIn (asMatrix f.wu) (asRow f.bu)
  let wbl := catRows nIn (asMatrix f.wl) (asRow f.bl)
  catCols nc (catRows nIn x0 fake) (catCols nOut wbu wbl)

/-- Models the `func` of `get_model`, hybrid mode, loss.py:64-85. -/
def packHybrid {nc nIn nOut : ℕ} (f : Full (Fin nc → Fin nIn → α) (Fin nIn) (Fin nOut) α) : ℕ → ℕ → α :=
  let x0 := asMatrix fun i c => f.x c i
  let fake := asRow fun c => ∑ i, f.x c i
  let wbu := catRows nIn (asMatrix f.wu) (asRow f.bu)
  let wbl := catRows nIn (asMatrix f.wl) (asRow f.bl)
  let ul := catCols nOut (asRow f.uc) (asRow f.lc)
  catCols nc (catRows nIn x0 (catRows 1 fake fake)) (catRows (nIn + 1) (catCols nOut wbu wbl) ul)

/-- Models the `func` of `get_model`, ibp mode, loss.py:37-41. -/
def packIbp {X : Type*} {nIn nOut : ℕ} (f : Full X (Fin nIn) (Fin nOut) α) : ℕ → ℕ → α :=
  catCols 1 (asMatrix fun (k : Fin nOut) (_ : Fin 1) => f.uc k) (asMatrix fun (k : Fin nOut) (_ : Fin 1) => f.lc k)

/-- Models the slices of `loss_upper`, `loss_lower` and `loss_adv` (`y_pred` has rank 3), loss.py:120-146, 182-208, 276-310.
In ibp mode there is no `x`. -/
def unpackLoss (nc nIn nOut : ℕ) (m : Mode) (y : ℕ → ℕ → α) : Full (Fin nc → Fin nIn → α) (Fin nIn) (Fin nOut) α :=
  match m with
  | .ibp => ⟨fun _ _ => 0, fun k => y k 0, fun _ _ => 0, fun _ => 0, fun k => y k 1, fun _ _ => 0, fun _ => 0, fun _ => 0, fun _ => 0⟩
  | .affine =>
    let rows := nIn + 1
    ⟨fun c i => y i c, fun _ => 0, fun i k => y i (nc + k), fun k => y (rows - 1) (nc + k), fun _ => 0, fun i k => y i (nc + nOut + k),
      fun k => y (rows - 1) (nc + nOut + k), fun _ => 0, fun _ => 0⟩
  | .hybrid =>
    let rows := nIn + 2
    ⟨fun c i => y i c, fun k => y (rows - 1) (nc + k), fun i k => y i (nc + k), fun k => y (rows - 2) (nc + k),
      fun k => y (rows - 1) (nc + nOut + k), fun i k => y i (nc + nOut + k), fun k => y (rows - 2) (nc + nOut + k), fun _ => 0,
      fun _ => 0⟩

/-- Models `get_model`, loss.py:24-97. -/
def packLoss {nc nIn nOut : ℕ} (m : Mode) (f : Full (Fin nc → Fin nIn → α) (Fin nIn) (Fin nOut) α) : ℕ → ℕ → α :=
  match m with
  | .ibp => packIbp f
  | .affine => packAffine f
  | .hybrid => packHybrid f

/-- `BoxDomain` on the tensor `x` of shape `(2, n_in)`, core.py:59-71. -/
def boxDomain2 {ι : Type*} [Fintype ι] : PertDomain (Fin 2 → ι → α) ι α where
  getUpper x w b := getUpperBox (x 0) (x 1) w b
  getLower x w b := getLowerBox (x 0) (x 1) w b

/-- `get_upper_ball` with `p = inf` (core.py:563-569) on a centre of shape `(1, n)`, the one given by the slices of the losses, and
square weights: `w * x_max` broadcasts the centre along the *rows* of `w`. -/
def upperBallInfRank3 {n : ℕ} (x : Fin 1 → Fin n → α) (eps : α) (w : Fin n → Fin n → α) (b : Fin n → α) (k : Fin n) : α :=
  (∑ i, (max (w i k) 0 * (x 0 k + eps) + min (w i k) 0 * (x 0 k - eps))) + b k

/-- The shape of the same product when the weights have shape `(nIn, nOut)`: number of columns. -/
def upperBallRank3Shape (nIn nOut : ℕ) : Except PyErr ℕ :=
  if nOut = nIn ∨ nIn = 1 then .ok nOut else if nOut = 1 then .ok nIn else .error .valueError

end Packing

/-! ### loss.py: losses -/

section Losses
variable {X ι κ α : Type*} [Fintype κ] [Nonempty κ] [Field α] [LinearOrder α]

/-- `K.mean` over the batch. -/
def batchMean (l : List α) : α := l.sum / l.length

/-- Models `loss_upper` for one sample, loss.py:110-157. -/
def upperLossOne (D : PertDomain X ι α) (m : Mode) (f : Full X ι κ α) (ref : κ → α) : α :=
  let ibp := maxOver fun k => f.uc k - ref k
  let aff := maxOver fun k => D.getUpper f.x (fun i => f.wu i k) (f.bu k) - ref k
  match m with
  | .ibp => ibp
  | .affine => aff
  | .hybrid => min ibp aff

/-- Models `loss_lower` for one sample, loss.py:172-219. -/
def lowerLossOne (D : PertDomain X ι α) (m : Mode) (f : Full X ι κ α) (ref : κ → α) : α :=
  let ibp := maxOver fun k => ref k - f.lc k
  let aff := maxOver fun k => ref k - D.getLower f.x (fun i => f.wl i k) (f.bl k)
  match m with
  | .ibp => ibp
  | .affine => aff
  | .hybrid => min ibp aff

/-- The mask and maximum shared by `adv_ibp` and `adv_affine`, loss.py:237-246, 263-273 and 409-418; pairs are (target, source). -/
def lossMask (upper : κ → κ → α) (y : κ → α) : α :=
  let const := (maxOver fun q : κ × κ => upper q.1 q.2) - (minOver fun q : κ × κ => upper q.1 q.2)
  maxOver fun q : κ × κ => upper q.1 q.2 - (const + 1) * (1 - (1 - y q.1) * y q.2)

/-- Models `adv_ibp`, loss.py:236-246. -/
def advLossIbp (f : Full X ι κ α) (y : κ → α) : α := lossMask (fun t s => f.uc t - f.lc s) y

/-- Models `adv_affine`, loss.py:248-273. -/
def advLossAffine (D : PertDomain X ι α) (f : Full X ι κ α) (y : κ → α) : α :=
  lossMask (fun t s => D.getUpper f.x (fun i => f.wu i t - f.wl i s) (f.bu t - f.bl s)) y

/-- `K.maximum(score, clip_value)` when `clip_value` is given, loss.py:321-322, 325-326. -/
def clipScore (clip : Option α) (s : α) : α :=
  match clip with
  | none => s
  | some c => max s c

/-- Models `loss_adv` for one sample, without the final sigmoid, loss.py:275-342.  `sm` is the function `softmax_`; in hybrid mode it is
applied whatever the flag `softmax` (lines 312-314). -/
def advLossOne (D : PertDomain X ι α) (m : Mode) (softmax : Bool) (sm : Full X ι κ α → Full X ι κ α) (clip : Option α)
    (f : Full X ι κ α) (y : κ → α) : α :=
  let f := match m with
    | .hybrid => sm f
    | _ => if softmax then sm f else f
  let ibp := clipScore clip (advLossIbp f y)
  let aff := clipScore clip (advLossAffine D f y)
  match m with
  | .ibp => ibp
  | .affine => aff
  | .hybrid => min ibp aff

/-- Models `DecomonLossFusion.call_no_backward` with `asymptotic=True`, entry `i`, loss.py:404-425 (the source is row `i` of the
identity). -/
def fusionAsymptotic [DecidableEq κ] (uc lc : κ → α) (i : κ) : α :=
  max (lossMask (fun t s => uc t - lc s) fun k => if k = i then 1 else 0) (-1)

/-- The last steps of `radius_label`, loss.py:512-522: from the weights and bias of the margins to the score. -/
def radiusScore [Fintype ι] (eps : α) (xmin xmax : ι → α) (w : ι → κ → α) (b y : κ → α) : α :=
  maxOver fun j =>
    let score := (∑ i, w i j * ((xmin i + xmax i) / 2)) + b j
    let denum := max (∑ i, |w i j * max ((xmax i - xmin i) / 2) eps|) eps
    1 - min (- score / denum + y j) 2

/-- Models `DecomonRadiusRobust.call_no_backward`, entry `i`, loss.py:490-524. -/
def radiusRobust [Fintype ι] [DecidableEq κ] (eps : α) (xmin xmax : ι → α) (f : Full X ι κ α) (i : κ) : α :=
  let y : κ → α := fun k => if k = i then 1 else 0
  radiusScore eps xmin xmax
    (fun n j => (∑ k, - f.wl n k * y k) + f.wu n j * (1 - y j) + f.wl n j * y j)
    (fun j => (∑ k, - f.bl k * y k) + f.bu j * (1 - y j) + (f.bl j - 1000000) * y j) y

/-- Models `DecomonRadiusRobust.call_backward`, entry `i`, loss.py:526-554. -/
def radiusRobustBackward [Fintype ι] [DecidableEq κ] (eps : α) (xmin xmax : ι → α) (f : Full X ι κ α) (i : κ) : α :=
  let y : κ → α := fun k => if k = i then 1 else 0
  radiusScore eps xmin xmax f.wu (fun j => f.bu j - 1000000 * y j) y

end Losses

section RealLosses
variable {κ : Type*} [Fintype κ] [Nonempty κ]

/-- Models `DecomonLossFusion.call_no_backward`, entry `i`, loss.py:398-402. -/
noncomputable def fusionCall (uc lc : κ → ℝ) (i : κ) : ℝ :=
  - lc i + Real.log (∑ j, Real.exp (uc j - maxOver uc)) + maxOver uc

/-- Models `DecomonLossFusion.call_backward`, entry `i`, loss.py:427-433. -/
noncomputable def fusionBackward (uc : κ → ℝ) (i : κ) : ℝ := Real.exp (uc i) / ∑ j, Real.exp (uc j)

/-- The final mean of `loss_adv`, loss.py:328-342. -/
noncomputable def advLossMean (sigmoid : Bool) (l : List ℝ) : ℝ := batchMean (if sigmoid then l.map Real.sigmoid else l)

/-- Models `categorical_cross_entropy`, metrics/utils.py:11-33; entries are (row, position on the last axis).  `Ds` is the domain used
by `sum`, always `BoxDomain` because the argument is not passed (line 22). -/
noncomputable def catCrossEntropy {X ι κ ν : Type*} [Fintype ν] (D Ds : PertDomain X ι ℝ) (m : Mode) (eps : ℝ)
    (f : Full X ι (κ × ν) ℝ) : Full X ι (κ × ν) ℝ :=
  let e := expT D m eps f
  let s : Full X ι κ ℝ := sumT Ds m (fun q => q) e
  let l := logT D m eps s
  addT D m (minusT D m f) (l.reindex Prod.fst)

end RealLosses

end Decomon
