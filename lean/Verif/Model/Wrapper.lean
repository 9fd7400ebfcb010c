import Verif.Model.Core
import Mathlib.Data.List.FinRange

/-!
Model of `/repo/src/decomon/wrapper.py` and `/repo/src/decomon/wrapper_with_tuning.py`.

A decomon model is a function from the (flattened) input box, resp. centre, of one sample to the tensors of its output; the batch is a
list.  `κ` indexes the outputs.  Images are supposed to be given flattened, except where said otherwise.
-/

namespace Decomon

/-- A box `(x_min, x_max)`. -/
abbrev BoxOf (ι α : Type*) := (ι → α) × (ι → α)

/-! ### Lists as one-dimensional arrays -/

section Arrays
variable {τ α : Type*} [Zero α] [LinearOrder α]

/-- Models `[x[bs * i : bs * (i + 1)] for i in range(len(x) // bs + r)]`, with `r = 1` when `len(x) % bs > 0`, wrapper.py:114-120
(the same lines in every function of the file). -/
def batches (bs : ℕ) (xs : List τ) : List (List τ) :=
  (List.range (xs.length / bs + if 0 < xs.length % bs then 1 else 0)).map fun i => pySlice (bs * i) (bs * (i + 1)) xs

/-- `np.reshape(l, (-1, k))` on a one-dimensional array whose length is a multiple of `k`. -/
def regroup (k : ℕ) (l : List τ) : List (List τ) :=
  (List.range (l.length / k)).map fun i => pySlice (k * i) (k * (i + 1)) l

/-- `np.max` of a non-empty list. -/
def listMax : List α → α
  | [] => 0
  | a :: l => l.foldl max a

/-- `np.min` of a non-empty list. -/
def listMin : List α → α
  | [] => 0
  | a :: l => l.foldl min a

/-- A list comprehension whose elements may raise. -/
def collect : List (Except PyErr τ) → Except PyErr (List τ)
  | [] => .ok []
  | .error e :: _ => .error e
  | .ok a :: l =>
    match collect l with
    | .ok r => .ok (a :: r)
    | .error e => .error e

/-- Row-major data of an array of shape `(N, d)`. -/
def flatRows {d : ℕ} (rows : List (Fin d → α)) : List α := rows.flatMap List.ofFn

/-- `np.argmax` (first index that attains the maximum). -/
def argmax {n : ℕ} (v : Fin (n + 1) → α) : Fin (n + 1) :=
  (List.finRange (n + 1)).foldl (fun best i => if v best < v i then i else best) 0

end Arrays

/-! ### Splitting boxes -/

section Refine
variable {n : ℕ} {α : Type*} [Field α] [LinearOrder α]

/-- The width of a box along each coordinate. -/
def boxWidth {ι : Type*} (b : BoxOf ι α) : ι → α := fun i => b.2 i - b.1 i

/-- The half of a box below the middle of coordinate `j`. -/
def lowHalf {ι : Type*} [DecidableEq ι] (b : BoxOf ι α) (j : ι) : BoxOf ι α := (b.1, Function.update b.2 j ((b.1 j + b.2 j) / 2))

/-- The half of a box above the middle of coordinate `j`. -/
def highHalf {ι : Type*} [DecidableEq ι] (b : BoxOf ι α) (j : ι) : BoxOf ι α := (Function.update b.1 j ((b.1 j + b.2 j) / 2), b.2)

/-- Models the inner function `split` of `refine_boxes`, wrapper.py:773-791, on the boxes of one sample, with
`j = np.argmax(X_max - X_min, -1)` (line 796): all the lower halves, then all the upper halves. -/
def splitBoxes (bs : List (BoxOf (Fin (n + 1)) α)) : List (BoxOf (Fin (n + 1)) α) :=
  bs.map (fun b => lowHalf b (argmax (boxWidth b))) ++ bs.map (fun b => highHalf b (argmax (boxWidth b)))

/-- Models the loop of `refine_boxes`, wrapper.py:793-798; `fuel` bounds the number of iterations. -/
def refineLoop : ℕ → ℕ → List (BoxOf (Fin (n + 1)) α) → List (BoxOf (Fin (n + 1)) α)
  | 0, _, bs => bs
  | fuel + 1, nSub, bs => if 2 * bs.length ≤ nSub then refineLoop fuel nSub (splitBoxes bs) else bs

/-- Models `refine_boxes` for one sample, wrapper.py:758-804.  `flat` tells whether the inputs have shape `(batch, n)`; otherwise
lines 764-766 flatten them and overwrite `x_max` with `x_min`.  (The final reshape of lines 801-803 is not modelled.) -/
def refineBoxes (flat : Bool) (nSub : ℕ) (b : BoxOf (Fin (n + 1)) α) : List (BoxOf (Fin (n + 1)) α) :=
  refineLoop nSub nSub [(b.1, if flat then b.2 else b.1)]

/-- One iteration of the loop of `refine_box`, wrapper.py:887-900: box `i` is cut along coordinate `j`; its lower half replaces it and
its upper half is added. -/
def refineStep {ι : Type*} [DecidableEq ι] (bs : List (BoxOf ι α)) (i : ℕ) (j : ι) : List (BoxOf ι α) :=
  match bs[i]? with
  | some b => bs.set i (lowHalf b j) ++ [highHalf b j]
  | none => bs

/-- Models the loop of `refine_box` with `random=False`, wrapper.py:876-901: `widths` is `index_max[n_i, :count]`; `fuel` bounds the
number of iterations. -/
def refineBoxLoop : ℕ → ℕ → List (BoxOf (Fin (n + 1)) α) → List (Fin (n + 1) → α) → List (BoxOf (Fin (n + 1)) α)
  | 0, _, bs, _ => bs
  | fuel + 1, nSplit, bs, widths =>
    if bs.length < nSplit then
      let vals := widths.map fun w => w (argmax w)
      let i := vals.findIdx (· = listMax vals)
      match widths[i]? with
      | none => bs
      | some w =>
        let j := argmax w
        let w' := Function.update w j (w j / 2)
        refineBoxLoop fuel nSplit (refineStep bs i j) (widths.set i w' ++ [w'])
    else bs

/-- The functions that `refine_box` accepts, wrapper.py:818-821, and any other one. -/
inductive WrapFunc
  | upperBox
  | lowerBox
  | advBox
  | checkAdvBox
  | rangeBox
  | other
  deriving DecidableEq

/-- The exceptions of `refine_box` that do not depend on the values, for an array of labels of shape `(nx, nOut)` and `batch_size ≤ 0`:
wrapper.py:818-821 (unknown function), 840-841 (`n_split = 0`), 884 (`np.random.randint(0)` at the first iteration), 853-874 (no result
for `get_range_box`; the labels are reshaped to `nx * nSplit` rows by `prepare_labels`, then back to `nOut` columns by the score, and
broadcast against `nx * nSplit` rows).  `none` when nothing is raised. -/
def refineBoxErr (f : WrapFunc) (random : Bool) (nx nSplit nOut : ℕ) : Option PyErr :=
  if f = .other then some .notImplemented
  else if nSplit = 0 then some .indexError
  else if random = true ∧ 2 ≤ nSplit ∧ 0 < nx then some .valueError
  else match f with
    | .rangeBox => some .notImplemented
    | .upperBox => none
    | .lowerBox => none
    | _ => if nSplit ∣ nOut ∧ (nx = 1 ∨ nx = nx * nSplit) then none else some .valueError

/-- Models the result of `refine_box` with `random=False` for one sample, wrapper.py:903-909: the maximum, resp. minimum, of the
results of `func` on the boxes. -/
def refineBox {κ : Type*} (maximize : Bool) (func : BoxOf (Fin (n + 1)) α → κ → α) (nSplit : ℕ) (b : BoxOf (Fin (n + 1)) α) (k : κ) : α :=
  let bs := refineBoxLoop nSplit nSplit [b] [boxWidth b]
  if maximize then listMax (bs.map fun c => func c k) else listMin (bs.map fun c => func c k)

end Refine

/-! ### Ranges on boxes -/

section Range
variable {n : ℕ} {ι κ X α : Type*} [Fintype ι] [Field α] [LinearOrder α]

/-- Upper bound of one sample, wrapper.py:534-584. -/
def rangeUpper (m : Mode) (b : BoxOf ι α) (f : Full X ι κ α) (k : κ) : α :=
  match m with
  | .hybrid => min (f.uc k) (getUpperBox b.1 b.2 (fun i => f.wu i k) (f.bu k))
  | .ibp => f.uc k
  | .affine => getUpperBox b.1 b.2 (fun i => f.wu i k) (f.bu k)

/-- Lower bound of one sample, wrapper.py:534-584. -/
def rangeLower (m : Mode) (b : BoxOf ι α) (f : Full X ι κ α) (k : κ) : α :=
  match m with
  | .hybrid => max (f.lc k) (getLowerBox b.1 b.2 (fun i => f.wl i k) (f.bl k))
  | .ibp => f.lc k
  | .affine => getLowerBox b.1 b.2 (fun i => f.wl i k) (f.bl k)

/-- The test `np.min(x_max - x_min) < 0`, wrapper.py:489-490.  Simplified: for an empty list `np.min` raises `ValueError`; here and in the
functions below an empty list of samples is accepted and gives empty results. -/
def badBoxes (bs : List (BoxOf ι α)) : Bool := bs.any fun b => decide (∃ i, boxWidth b i < 0)

/-- Models `get_range_box` with `batch_size = -1` and `n_sub_boxes = 1`: the rows of the two returned arrays. -/
def rangeBase (net : BoxOf ι α → Full X ι κ α) (m : Mode) (bs : List (BoxOf ι α)) :
    Except PyErr (List ((κ → α) × (κ → α))) :=
  if badBoxes bs then .error .userWarning
  else .ok (bs.map fun b => (rangeUpper m b (net b), rangeLower m b (net b)))

/-- Models the split of a batch into sub-boxes, wrapper.py:503-509 (also 82-88): the sub-boxes of all the samples and `n_split`. -/
def subBoxes (nSub : ℕ) (bs : List (BoxOf (Fin (n + 1)) α)) : List (BoxOf (Fin (n + 1)) α) × ℕ :=
  if 1 < nSub then (bs.flatMap (refineBoxes true nSub), (bs.head?.map fun b => (refineBoxes true nSub b).length).getD 1) else (bs, 1)

/-- Models `get_range_box`, wrapper.py:468-594, for outputs of shape `(batch, d)`.  `batch = 0` stands for `batch_size ≤ 0`.  Returns
the row-major data of `u_out` and `l_out`: their shape is `(N, d)` when `n_split = 1`, `(N * d,)` otherwise (lines 591-593). -/
def getRangeBox {d : ℕ} (net : BoxOf (Fin (n + 1)) α → Full X (Fin (n + 1)) (Fin d) α) (m : Mode) (batch nSub : ℕ)
    (bs : List (BoxOf (Fin (n + 1)) α)) : Except PyErr (List α × List α) :=
  if badBoxes bs then .error .userWarning
  else
    let (sub, nSplit) := subBoxes nSub bs
    match (if 0 < batch then collect ((batches batch sub).map (rangeBase net m)) else collect [rangeBase net m sub]) with
    | .error e => .error e
    | .ok rs =>
      let u := flatRows (rs.flatten.map Prod.fst)
      let l := flatRows (rs.flatten.map Prod.snd)
      if 1 < nSplit then .ok ((regroup nSplit u).map listMax, (regroup nSplit l).map listMin) else .ok (u, l)

end Range

/-! ### Adversarial scores -/

section Adv
variable {n : ℕ} {ι κ X α : Type*} [Fintype ι] [Fintype κ] [Nonempty κ] [Field α] [LinearOrder α]

/-- `upper` of `get_ibp_score`, wrapper.py:157-176. -/
def ibpPair (f : Full X ι κ α) (t s : κ) : α := f.uc t - f.lc s

/-- `upper` of `get_affine_score`, wrapper.py:184-224. -/
def affinePair (b : BoxOf ι α) (f : Full X ι κ α) (t s : κ) : α :=
  getUpperBox b.1 b.2 (fun i => f.wu i t - f.wl i s) (f.bu t - f.bl s)

/-- Models the penalty on the pairs that are not (target, source) and the maximum, wrapper.py:177-182 and 225-230.  A sample is
`(upper, source, target)`; `const` is computed on the whole batch. -/
def maskedScores (rows : List ((κ → κ → α) × (κ → α) × (κ → α))) : List α :=
  let hi := listMax (rows.map fun r => maxOver fun ts : κ × κ => r.1 ts.1 ts.2)
  let lo := listMin (rows.map fun r => minOver fun ts : κ × κ => r.1 ts.1 ts.2)
  rows.map fun r => maxOver fun ts : κ × κ => r.1 ts.1 ts.2 - (1 - r.2.2 ts.1 * r.2.1 ts.2) * (hi - lo + 1 / 10)

/-- One sample of `get_adv_box`: box, source and target labels as 0/1 vectors (`target_labels=None` is `1 - source`, line 165). -/
structure AdvSample (ι κ α : Type*) where
  box : BoxOf ι α
  src : κ → α
  tgt : κ → α

/-- Models `get_adv_box` with `batch_size = -1`, `n_sub_boxes = 1` and a model without backward bounds, wrapper.py:145-255. -/
def advBase (net : BoxOf ι α → Full X ι κ α) (m : Mode) (rows : List (AdvSample ι κ α)) : Except PyErr (List α) :=
  if badBoxes (rows.map AdvSample.box) then .error .userWarning
  else
    let ibpS := maskedScores (rows.map fun r => (ibpPair (net r.box), r.src, r.tgt))
    let affS := maskedScores (rows.map fun r => (affinePair r.box (net r.box), r.src, r.tgt))
    match m with
    | .ibp => .ok ibpS
    | .affine => .ok affS
    | .hybrid => .ok (List.zipWith min ibpS affS)

/-- Models `get_adv_box`, wrapper.py:41-260, for a model without backward bounds and labels given as arrays.  `batch = 0` stands for
`batch_size ≤ 0`. -/
def getAdvBox (net : BoxOf (Fin (n + 1)) α → Full X (Fin (n + 1)) κ α) (m : Mode) (batch nSub : ℕ)
    (rows : List (AdvSample (Fin (n + 1)) κ α)) : Except PyErr (List α) :=
  if badBoxes (rows.map AdvSample.box) then .error .userWarning
  else
    let sub := if 1 < nSub then rows.flatMap (fun r => (refineBoxes true nSub r.box).map fun b => ⟨b, r.src, r.tgt⟩) else rows
    let nSplit := (subBoxes nSub (rows.map AdvSample.box)).2
    match (if 0 < batch then collect ((batches batch sub).map (advBase net m)) else collect [advBase net m sub]) with
    | .error e => .error e
    | .ok rs => if 1 < nSplit then .ok ((regroup nSplit rs.flatten).map listMax) else .ok rs.flatten

/-- Models the case of a model with backward bounds, wrapper.py:151-153: the matrix passed as backward bounds. -/
def advBackMatrix [DecidableEq κ] (src : κ → α) (i j : κ) : α := (if i = j then 1 else 0) - src i

/-- Models the score in that case, wrapper.py:173-174 and 210-217: the maximum over the columns of the upper bounds. -/
def advBackScore (u : κ → α) : α := maxOver u

/-- Models the reading of a label given as an integer `c` for `nBatch` samples and `nOut` outputs: `prepare_labels`, wrapper.py:30-38,
gives an array of shape `(nBatch, 1)` filled with `c`; the score reshapes it to `(-1, nOut)` (lines 169-170) and broadcasts the mask of
shape `(rows, nOut, nOut)` against `(nBatch, nOut, nOut)` (lines 178-180).  Returns the mask entry of every pair. -/
def intLabelMask (nBatch nOut : ℕ) (c : α) : Except PyErr α :=
  if nBatch % nOut ≠ 0 then .error .valueError
  else if nBatch / nOut = nBatch ∨ nBatch / nOut = 1 ∨ nBatch = 1 then .ok ((1 - c) * c)
  else .error .valueError

/-- Entry of `check_adv_box` for the pair `(t, s)`: upper and lower tensors are exchanged in the call, wrapper.py:418; in ibp mode the
constant bounds are turned into affine bounds with zero weights (lines 365-371). -/
def checkPair (m : Mode) (b : BoxOf ι α) (f : Full X ι κ α) (t s : κ) : α :=
  match m with
  | .ibp => getUpperBox b.1 b.2 (fun _ => 0 - 0) (f.lc t - f.uc s)
  | _ => getUpperBox b.1 b.2 (fun i => f.wl i t - f.wu i s) (f.bl t - f.bu s)

/-- Models `check_adv_box` for one batch, wrapper.py:289-418: the target labels are not passed, so that the targets are
all labels that are not sources. -/
def checkAdvBase (net : BoxOf ι α → Full X ι κ α) (m : Mode) (rows : List (AdvSample ι κ α)) : Except PyErr (List α) :=
  if badBoxes (rows.map AdvSample.box) then .error .userWarning
  else
    .ok (maskedScores (rows.map fun r =>
      (checkPair m r.box (net r.box), r.src, fun k => 1 - r.src k)))

end Adv

/-! ### Balls -/

section Noise
variable {ι κ X : Type*} [Fintype ι] [Nonempty ι]

/-- `np.linalg.norm(w, ord=_get_dual_ord(p))`, wrapper.py:19-27, 710 and 728. -/
noncomputable def dualNorm (p : PVal) (w : ι → ℝ) : Except PyErr ℝ :=
  if p = .inf then .ok (∑ i, |w i|)
  else if p = .fin 1 then .ok (maxOver fun i => |w i|)
  else if p = .fin 2 then .ok (Real.sqrt (∑ i, w i ^ 2))
  else .error .valueError

/-- Upper bound of `get_range_noise` for one sample, wrapper.py:701-749. -/
noncomputable def noiseUpper (m : Mode) (eps : ℝ) (p : PVal) (x : ι → ℝ) (f : Full X ι κ ℝ) (k : κ) : Except PyErr ℝ :=
  match dualNorm p (fun i => f.wu i k) with
  | .error e => .error e
  | .ok nrm =>
    let uf := eps * nrm + ∑ i, f.wu i k * x i + f.bu k
    .ok (match m with
      | .hybrid => min (f.uc k) uf
      | .ibp => f.uc k
      | .affine => uf)

/-- Lower bound of `get_range_noise` for one sample, wrapper.py:701-749. -/
noncomputable def noiseLower (m : Mode) (eps : ℝ) (p : PVal) (x : ι → ℝ) (f : Full X ι κ ℝ) (k : κ) : Except PyErr ℝ :=
  match dualNorm p (fun i => f.wl i k) with
  | .error e => .error e
  | .ok nrm =>
    let lf := -eps * nrm + ∑ i, f.wl i k * x i + f.bl k
    .ok (match m with
      | .hybrid => max (f.lc k) lf
      | .ibp => f.lc k
      | .affine => lf)

/-- Models `_check_domain` as used by `set_domain`, models.py:66-67 and 117-123: only the parameters of the domain can change.
`true` for a ball, `false` for a box. -/
def setDomainKind (prev new : Bool) : Except PyErr Bool := if prev = new then .ok new else .error .notImplemented

/-- Models `get_adv_noise` on one batch, wrapper.py:912-1112.  `isDecomon = false`: a Keras model has no `perturbation_domain` (line
950).  Lines 1086-1093: the `else` of the third `if` raises in affine and hybrid mode. -/
noncomputable def advNoise [Fintype κ] [Nonempty κ] (isDecomon : Bool) (m : Mode) (rows : List (Full X ι κ ℝ × (κ → ℝ) × (κ → ℝ))) :
    Except PyErr (List ℝ) :=
  if isDecomon = false then .error .attributeError
  else match m with
    | .ibp => .ok (maskedScores (rows.map fun r => (ibpPair r.1, r.2.1, r.2.2)))
    | _ => .error .notImplemented

end Noise

/-! ### Tuning -/

section Tuning
variable {α : Type*} [LinearOrder α]

/-- Models the value returned by `get_upper_box_tuning` on one batch without sub-boxes, wrapper_with_tuning.py:79-96: `after` is the
bound with the tuned parameters. -/
def upperTuning (baseline after : α) : α := min baseline after

/-- Models the value returned by `get_lower_box_tuning`, wrapper_with_tuning.py:166-183. -/
def lowerTuning (baseline after : α) : α := min baseline after

/-- Number of values returned by `get_upper_box_tuning` for `nx` boxes split in `nSplit` sub-boxes each (one output),
wrapper_with_tuning.py:46-96: with `batch_size > 1` the values of the sub-boxes are concatenated; otherwise the bounds of the `nx`
boxes are broadcast against those of the `nx * nSplit` sub-boxes. -/
def upperTuningCount (batch nx nSplit : ℕ) : Except PyErr ℕ :=
  if 1 < batch then .ok (nx * nSplit)
  else if nx = nx * nSplit ∨ nx = 1 ∨ nx * nSplit = 1 then .ok (nx * nSplit)
  else .error .valueError

end Tuning

end Decomon
