import Mathlib.Algebra.Order.BigOperators.Group.Finset
import Mathlib.Algebra.Order.Field.Basic
import Mathlib.Analysis.Real.Sqrt
import Mathlib.Data.Finset.Lattice.Fold
import Mathlib.Algebra.Order.BigOperators.Ring.Finset

/-!
Model of `/repo/src/decomon/core.py`.

Batch axis dropped.  A weight tensor of shape `(n_in, out)` is `ι → κ → α`, a constant tensor of shape `out`
is `κ → α`.
-/

namespace Decomon

/-- The Python exceptions that the modelled code can raise. -/
inductive PyErr
  | valueError
  | notImplemented
  | attributeError
  | indexError
  | keyError
  | typeError
  | userWarning
  | recursionError
  deriving DecidableEq, Repr

/-- Models `ForwardMode`, core.py:115-125. -/
inductive Mode
  | ibp
  | affine
  | hybrid
  deriving DecidableEq, Repr

/-- Models `get_mode`, core.py:128-135. -/
def getMode (ibp affine : Bool) : Mode :=
  if ibp then (if affine then Mode.hybrid else Mode.ibp) else Mode.affine

/-- Models `get_ibp`, core.py:138-142. -/
def getIbp : Mode → Bool
  | .hybrid => true
  | .ibp => true
  | .affine => false

/-- Models `get_affine`, core.py:145-149. -/
def getAffine : Mode → Bool
  | .hybrid => true
  | .affine => true
  | .ibp => false

/-- Models `InputsOutputsSpec.nb_tensors`, core.py:181-194. -/
def nbTensors (m : Mode) (dc : Bool) : ℕ :=
  (match m with
    | .hybrid => 7
    | .ibp => 2
    | .affine => 5) + (if dc then 2 else 0)

/-! ### Tensor lists, as Python lists of an arbitrary tensor type `τ` -/

section Lists
variable {τ : Type*}

/-- The nine names unpacked everywhere in decomon: `x, u_c, w_u, b_u, l_c, w_l, b_l, h, g`. -/
structure Nine (τ : Type*) where
  x : τ
  uc : τ
  wu : τ
  bu : τ
  lc : τ
  wl : τ
  bl : τ
  h : τ
  g : τ

/-- Models the unpacking part of `get_fullinputs_from_inputsformode`, core.py:293-328 (the tightening of lines 330-345 is
`Full.tighten` below).  `e` is the empty tensor of `get_empty_tensor`, core.py:459-463.  A list that is too short makes the
tuple assignment raise `ValueError`. -/
def fullInputsList (m : Mode) (dc : Bool) (e : τ) (l : List τ) : Except PyErr (Nine τ) :=
  match dc, m, l.take (nbTensors m dc) with
  | true, .hybrid, [x, uc, wu, bu, lc, wl, bl, h, g] => .ok ⟨x, uc, wu, bu, lc, wl, bl, h, g⟩
  | true, .ibp, [uc, lc, h, g] => .ok ⟨e, uc, e, e, lc, e, e, h, g⟩
  | true, .affine, [x, wu, bu, wl, bl, h, g] => .ok ⟨x, e, wu, bu, e, wl, bl, h, g⟩
  | false, .hybrid, [x, uc, wu, bu, lc, wl, bl] => .ok ⟨x, uc, wu, bu, lc, wl, bl, e, e⟩
  | false, .ibp, [uc, lc] => .ok ⟨e, uc, e, e, lc, e, e, e, e⟩
  | false, .affine, [x, wu, bu, wl, bl] => .ok ⟨x, e, wu, bu, e, wl, bl, e, e⟩
  | _, _, _ => .error .valueError

/-- Models `extract_inputsformode_from_fullinputs` (and the shape and output variants), core.py:426-457. -/
def extractForMode (m : Mode) (dc : Bool) (t : Nine τ) : List τ :=
  (match m with
    | .hybrid => [t.x, t.uc, t.wu, t.bu, t.lc, t.wl, t.bl]
    | .ibp => [t.uc, t.lc]
    | .affine => [t.x, t.wu, t.bu, t.wl, t.bl]) ++ (if dc then [t.h, t.g] else [])

/-- Python slice `l[a:b]` with `0 ≤ a`, `0 ≤ b`. -/
def pySlice (a b : ℕ) (l : List τ) : List τ := (l.take b).drop a

/-- Models `split_inputsformode_to_merge`, core.py:422-424. -/
def splitToMerge (m : Mode) (dc : Bool) (l : List τ) : List (List τ) :=
  (List.range (l.length / nbTensors m dc)).map
    fun i => pySlice (nbTensors m dc * i) (nbTensors m dc * (i + 1)) l

/-- Python extended slice `l[::n]` for `n ≥ 1`. -/
def everyNth (n : ℕ) : List τ → List τ
  | [] => []
  | a :: t => a :: everyNth n (t.drop (n - 1))
  termination_by l => l.length
  decreasing_by simp only [List.length_drop, List.length_cons]; omega

/-- Python extended slice `l[k::n]`. -/
def pyStride (k n : ℕ) (l : List τ) : List τ := everyNth n (l.drop k)

/-- Models the unpacking part of `get_fullinputs_by_type_from_inputsformode_to_merge`, core.py:364-401. -/
def fullInputsByType (m : Mode) (dc : Bool) (e : τ) (l : List τ) : Nine (List τ) :=
  let nb := nbTensors m dc
  let es := List.replicate (l.length / nb) e
  let h := if dc then pyStride (nb - 2) nb l else es
  let g := if dc then pyStride (nb - 1) nb l else es
  match m with
  | .hybrid =>
    ⟨pyStride 0 nb l, pyStride 1 nb l, pyStride 2 nb l, pyStride 3 nb l, pyStride 4 nb l, pyStride 5 nb l,
      pyStride 6 nb l, h, g⟩
  | .ibp => ⟨es, pyStride 0 nb l, es, es, pyStride 1 nb l, es, es, h, g⟩
  | .affine => ⟨pyStride 0 nb l, es, pyStride 1 nb l, pyStride 2 nb l, es, pyStride 3 nb l, pyStride 4 nb l, h, g⟩

end Lists

/-! ### Perturbation domains -/

section Domains
variable {ι α : Type*} [Fintype ι] [Field α] [LinearOrder α]

/-- Models `get_upper_box` for a full weight tensor, core.py:466-495 (lines 483-495). -/
def getUpperBox (xmin xmax : ι → α) (w : ι → α) (b : α) : α :=
  (∑ i, (max (w i) 0 * xmax i + min (w i) 0 * xmin i)) + b

/-- Models `get_lower_box` for a full weight tensor, core.py:498-525 (lines 513-525). -/
def getLowerBox (xmin xmax : ι → α) (w : ι → α) (b : α) : α :=
  (∑ i, (max (w i) 0 * xmin i + min (w i) 0 * xmax i)) + b

/-- Models the shortcut of `get_upper_box` when `w` and `b` have the same rank, core.py:480-481: `w` is taken to be the
(diagonal) identity and neither `w` nor `b` is read. -/
def getUpperBoxDiag (_xmin xmax : ι → α) (_w _b : ι → α) : ι → α := xmax

/-- Models the shortcut of `get_lower_box`, core.py:510-511. -/
def getLowerBoxDiag (xmin _xmax : ι → α) (_w _b : ι → α) : ι → α := xmin

/-- Models a `PerturbationDomain`: the two concretisation methods, core.py:25-56.  `X` is the type of the tensor `x`. -/
structure PertDomain (X ι α : Type*) where
  /-- `get_upper(x, w, b)` for one output coordinate. -/
  getUpper : X → (ι → α) → α → α
  /-- `get_lower(x, w, b)` for one output coordinate. -/
  getLower : X → (ι → α) → α → α

/-- Models `BoxDomain`, core.py:59-71; `x = (x_min, x_max)`. -/
def boxDomain : PertDomain ((ι → α) × (ι → α)) ι α where
  getUpper x w b := getUpperBox x.1 x.2 w b
  getLower x w b := getLowerBox x.1 x.2 w b

/-- Values that can be passed as `p`.  `other` stands for an object on which `int()` raises (a string, `nan`, `-inf`). -/
inductive PVal
  | inf
  | fin (q : ℚ)
  | other
  deriving DecidableEq

/-- Models the check of `BallDomain.__init__`, core.py:82-94: `int(p) != p or p <= 0`, or an exception in the test, raises
`ValueError`. -/
def ballDomainInit (p : PVal) : Except PyErr PVal :=
  match p with
  | .inf => .ok .inf
  | .fin q => if ((⌊q⌋ : ℤ) : ℚ) ≠ q ∨ q ≤ 0 then .error .valueError else .ok (.fin q)
  | .other => .error .valueError

/-- `K.max(t, axis)` over a non-empty finite axis. -/
def maxOver [Nonempty ι] (t : ι → α) : α := Finset.univ.sup' Finset.univ_nonempty t

/-- `K.min(t, axis)` over a non-empty finite axis. -/
def minOver [Nonempty ι] (t : ι → α) : α := Finset.univ.inf' Finset.univ_nonempty t

end Domains

section Balls
variable {ι : Type*} [Fintype ι]

/-- Models `get_lq_norm`, core.py:528-546. -/
noncomputable def getLqNorm [Nonempty ι] (w : ι → ℝ) (p : PVal) : Except PyErr ℝ :=
  if p = .fin 1 then .ok (maxOver fun i => |w i|)
  else if p = .fin 2 then .ok (Real.sqrt (∑ i, w i ^ 2))
  else .error .notImplemented

/-- Models `get_upper_ball` without finetuning, for a full weight tensor, core.py:549-583 (lines 565-583). -/
noncomputable def getUpperBall [Nonempty ι] (x0 : ι → ℝ) (eps : ℝ) (p : PVal) (w : ι → ℝ) (b : ℝ) : Except PyErr ℝ :=
  if p = .inf then .ok (getUpperBox (fun i => x0 i - eps) (fun i => x0 i + eps) w b)
  else do
    let n ← getLqNorm w p
    return (∑ i, w i * x0 i) + (eps * n + b)

/-- Models `get_lower_ball` without finetuning, for a full weight tensor, core.py:586-620 (lines 602-620). -/
noncomputable def getLowerBall [Nonempty ι] (x0 : ι → ℝ) (eps : ℝ) (p : PVal) (w : ι → ℝ) (b : ℝ) : Except PyErr ℝ :=
  if p = .inf then .ok (getLowerBox (fun i => x0 i - eps) (fun i => x0 i + eps) w b)
  else do
    let n ← getLqNorm w p
    return (∑ i, w i * x0 i) + (-eps * n + b)

/-- Models `BallDomain.get_upper/get_lower`, core.py:105-109, for a `p` on which they do not raise (`1`, `2`, `inf`);
`x` is the centre. On another `p` the code raises and this model (only) returns 0. -/
noncomputable def ballDomain [Nonempty ι] (eps : ℝ) (p : PVal) : PertDomain (ι → ℝ) ι ℝ where
  getUpper x0 w b := (getUpperBall x0 eps p w b).toOption.getD 0
  getLower x0 w b := (getLowerBall x0 eps p w b).toOption.getD 0

end Balls

/-! ### Full inputs -/

/-- The nine tensors of a decomon layer, as numeric tensors; `κ` indexes the coordinates of the layer, `ι` those of the
model input. -/
structure Full (X ι κ α : Type*) where
  x : X
  uc : κ → α
  wu : ι → κ → α
  bu : κ → α
  lc : κ → α
  wl : ι → κ → α
  bl : κ → α
  h : κ → α
  g : κ → α

section FullOps
variable {X ι κ α : Type*} [LinearOrder α]

/-- Models the last part of `get_fullinputs_from_inputsformode`, core.py:330-347: the constant bounds computed from the
affine ones. -/
def Full.tighten (D : PertDomain X ι α) (m : Mode) (computeIbpFromAffine tight : Bool) (f : Full X ι κ α) :
    Full X ι κ α :=
  if (computeIbpFromAffine && m == .affine) || (tight && m == .hybrid) then
    let ucAff : κ → α := fun k => D.getUpper f.x (fun i => f.wu i k) (f.bu k)
    let lcAff : κ → α := fun k => D.getLower f.x (fun i => f.wl i k) (f.bl k)
    if m == .affine then { f with uc := ucAff, lc := lcAff }
    else { f with uc := fun k => min (f.uc k) (ucAff k), lc := fun k => max (f.lc k) (lcAff k) }
  else f

end FullOps

end Decomon
