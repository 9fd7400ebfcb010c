import Verif.Model.Layers
import Mathlib.Algebra.BigOperators.Fin

/-!
Model of `/repo/src/decomon/layers/maxpooling.py` (filters), `/repo/src/decomon/layers/utils_pooling.py` and of the reductions
`max_`, `min_`, `sort` of `/repo/src/decomon/layers/utils.py`.
-/

namespace Decomon

/-! ### One-hot filters, maxpooling.py:84-93 -/

/-- The channel written by the loop for window element `(i, j)`, maxpooling.py:90. -/
def filterChannel (p0 : ℕ) (i j : ℕ) : ℕ := i * p0 + j

/-- Models the construction of `self.filters`, maxpooling.py:85-90: the set of `(i, j, channel)` that are one, or the
`IndexError` of numpy when the channel is out of range (`prod(pool_size)` channels). -/
def poolFilters (p0 p1 : ℕ) : Except PyErr (ℕ → ℕ → ℕ → Bool) :=
  if ∀ i < p0, ∀ j < p1, filterChannel p0 i j < p0 * p1 then
    .ok fun i j c => decide (i < p0) && decide (j < p1) && decide (c = filterChannel p0 i j)
  else .error .indexError

/-- Channel `c` of `K.conv(x, self.filters)` at one output position, `x i j` being the entry of the (zero-padded) image at
window position `(i, j)`, maxpooling.py:95-123. -/
def poolChannel {α : Type*} [Field α] (p0 p1 : ℕ) (filters : ℕ → ℕ → ℕ → Bool) (x : ℕ → ℕ → α) (c : ℕ) : α :=
  ∑ i ∈ Finset.range p0, ∑ j ∈ Finset.range p1, (if filters i j c then 1 else 0) * x i j

/-! ### Linear hull of max over a box, utils_pooling.py -/

section Hull
variable {n α : Type*} [Fintype n] [DecidableEq n] [Field α] [LinearOrder α]

/-- `index_collapse`, utils_pooling.py:79. -/
def indexCollapse (u l : n → α) (j : n) : α := 1 - ksign (l j - u j)

/-- Coordinate `j` of the shifted corner `i` (`none`: the last corner), utils_pooling.py:82-86. -/
def cornerCollapse (u l : n → α) (i : Option n) (j : n) : α :=
  if i = some j then l j else u j + indexCollapse u l j

/-- Coordinate `j` of the corner `i`, utils_pooling.py:81, 87. -/
def corner (u l : n → α) (i : Option n) (j : n) : α := if i = some j then l j else u j

/-- `corners_pred`, utils_pooling.py:89-92. -/
def cornerPred [Nonempty n] (u l : n → α) (i : Option n) : α := maxOver (corner u l i)

/-- Models `get_upper_linear_hull_max`, utils_pooling.py:19-133: `w_hull = K.solve(corners_collapse, corners_pred)`, split in
`w_u` and `b_u`.  `K.solve` is modelled by its equation. -/
def IsUpperHullMax [Nonempty n] (u l w : n → α) (b : α) : Prop :=
  ∀ i : Option n, ∑ j, cornerCollapse u l i j * w j + b * 1 = cornerPred u l i

end Hull

section LowerHull
variable {n : ℕ} {α : Type*} [Field α] [LinearOrder α]

/-- `K.argmin` on a list: index of the first minimum. -/
def argminList (l : List α) : ℕ := l.idxOf (l.foldl min (l.headD 0))

/-- `K.argmax` on a list: index of the first maximum. -/
def argmaxList (l : List α) : ℕ := l.idxOf (l.foldl max (l.headD 0))

/-- The penalised score `V`, utils_pooling.py:177-182. -/
def lowerHullScore (u l : Fin (n + 1) → α) (j : Fin (n + 1)) : α :=
  let v := fun j => u j + l j
  let mm := fun j => - u j + maxOver l
  v j + maxOver (fun k => |v k|) * (ksign (mm j) + 1)

/-- Models `get_lower_linear_hull_max`, utils_pooling.py:136-194; `b_l = 0`.  `finetune` is the optional tensor
`finetune_lower`. -/
def lowerHullMax (u l : Fin (n + 1) → α) (finetune : Option (Fin (n + 1) → α)) (j : Fin (n + 1)) : α :=
  let w := if j.val = argminList (List.ofFn (lowerHullScore u l)) then (1 : α) else 0
  match finetune with
  | none => w
  | some a =>
    let y := fun k => a k * u k + (1 - a k) * l k
    let wa := if j.val = argmaxList (List.ofFn y) then (1 : α) else 0
    (1 - a j) * w + a j * wa

end LowerHull

/-! ### Reductions -/

section Reduce
variable {X ι κ σ α : Type*} [Field α] [LinearOrder α] {n : ℕ}

/-- Models `max_`, layers/utils.py:246-396, without finetuning.  `e (k, i)` is the position of entry `i` of the reduced axis. -/
def maxReduceT (D : PertDomain X ι α) (m : Mode) (dc : Bool) (eps : α) (e : κ → Fin (n + 1) → σ) (f : Full X ι σ α) :
    Full X ι κ α :=
  if m = .ibp ∧ dc = false then
    { x := f.x
      uc := fun k => maxOver fun i => f.uc (e k i)
      lc := fun k => maxOver fun i => f.lc (e k i)
      wu := fun _ _ => 0, bu := fun _ => 0, wl := fun _ _ => 0, bl := fun _ => 0, h := fun _ => 0, g := fun _ => 0 }
  else
    let slice := fun i : Fin (n + 1) => f.reindex fun k => e k i
    let out := (maximumLayerT D m eps (slice 0) (List.ofFn fun i : Fin n => slice i.succ)).tighten D m true (m != .affine)
    let g := fun k => ∑ i, f.g (e k i)
    { out with
      g := fun k => if dc then g k else 0
      h := fun k => if dc then maxOver (fun i => f.h (e k i) + f.g (e k i)) - g k else 0 }

/-- Models `min_`, layers/utils.py:955-991 (`dc_decomp=False`). -/
def minReduceT (D : PertDomain X ι α) (m : Mode) (eps : α) (e : κ → Fin (n + 1) → σ) (f : Full X ι σ α) :
    Full X ι κ α :=
  minusT D m (maxReduceT D m false eps e (minusT D m f))

end Reduce

section Sorting

/-- One exchange of the selection sort, layers/utils.py:794-831: position `j` gets the maximum, position `i` the minimum. -/
def sortStep {β : Type*} (mx mn : β → β → β) (s : ℕ → β) (ij : ℕ × ℕ) : ℕ → β :=
  Function.update (Function.update s ij.2 (mx (s ij.1) (s ij.2))) ij.1 (mn (s ij.1) (s ij.2))

/-- The inner loop `for j in range(i + 1, n)`, layers/utils.py:793. -/
def sortInner {β : Type*} (mx mn : β → β → β) (n i : ℕ) (s : ℕ → β) : ℕ → β :=
  (List.range' (i + 1) (n - (i + 1))).foldl (fun s j => sortStep mx mn s (i, j)) s

/-- Models the two loops of `sort`, layers/utils.py:792-831, on the list of the `n` slices. -/
def sortNet {β : Type*} (mx mn : β → β → β) (n : ℕ) (s : ℕ → β) : ℕ → β :=
  (List.range (n - 1)).foldl (fun s i => sortInner mx mn n i s) s

variable {X ι κ α : Type*} [Field α] [LinearOrder α]

/-- Models `sort`, layers/utils.py:720-855: each exchange recomputes the full inputs (tight). -/
def sortT (D : PertDomain X ι α) (m : Mode) (eps : α) (n : ℕ) (fs : ℕ → Full X ι κ α) : ℕ → Full X ι κ α :=
  sortNet (fun a b => (maximumT D m false eps (fun _ => 1) a b).tighten D m true true)
    (fun a b => (minimumT D m false eps (fun _ => 1) a b).tighten D m true true) n fs

end Sorting

end Decomon
