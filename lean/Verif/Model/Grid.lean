import Verif.Model.Core
import Verif.Model.Utils
import Mathlib.Data.List.Sort
import Mathlib.Algebra.BigOperators.Fin

/-!
The search over a regular grid of a box, src/decomon/utils.py:79-124, for one sample and one output coordinate.
-/

namespace Decomon

section
variable {α : Type*} [Field α] [LinearOrder α]

/-- `K.cumsum` of a vector, starting from `acc`. -/
def cumsumFrom (acc : α) : List α → List α
  | [] => []
  | c :: cs => (acc + c) :: cumsumFrom (acc + c) cs

/-- Models `subset_sum_lower`, utils.py:117-124.  Simplified: `K.sort` is an insertion sort; one column of `W` (axis 1) and one entry of
`b`. -/
def subsetSumLower (W : List α) (b : α) (rep : ℕ) : α :=
  let B := W.insertionSort (· ≤ ·)
  let C := B.flatMap (List.replicate rep)
  let cr := cumsumFrom 0 C
  let D := cr.map fun c => min (ksign (-b - c) + 1) 1
  min ((List.zipWith (· * ·) D C).sum + b) 0

/-- Models `convert_lower_search_2_subset_sum`, utils.py:103-114, without the reshape of weights of rank above 3 (lines 107-109).  -/
def convertLowerSearch {d : ℕ} (xmin xmax W : Fin d → α) (b : α) (n : ℕ) : List α × α :=
  (List.ofFn fun i => |W i| * ((xmax i - xmin i) / n), boxDomain.getLower (xmin, xmax) W b)

/-- Models `get_lower_bound_grid`, utils.py:79-81. -/
def getLowerBoundGrid {d : ℕ} (xmin xmax W : Fin d → α) (b : α) (n : ℕ) : α :=
  let AB := convertLowerSearch xmin xmax W b n
  subsetSumLower AB.1 AB.2 n

/-- Models `get_upper_bound_grid`, utils.py:84-85. -/
def getUpperBoundGrid {d : ℕ} (xmin xmax W : Fin d → α) (b : α) (n : ℕ) : α :=
  -getLowerBoundGrid xmin xmax (fun i => -W i) (-b) n

/-- Models `get_bound_grid`, utils.py:88-99. -/
def getBoundGrid {d : ℕ} (xmin xmax Wu : Fin d → α) (bu : α) (Wl : Fin d → α) (bl : α) (n : ℕ) : α × α :=
  (getUpperBoundGrid xmin xmax Wu bu n, getLowerBoundGrid xmin xmax Wl bl n)

end

end Decomon
