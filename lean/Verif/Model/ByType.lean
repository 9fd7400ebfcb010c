import Verif.Model.Core
import Mathlib.Logic.Function.Basic

/-!
Model of the computation part of `get_fullinputs_by_type_from_inputsformode_to_merge` (`/repo/src/decomon/core.py`), with its lists as
Python objects.
-/

namespace Decomon

section
variable {X ι κ α : Type*} [LinearOrder α]

/-- The local variables after the unpacking, core.py:364-401: `fs` holds the affine parts (never written), `cells` the lists of constants
as objects in memory, `uc`, `lc`, `h`, `g` the object that each of the names is bound to. -/
structure ByType (X ι κ α : Type*) where
  fs : List (Full X ι κ α)
  cells : ℕ → List (κ → α)
  uc : ℕ
  lc : ℕ
  h : ℕ
  g : ℕ

/-- Models the unpacking, core.py:364-401 (`fullInputsByType` gives the values; here with identities).  The list `nonelike_tensor_list` is
object 4; a slice is a new object. -/
def byTypeCells (m : Mode) (dc : Bool) (e : κ → α) (fs : List (Full X ι κ α)) : ByType X ι κ α where
  fs := fs
  cells i :=
    if i = 0 then fs.map Full.uc else if i = 1 then fs.map Full.lc else if i = 2 then fs.map Full.h else if i = 3 then fs.map Full.g
    else List.replicate fs.length e
  uc := if m = .affine then 4 else 0
  lc := if m = .affine then 4 else 1
  h := if dc then 2 else 4
  g := if dc then 3 else 4

/-- `l[i] = v`, in the object `c`. -/
def writeCell (cells : ℕ → List (κ → α)) (c i : ℕ) (v : κ → α) : ℕ → List (κ → α) := Function.update cells c ((cells c).set i v)

/-- The body of the loop, core.py:409-417, for index `i`; `f` is the input number `i`. -/
def byTypeStep (D : PertDomain X ι α) (m : Mode) (s : ByType X ι κ α) (i : ℕ) (f : Full X ι κ α) : ByType X ι κ α :=
  let u : κ → α := fun k => D.getUpper f.x (fun j => f.wu j k) (f.bu k)
  let l : κ → α := fun k => D.getLower f.x (fun j => f.wl j k) (f.bl k)
  let c1 := writeCell s.cells s.uc i (if m = .affine then u else fun k => min (((s.cells s.uc).getD i u) k) (u k))
  { s with cells := writeCell c1 s.lc i (if m = .affine then l else fun k => max (((c1 s.lc).getD i l) k) (l k)) }

/-- The loop, from index `i` on. -/
def byTypeLoop (D : PertDomain X ι α) (m : Mode) : ByType X ι κ α → ℕ → List (Full X ι κ α) → ByType X ι κ α
  | s, _, [] => s
  | s, i, f :: t => byTypeLoop D m (byTypeStep D m s i f) (i + 1) t

/-- Models `get_fullinputs_by_type_from_inputsformode_to_merge`, core.py:349-420. -/
def byTypeRun (D : PertDomain X ι α) (m : Mode) (dc computeIbpFromAffine tight : Bool) (e : κ → α) (fs : List (Full X ι κ α)) :
    ByType X ι κ α :=
  let s := byTypeCells m dc e fs
  if (computeIbpFromAffine && m == .affine) || (tight && m == .hybrid) then byTypeLoop D m s 0 fs else s

end

end Decomon
