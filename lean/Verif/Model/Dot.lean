import Verif.Model.Layers
import Verif.Model.Shapes

/-!
Model of `DecomonDot` (`/repo/src/decomon/layers/decomon_merge_layers.py`): its parameters and the shapes of its tensors.  The values for
`axes = (-1, -1)` are in `dotLayerT` (Model/Layers.lean).
-/

namespace Decomon

/-! ### Values -/

section Call
variable {X ι α κ0 κ1 o0 o1 n : Type*} [Fintype n] [Field α] [LinearOrder α]

/-- Models `DecomonDot.call` on two inputs, decomon_merge_layers.py:572-633.  The attribute `normalize`, which the constructor passes to
`keras.layers.Dot` (lines 548-570), is read nowhere. -/
def dotCall (D : PertDomain X ι α) (m : Mode) (dc _normalize : Bool) (e0 : n × o0 → κ0) (e1 : n × o1 → κ1) (f0 : Full X ι κ0 α)
    (f1 : Full X ι κ1 α) : Except PyErr (Full X ι (o0 × o1) α) :=
  if dc then .error .notImplemented else .ok (dotLayerT D m e0 e1 f0 f1)

/-- The number of merged inputs that `DecomonDot.call` accepts, decomon_merge_layers.py:577-586: what it does with `k` of them. -/
inductive DotArity
  | returned
  | multiplied
  deriving DecidableEq, Repr

/-- Models the check of the number of inputs, decomon_merge_layers.py:573-586 (no input at all cannot be split: `splitToMerge`). -/
def dotArity (dc : Bool) (k : ℕ) : Except PyErr DotArity :=
  if dc then .error .notImplemented
  else if k = 1 then .ok .returned
  else if k = 2 then .ok .multiplied
  else .error .notImplemented

end Call

/-! ### Shapes (with the batch axis) -/

/-- Shape after `permute_dimensions(inputs, axis)` of the constants, layers/utils.py:559-571. -/
def permuteShape (s : List ℕ) (axis : ℤ) : Except PyErr (List ℕ) :=
  if s.length ≤ 2 then .ok s
  else (moveIndex s.length axis 1).map fun ax => ax.map fun c => s.getD ((normAxis s.length c).getD s.length) 0

/-- Shape after `n` times `K.expand_dims(t, axis)`, `broadcast`, layers/utils.py:620-637: `-1` appends, a position inserts. -/
def expandShape (last : Bool) (pos : ℕ) : ℕ → List ℕ → List ℕ
  | 0, s => s
  | n + 1, s => expandShape last pos n (if last then s ++ [1] else s.insertIdx pos 1)

/-- Shape of an elementwise product of tensors of the same rank (numpy broadcasting of sizes one). -/
def mulShape : List ℕ → List ℕ → Except PyErr (List ℕ)
  | [], [] => .ok []
  | a :: s, b :: t =>
    if a = b then (mulShape s t).map (a :: ·)
    else if a = 1 then (mulShape s t).map (b :: ·)
    else if b = 1 then (mulShape s t).map (a :: ·)
    else .error .valueError
  | _, _ => .error .valueError

/-- Models the shape of the constants returned by `DecomonDot.call`, decomon_merge_layers.py:588-612 (`K.sum(u_c, 1)`). -/
def dotCallShape (s0 s1 : List ℕ) (a0 a1 : ℤ) : Except PyErr (List ℕ) :=
  match permuteShape s0 a0, permuteShape s1 a1 with
  | .ok p0, .ok p1 =>
    (mulShape (expandShape true 0 (s1.length - 2) p0) (expandShape false 2 (s0.length - 2) p1)).map fun s => s.eraseIdx 1
  | .error e, _ => .error e
  | _, .error e => .error e

/-- `keras.layers.Dot.compute_output_shape`, which `DecomonMerge.compute_output_shape` (decomon_merge_layers.py:29-80) announces: the
contracted axes and the second batch axis are removed; `(batch,)` becomes `(batch, 1)`. -/
def kerasDotShape (s0 s1 : List ℕ) (a0 a1 : ℤ) : Except PyErr (List ℕ) :=
  match npDelete s0 a0, npDelete s1 a1 with
  | .ok d0, .ok d1 => if (d0 ++ d1.tail).length = 1 then .ok (d0 ++ d1.tail ++ [1]) else .ok (d0 ++ d1.tail)
  | .error e, _ => .error e
  | _, .error e => .error e

end Decomon
