import Verif.Model.Shapes

/-! Model of `split` (layers/utils.py:645-717) and of the splitting at the start of `sort` (layers/utils.py:754-789). -/

namespace Decomon

variable {α : Type*}

/-- `K.split(t, n, axis)` of Keras for a tensor of sizes `sizes`: `n` parts of equal size along the axis; a size that is not a multiple of `n`
is an error (`ValueError`). -/
def splitAxis (sizes : List ℕ) (n : ℕ) (a : ℤ) (t : NdArr α) : Except PyErr (List (NdArr α)) :=
  match normAxis sizes.length a with
  | none => .error .valueError
  | some k =>
    if n = 0 ∨ sizes.getD k 0 % n ≠ 0 then .error .valueError
    else .ok ((List.range n).map fun j idx => t (idx.set k (j * (sizes.getD k 0 / n) + idx.getD k 0)))

/-- The number of parts and the axis of the constants, layers/utils.py:671-678 (`split`) and 754-760 (`sort`): only the axis `-1` is made
positive.  `shape` is `get_kerasinputshape(inputs)`, with the batch axis. -/
def splitCount (shape : KShape) (axis : ℤ) : Except PyErr (ℕ × ℤ) :=
  match normAxis shape.length axis with
  | none => .error .indexError
  | some k =>
    match shape.getD k none with
    | none => .error .valueError
    | some n => .ok (n, if axis = -1 then (shape.length : ℤ) - 1 else axis)

/-- Models the splitting of the tensors, layers/utils.py:687-710 (`split`) and 764-789 (`sort`): the constants along `axis`, the weights along
`axis + 1`.  The test `axis != -1` of line 698 is kept.  `sizes` are the sizes of the constants of the layer, `d` is the number of model inputs,
the second axis of the weights; `e` is the empty tensor.  Parts are matched by position, like the lists of the code. -/
def splitTensors (m : Mode) (dc : Bool) (sizes : List ℕ) (d n : ℕ) (axis : ℤ) (e : NdArr α) (t : Nine (NdArr α)) :
    Except PyErr (List (Nine (NdArr α))) := do
  let es := List.replicate n e
  let part (on : Bool) (s : List ℕ) (a : ℤ) (v : NdArr α) : Except PyErr (List (NdArr α)) := if on then splitAxis s n a v else .ok es
  let ibp := m != .affine
  let affine := m != .ibp
  let uc ← part ibp sizes axis t.uc
  let lc ← part ibp sizes axis t.lc
  let bu ← part affine sizes axis t.bu
  let bl ← part affine sizes axis t.bl
  let axisWeights := if axis ≠ -1 then axis + 1 else axis
  let wu ← part affine (sizes.insertIdx 1 d) axisWeights t.wu
  let wl ← part affine (sizes.insertIdx 1 d) axisWeights t.wl
  if dc then .error .notImplemented
  else .ok ((List.range n).map fun i =>
    { x := t.x, uc := uc.getD i e, wu := wu.getD i e, bu := bu.getD i e, lc := lc.getD i e, wl := wl.getD i e, bl := bl.getD i e,
      h := e, g := e })

/-- Models `split`, layers/utils.py:645-717, after the unpacking of the inputs.  `keyword` says whether `K.split` accepts the keyword argument
`num_or_size_splits`: `false` in Keras 3, whose function is `split(x, indices_or_sections, axis=0)`, so that the first call raises `TypeError`.
In every mode there is such a call. -/
def splitUtil (keyword : Bool) (m : Mode) (dc : Bool) (shape : KShape) (sizes : List ℕ) (d : ℕ) (axis : ℤ) (e : NdArr α)
    (t : Nine (NdArr α)) : Except PyErr (List (Nine (NdArr α))) :=
  match splitCount shape axis with
  | .error r => .error r
  | .ok (n, a) => if keyword then splitTensors m dc sizes d n a e t else .error .typeError

/-- Models the parts on which `sort` works, layers/utils.py:749-789: `K.split` is called there with positional arguments, which Keras accepts.
`axis + 1` of lines 773 and 775 is never `-1 + 1` of an axis given as `-1`, which line 756 has replaced. -/
def sortParts (m : Mode) (dc : Bool) (shape : KShape) (sizes : List ℕ) (d : ℕ) (axis : ℤ) (e : NdArr α) (t : Nine (NdArr α)) :
    Except PyErr (List (Nine (NdArr α))) :=
  match splitCount shape axis with
  | .error r => .error r
  | .ok (n, a) => splitTensors m dc sizes d n a e t

end Decomon
