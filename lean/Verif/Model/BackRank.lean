import Verif.Model.BackAct

/-!
Model of `BackwardDense.call`, `BackwardBatchNormalization.call` and `BackwardPermute.call`
(`/repo/src/decomon/backward_layers/backward_layers.py`) on bounds of any rank.  These three read the shape of the tensor to be bounded
from the bounds that they are given (`y = inputs[-1]`), so that the result depends on the way in which `crown_model` got these bounds.
Tensors are flat (row-major), with their shape beside them.  The batch axis appears where it matters only.
-/

namespace Decomon

/-! ### Bounds given to a backward layer -/

/-- Shape, without the batch axis, of the last tensor of `input_map[id(node)]` (`get_input_nodes`, backward_cloning.py:246-281) for a node
whose Keras input has shape `s`.  With a forward pass (`crown-forward-*`) it is the last tensor of the forward layer (253-254), of shape `s`.
In pure `crown` it comes from `Convert2BackwardMode` (crown.py:62-88): `get_upper`, `get_lower` or the biases of backward bounds, all
flat. -/
def boundsShape (useForward : Bool) (s : List ℕ) : List ℕ := if useForward then s else [s.prod]

/-- Affine map over flat vectors: sizes, matrix and bias.  The three layers return `[w, b, w, b]`, the same for upper and lower bounds. -/
structure FlatBack (α : Type*) where
  nIn : ℕ
  nOut : ℕ
  w : ℕ → ℕ → α
  b : ℕ → α

/-- The shapes of `[w, b, w, b]` with a batch axis of size `k`. -/
def FlatBack.shapes {α : Type*} (f : FlatBack α) (k : Option ℕ) : List KShape :=
  [[k, some f.nIn, some f.nOut], [k, some f.nOut], [k, some f.nIn, some f.nOut], [k, some f.nOut]]

section
variable {α : Type*} [Zero α]

/-- A matrix with its sizes. -/
structure Blk (α : Type*) where
  rows : ℕ
  cols : ℕ
  e : ℕ → ℕ → α

/-- `K.concatenate([a, b], axis=-1)` on matrices with the same number of rows. -/
def Blk.hcat (a b : Blk α) : Blk α := ⟨a.rows, a.cols + b.cols, fun i j => if j < a.cols then a.e i j else b.e i (j - a.cols)⟩

/-- `K.concatenate([a, b], axis=-2)` on matrices with the same number of columns. -/
def Blk.vcat (a b : Blk α) : Blk α := ⟨a.rows + b.rows, a.cols, fun i j => if i < a.rows then a.e i j else b.e (i - a.rows) j⟩

/-- Models `kernel_diag_by_block` of `BackwardDense.call`, backward_layers.py:77-87, for `m` blocks of a kernel of `n` rows and `units`
columns. -/
def kernelDiagByBlock (n units m : ℕ) (kernel : ℕ → ℕ → α) : Blk α :=
  (List.range m).foldr
    (fun j acc => ((List.range m).foldr (fun i acc' => (⟨n, units, if i = j then kernel else fun _ _ => 0⟩ : Blk α).hcat acc')
      ⟨n, 0, fun _ _ => 0⟩).vcat acc)
    ⟨0, m * units, fun _ _ => 0⟩

/-- Models `BackwardDense.call`, backward_layers.py:68-97, on bounds whose last tensor has shape `batch :: shape`: the number of blocks is
`np.prod(y.shape[1:-1])`; the bias is repeated once for each block (88-93). -/
def backwardDenseCall (n units : ℕ) (kernel : ℕ → ℕ → α) (bias : ℕ → α) (shape : List ℕ) : FlatBack α :=
  let m := shape.dropLast.prod
  let k := kernelDiagByBlock n units m kernel
  ⟨k.rows, k.cols, k.e, fun o => bias (o % units)⟩

/-- Models `BackwardBatchNormalization.call`, backward_layers.py:576-606, on bounds whose last tensor has shape `batch :: shape`, where `c` is
`moving_mean.shape[0]` and `g`, `b` are the vectors `w`, `b` of lines 593-594.  The result is the size of the batch axis and the map for each
sample.  `shape[self.axis] = ...` raises `IndexError` outside the range (582); the product with the identity broadcasts the vector along that
axis (597-604), or raises.  Simplified: an axis of size 1 other than the batch is not stretched to `c` (it raises here): this needs a layer
whose `c` differs from the size of its own axis. -/
def backwardBatchNormCall (c : ℕ) (axis : ℤ) (g b : ℕ → α) (batch : ℕ) (shape : List ℕ) : Except PyErr (ℕ × (ℕ → FlatBack α)) :=
  let diag (v u : ℕ → α) : FlatBack α := ⟨shape.prod, shape.prod, fun i o => if i = o then v o else 0, u⟩
  match normAxis (shape.length + 1) axis with
  | none => .error .indexError
  | some 0 =>
    if c = 1 then .ok (batch, fun _ => diag (fun _ => g 0) (fun _ => b 0))
    else if batch = c ∨ batch = 1 then .ok (c, fun k => diag (fun _ => g k) (fun _ => b k))
    else .error .valueError
  | some (a + 1) =>
    let q := (shape.drop (a + 1)).prod
    if c = 1 then .ok (batch, fun _ => diag (fun _ => g 0) (fun _ => b 0))
    else if shape.getD a 0 = c then .ok (batch, fun _ => diag (fun o => g (o / q % c)) (fun o => b (o / q % c)))
    else .error .valueError

end

/-- Whether `K.transpose(w_u_out, dims)` in `BackwardPermute.call`, backward_layers.py:507-524, is given as many axes as the tensor has: the
tensor has shape `[-1] + shape + [n_out]`, and `dims` is sorted from `[0] + self.dims + [len(y.shape)]`.  The values are those of
`backwardPermute` (C68). -/
def backwardPermuteAxes (dims : List ℕ) (shape : List ℕ) : Except PyErr Unit :=
  if dims.length + 2 = shape.length + 2 then .ok () else .error .valueError

end Decomon
