import Verif.Model.Core
import Mathlib.Data.List.InsertIdx
import Mathlib.Data.List.Range
import Mathlib.Tactic.Linarith

/-!
Model of symbolic shapes (`compute_output_shape`) and of the bookkeeping of axes in layers/utils.py.  Here the batch axis is kept: it is
axis 0 of every tensor; weights have the model input as axis 1 and the axes of the layer after it.
-/

namespace Decomon

/-- A Keras shape: `None` is an unknown size. -/
abbrev KShape := List (Option ℕ)

/-! ### compute_output_shape -/

/-- Models `get_fullinputshapes_from_inputshapesformode`, core.py:210-273.  `xWo` is
`perturbation_domain.get_x_input_shape_wo_batchsize(self.model_input_dim)`.  Wrong number of shapes: `ValueError`; empty shape where an
entry is read: `IndexError`. -/
def fullInputShapes (m : Mode) (dc : Bool) (xWo : KShape) (l : List KShape) : Except PyErr (Nine KShape) :=
  match fullInputsList m dc [] l with
  | .error e => .error e
  | .ok t =>
    match m with
    | .hybrid => .ok t
    | .ibp =>
      match t.uc.head?, t.uc.getLast? with
      | some b, some d => .ok { t with x := b :: xWo, wu := t.uc ++ [d], bu := t.uc, wl := t.uc ++ [d], bl := t.uc }
      | _, _ => .error .indexError
    | .affine => .ok { t with uc := t.bu, lc := t.bu }

/-- Models `DecomonLayer.compute_output_shape` on a list of shapes, layers/core.py:142-178.  `keras` is `compute_output_shape` of the
original layer; when it raises `NotImplementedError` the input shapes are returned. -/
def computeOutputShape (m : Mode) (dc : Bool) (xWo : KShape) (keras : KShape → Except PyErr KShape) (l : List KShape) :
    Except PyErr (List KShape) :=
  match l.getLast? with
  | none => .error .indexError
  | some y =>
    match keras y with
    | .error .notImplemented => .ok l
    | .error e => .error e
    | .ok yo =>
      match fullInputShapes m dc xWo l with
      | .error e => .error e
      | .ok t =>
        if getAffine m then
          match t.x.getLast?, t.x.head? with
          | some n, some b =>
            let w := b :: n :: yo.tail
            .ok (extractForMode m dc ⟨t.x, yo, w, yo, yo, w, yo, yo, yo⟩)
          | _, _ => .error .indexError
        else .ok (extractForMode m dc ⟨t.x, yo, [], yo, yo, [], yo, yo, yo⟩)

/-- Models `DecomonMerge.compute_output_shape`, decomon_merge_layers.py:29-80.  `keras` takes the list of the shapes of the inputs. -/
def mergeOutputShape (m : Mode) (dc : Bool) (xWo : KShape) (keras : List KShape → Except PyErr KShape) (l : List KShape) :
    Except PyErr (List KShape) :=
  match splitToMerge m dc l with
  | [] => .error .indexError
  | l0 :: ls =>
    let ys := (l0 :: ls).map fun s => s.getLast?.getD []
    match keras ys with
    | .error e => .error e
    | .ok yo =>
      if some yo = ys.head? then .ok l0
      else match fullInputShapes m dc xWo l0 with
        | .error e => .error e
        | .ok t =>
          if getAffine m then
            match t.x.getLast?, t.x.head? with
            | some n, some b =>
              let w := b :: n :: yo.tail
              .ok (extractForMode m dc ⟨t.x, yo, w, yo, yo, w, yo, yo, yo⟩)
            | _, _ => .error .indexError
          else .ok (extractForMode m dc ⟨t.x, yo, [], yo, yo, [], yo, yo, yo⟩)

/-- Shape of `K.dot(a, k)` for a matrix `k`: the last axis of `a` is replaced by the last axis of `k`. -/
def dotShape (a k : KShape) : KShape := a.dropLast ++ k.drop 1

/-- The shapes of the tensors returned by `DecomonDense.call` without backward bounds and for weights of higher rank than the constants,
decomon_layers.py:443-511: sums of tensors of the same shape and of a bias keep the shape.  `e` is the shape of the empty tensor. -/
def denseCallShapes (m : Mode) (dc : Bool) (kernel : KShape) (l : List KShape) : Except PyErr (List KShape) :=
  match fullInputsList m dc [some 0] l with
  | .error e => .error e
  | .ok t => .ok (extractForMode m dc ⟨t.x, dotShape t.uc kernel, dotShape t.wu kernel, dotShape t.bu kernel, dotShape t.lc kernel,
      dotShape t.wl kernel, dotShape t.bl kernel, dotShape t.h kernel, dotShape t.g kernel⟩)

/-- The shapes of the tensors returned by `DecomonDense.call` in ibp mode with backward bounds: the kernel is multiplied by
`back_bound` of shape `(batch, units, n_c)` (lines 436, 458-460) and contracted by `Dot(1)`; decomon_layers.py:419-421. -/
def denseBackCallShapesIbp (nc : Option ℕ) (l : List KShape) : Except PyErr (List KShape) :=
  match fullInputsList .ibp false [] l with
  | .error e => .error e
  | .ok t => .ok [t.uc.dropLast ++ [nc], t.lc.dropLast ++ [nc]]

/-- Models `Convert2Mode.compute_output_shape`, models/utils.py:334-348; `xWo` uses `input_dim` of the model. -/
def convert2ModeShapes (mFrom mTo : Mode) (dc : Bool) (xWo : KShape) (l : List KShape) : Except PyErr (List KShape) :=
  (fullInputShapes mFrom dc xWo l).map (extractForMode mTo dc)

/-- The shapes of the tensors returned by `Convert2Mode.call`, models/utils.py:314-332, on inputs whose constants and weights have the
shapes given: `concatenate([expand_dims(l_c, 1), expand_dims(u_c, 1)], 1)` has size 2 on axis 1; `BatchedIdentityLike` repeats the last
size. -/
def convert2ModeCallShapes (mFrom mTo : Mode) (dc : Bool) (l : List KShape) : Except PyErr (List KShape) :=
  match fullInputsList mFrom dc [some 0] l with
  | .error e => .error e
  | .ok t =>
    if mFrom = .ibp ∧ mTo ≠ .ibp then
      match t.lc.head?, t.lc.getLast? with
      | some b, some d =>
        .ok (extractForMode mTo dc { t with x := b :: some 2 :: t.lc.tail, wu := t.lc ++ [d], bu := t.uc, wl := t.lc ++ [d], bl := t.lc })
      | _, _ => .error .indexError
    else if mFrom = .affine ∧ mTo ≠ .affine then .ok (extractForMode mTo dc { t with uc := t.bu, lc := t.bl })
    else .ok (extractForMode mTo dc t)

/-- Product of known sizes, `int(np.prod(shape[1:]))`; a `None` inside raises `TypeError`. -/
def prodShape : KShape → Except PyErr ℕ
  | [] => .ok 1
  | none :: _ => .error .typeError
  | some a :: t => (prodShape t).map (a * ·)

/-- Models `BackwardLayer.compute_output_shape`, backward_layers/core.py:95-129, from the Keras input and output shapes. -/
def backwardOutputShape (inShape outShape : KShape) : Except PyErr (List KShape) :=
  match inShape.head?, prodShape inShape.tail, prodShape outShape.tail with
  | some b, .ok i, .ok o => .ok [[b, some i, some o], [b, some o], [b, some i, some o], [b, some o]]
  | none, _, _ => .error .indexError
  | _, .error e, _ => .error e
  | _, _, .error e => .error e

/-- Models `merge_with_previous_compute_output_shape`, models/crown.py:137-146. -/
def mergeWithPreviousShapes (l : List KShape) : Except PyErr (List KShape) :=
  match l.take 2, l.drop (l.length - 2) with
  | [[b, i, _], _], [[_, _, o], bb] => .ok [[b, i, o], bb, [b, i, o], bb]
  | _, _ => .error .valueError

/-! ### Axes -/

/-- The axis meant by a Python axis for a tensor of rank `n`. -/
def normAxis (n : ℕ) (a : ℤ) : Option ℕ :=
  if 0 ≤ a ∧ a < n then some a.toNat else if a < 0 ∧ -(n : ℤ) ≤ a then some (n + a).toNat else none

/-- The axis used for the weights by `sum` (layers/utils.py:177-180), `max_` (308-313, 381-386), `broadcast` (627-630), `expand_dims`
(1015-1018), `DecomonConcatenate` (decomon_merge_layers.py:435-438) and `BackwardConcatenate` (backward_merge.py:421-423). -/
def axisW (a : ℤ) : ℤ := if a = -1 then -1 else a + 1

/-- A dense tensor as a function of its multi-index; only indices of the right length and in range are meaningful. -/
abbrev NdArr (α : Type*) := List ℕ → α

/-- `K.sum(t, axis)` for a tensor of rank `n` with `size` entries along the axis. -/
def sumAxis {α : Type*} [AddCommMonoid α] (n size : ℕ) (a : ℤ) (t : NdArr α) : Except PyErr (NdArr α) :=
  match normAxis n a with
  | some k => .ok fun idx => ((List.range size).map fun j => t (idx.insertIdx k j)).sum
  | none => .error .valueError

/-- `K.expand_dims(t, axis)` for a tensor of rank `n`. -/
def expandDims {α : Type*} (n : ℕ) (a : ℤ) (t : NdArr α) : Except PyErr (NdArr α) :=
  match normAxis (n + 1) a with
  | some k => .ok fun idx => t (idx.eraseIdx k)
  | none => .error .valueError

/-- `K.concatenate([t0, t1], axis)` for tensors of rank `n`, `size` entries of `t0` along the axis. -/
def concatAxis {α : Type*} (n size : ℕ) (a : ℤ) (t0 t1 : NdArr α) : Except PyErr (NdArr α) :=
  match normAxis n a with
  | some k => .ok fun idx => if idx.getD k 0 < size then t0 idx else t1 (idx.set k (idx.getD k 0 - size))
  | none => .error .valueError

/-- `np.delete(l, a)`. -/
def npDelete {τ : Type*} (l : List τ) (a : ℤ) : Except PyErr (List τ) :=
  match normAxis l.length a with
  | some k => .ok (l.eraseIdx k)
  | none => .error .indexError

/-- `np.insert(l, p, v)`: `p` may be the length of `l`. -/
def npInsert {τ : Type*} (l : List τ) (p : ℤ) (v : τ) : Except PyErr (List τ) :=
  if 0 ≤ p ∧ p ≤ l.length then .ok (l.insertIdx p.toNat v)
  else if p < 0 ∧ -(l.length : ℤ) ≤ p then .ok (l.insertIdx (l.length + p).toNat v)
  else .error .indexError

/-- `tuple(np.insert(np.delete(np.arange(n), axis), pos, axis))`; the value inserted is `axis` itself, negative or not. -/
def moveIndex (n : ℕ) (axis pos : ℤ) : Except PyErr (List ℤ) :=
  match npDelete ((List.range n).map Int.ofNat) axis with
  | .error e => .error e
  | .ok l => npInsert l pos axis

/-- `K.transpose(t, axes)` for a tensor of rank `n = len(axes)`; negative entries count from the end (as in numpy).  Entry `j` of the
output index is entry `axes[j]` of the input index. -/
def transposeArr {α : Type*} (n : ℕ) (axes : List ℤ) (t : NdArr α) : NdArr α := fun idx =>
  t ((List.range n).map fun a => idx.getD ((axes.map fun c => (normAxis n c).getD n).idxOf a) 0)

/-- Models `permute_dimensions` on one constant tensor and one weight tensor, layers/utils.py:559-583: `n` is the rank of the constants.
Line 565 deletes `axis`, and not the axis shifted by one, from the axes of the weights.  Rank at most 2: the inputs are returned (line
561). -/
def permuteDimensions {α : Type*} (n : ℕ) (axis axisPerm : ℤ) (dc : Bool) (c w : NdArr α) : Except PyErr (NdArr α × NdArr α) :=
  if n ≤ 2 then .ok (c, w)
  else match moveIndex n axis axisPerm, moveIndex (n + 1) axis (axisPerm + 1) with
    | .ok i, .ok iw => if dc then .error .notImplemented else .ok (transposeArr n i c, transposeArr (n + 1) iw w)
    | .error e, _ => .error e
    | _, .error e => .error e

end Decomon
