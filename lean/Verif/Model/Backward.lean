import Verif.Model.Pooling
import Verif.Model.Activations

/-!
Model of `/repo/src/decomon/backward_layers/` (utils.py, backward_layers.py, activations.py, backward_merge.py, utils_conv.py)
and of `/repo/src/decomon/models/crown.py`.
-/

namespace Decomon

/-- The four tensors `[w_u, b_u, w_l, b_l]` of a backward layer: affine bounds of a `κ`-vector in terms of an `ι`-vector. -/
structure Back (ι κ α : Type*) where
  wu : ι → κ → α
  bu : κ → α
  wl : ι → κ → α
  bl : κ → α

section Basic
variable {ι κ ν α : Type*} [Field α] [LinearOrder α]

/-- Models `BatchedDiagLike`, keras_utils.py:41-63: a vector as a diagonal matrix. -/
def diagLike [DecidableEq κ] (v : κ → α) : κ → κ → α := fun i k => if i = k then v k else 0

/-- Models `get_identity_lirpa`, backward_layers/utils.py:649-658. -/
def Back.identity [DecidableEq κ] : Back κ κ α where
  wu := diagLike fun _ => 1
  bu := fun _ => 0
  wl := diagLike fun _ => 1
  bl := fun _ => 0

/-- Models `merge_with_previous`, models/crown.py:149-186, on full matrices: `prev` is `w_u_out, b_u_out, w_l_out, b_l_out`, `b` is
`w_b_u, b_b_u, w_b_l, b_b_l`. -/
def mergeWithPrevious [Fintype κ] (prev : Back ι κ α) (b : Back κ ν α) : Back ι ν α where
  wu := fun i n => (∑ k, prev.wu i k * max (b.wu k n) 0) + ∑ k, prev.wl i k * min (b.wu k n) 0
  wl := fun i n => (∑ k, prev.wl i k * max (b.wl k n) 0) + ∑ k, prev.wu i k * min (b.wl k n) 0
  bu := fun n => (∑ k, prev.bu k * max (b.wu k n) 0) + (∑ k, prev.bl k * min (b.wu k n) 0) + b.bu n
  bl := fun n => (∑ k, prev.bl k * max (b.wl k n) 0) + (∑ k, prev.bu k * min (b.wl k n) 0) + b.bl n

/-- Lines 161-172 of models/crown.py: weights of rank 2 (one number per coordinate) are expanded to diagonal matrices. -/
def Back.ofDiag [DecidableEq κ] (wu bu wl bl : κ → α) : Back κ κ α := ⟨diagLike wu, bu, diagLike wl, bl⟩

end Basic

/-! ### Backward layers -/

section Layers
variable {X ι κ κ' α : Type*} [Field α] [LinearOrder α]

/-- Models `BackwardDense.call` on inputs of rank 2, backward_layers.py:68-97 (other ranks: `backwardDenseCall`). -/
def backwardDense {n μ : Type*} (kernel : n → μ → α) (bias : μ → α) : Back n μ α := ⟨kernel, bias, kernel, bias⟩

/-- Models `get_toeplitz` (channels last), utils_conv.py:12-30, 33-100: the identity image of input entry `s` is cut into patches
(`extract_patches`, which reads the entry `src o t`, 0 in the padding), multiplied by the kernel and summed over the taps. -/
def toeplitz {S O T Q : Type*} [Fintype T] [DecidableEq S] (L : LinIndex S O T Q) (kernel : Q → α) : S → O → α :=
  fun s o => ∑ t, (L.src o t).elim 0 (fun s' => if s' = s then 1 else 0) * kernel (L.kidx o t)

/-- Models `get_toeplitz_channels_last`, utils_conv.py:33-100, with its `filter_size = kernel.shape[0]`: the reshape of the kernel
(`kh × kw × cin × cout` numbers) to `(kh ^ 2, cin, cout)` raises when `kh ≠ kw`. -/
def getToeplitz (h w cin kh kw cout oh ow s0 s1 d0 d1 p0 p1 : ℕ) (kernel : Fin kh × Fin kw × Fin cin × Fin cout → α) :
    Except PyErr (Fin h × Fin w × Fin cin → Fin oh × Fin ow × Fin cout → α) :=
  if kh * kw * cin * cout = kh * kh * cin * cout then
    .ok (toeplitz (conv2dIndex h w cin kh kw cout oh ow s0 s1 d0 d1 p0 p1) kernel)
  else .error .valueError

/-- Flat position of entry `(i, j, c)` in the layout `(·, w, ch)` (channels last). -/
def flatLast (w ch i j c : ℕ) : ℕ := (i * w + j) * ch + c

/-- Flat position of entry `(i, j, c)` in the layout `(·, h, w)` (channels first). -/
def flatFirst (h w i j c : ℕ) : ℕ := (c * h + i) * w + j

/-- Models the product of a flat image with the matrix of `get_toeplitz_channels_first`, utils_conv.py:101-160, at flat output
position `q`: strides and dilation are fixed to 1, and rows and columns follow the channels-*last* layouts `(w, h, c_in)`,
`(w_out, h_out, c_out)` (lines 135-139, 158), although the layer works on `(c_in, w, h)`. -/
def toeplitzChannelsFirstApply (h w cin k cout oh ow p0 p1 : ℕ) (kernel : Fin k × Fin k × Fin cin × Fin cout → α)
    (x : ℕ → α) (q : ℕ) : α :=
  ∑ row : Fin h × Fin w × Fin cin, ∑ col : Fin oh × Fin ow × Fin cout,
    if flatLast ow cout col.1 col.2.1 col.2.2 = q then
      toeplitz (conv2dIndex h w cin k k cout oh ow 1 1 1 1 p0 p1) kernel row col * x (flatLast w cin row.1 row.2.1 row.2.2)
    else 0

/-- Models `BackwardConv2D.call`, backward_layers.py:169-215. -/
def backwardConv {S O T Q : Type*} [Fintype T] [DecidableEq S] (L : LinIndex S O T Q) (kernel : Q → α) (bias : O → α) :
    Back S O α :=
  ⟨toeplitz L kernel, bias, toeplitz L kernel, bias⟩

/-- Models `backward_relu`, backward_layers/activations.py:42-87, followed by the diagonal expansion of
`BackwardActivation.call`, backward_layers.py:390-394. `gamma` is the finetuning variable. -/
def backwardRelu [DecidableEq κ] (D : PertDomain X ι α) (m : Mode) (eps : α) (slope : Slope) (gamma : κ → α)
    (inp : Full X ι κ α) : Back κ κ α :=
  let f := inp.tighten D m true true
  let hull : κ → Hull α := fun k => linearHullRelu eps slope (gamma k) (f.uc k) (f.lc k)
  Back.ofDiag (fun k => (hull k).wu) (fun k => (hull k).bu) (fun k => (hull k).wl) (fun k => (hull k).bl)

/-- Models `backward_sigmoid`, `backward_tanh`, `backward_softsign` (backward_layers/activations.py:90-152, 364-399) with the
diagonal expansion. -/
def backwardSShape [DecidableEq κ] (D : PertDomain X ι α) (m : Mode) (eps : α) (f f' : α → α) (inp : Full X ι κ α) :
    Back κ κ α :=
  let b := inp.tighten D m true true
  let hull : κ → Hull α := fun k => sShapeHull eps f f' (b.uc k) (b.lc k)
  Back.ofDiag (fun k => (hull k).wu) (fun k => (hull k).bu) (fun k => (hull k).wl) (fun k => (hull k).bl)

/-- Models `BackwardBatchNormalization.call`, backward_layers.py:576-606; `sd` is `K.sqrt(moving_variance + epsilon)`. -/
def backwardBatchNorm [DecidableEq κ] (gamma beta mean sd : κ → α) : Back κ κ α :=
  let w : κ → α := fun k => gamma k / sd k
  let b : κ → α := fun k => beta k - w k * mean k
  ⟨fun i k => (if i = k then 1 else 0) * w i, b, fun i k => (if i = k then 1 else 0) * w i, b⟩

/-- Models `BackwardFlatten`, `BackwardReshape` (backward_layers.py:434-481), which return the identity on the flattened vector:
output entry `k` reads the input entry `e k` at the same flat position. -/
def backwardReindex [DecidableEq κ] (e : κ' → κ) : Back κ κ' α where
  wu := fun i k => if i = e k then 1 else 0
  bu := fun _ => 0
  wl := fun i k => if i = e k then 1 else 0
  bl := fun _ => 0

/-- Models `BackwardPermute.call`, backward_layers.py:507-524, for `Permute((2, 1))` on inputs of shape `a × b`, on flat
positions: the rows of the identity are reshaped to `(a, b)`, transposed to `(b, a)` and flattened again, so that row
`q = j * a + i` of the result is row `i * b + j` of the identity. -/
def backwardPermute (a b : ℕ) : Back ℕ ℕ α where
  wu := fun q k => if (q % a) * b + q / a = k then 1 else 0
  bu := fun _ => 0
  wl := fun q k => if (q % a) * b + q / a = k then 1 else 0
  bl := fun _ => 0

end Layers

/-! ### Backward element-wise operations -/

section Ops
variable {X ι κ ν α : Type*} [Fintype κ] [Field α] [LinearOrder α]

/-- Models `backward_add`, backward_layers/utils.py:24-82: bounds in terms of the first and of the second operand. -/
def backwardAdd (D : PertDomain X ι α) (m : Mode) (f0 f1 : Full X ι κ α) (b : Back κ ν α) : Back κ ν α × Back κ ν α :=
  let f0 := f0.tighten D m true true
  let f1 := f1.tighten D m true true
  let upper (f : Full X ι κ α) : ν → α := fun n => getUpperBox f.lc f.uc (fun k => b.wu k n) (b.bu n)
  let lower (f : Full X ι κ α) : ν → α := fun n => getLowerBox f.lc f.uc (fun k => b.wl k n) (b.bl n)
  (⟨b.wu, upper f1, b.wl, lower f1⟩, ⟨b.wu, upper f0, b.wl, lower f0⟩)

/-- Models `backward_minus`, backward_layers/utils.py:405-424. -/
def backwardMinus {κ : Type*} (b : Back κ ν α) : Back κ ν α :=
  ⟨fun k n => - b.wl k n, fun n => - b.bl n, fun k n => - b.wu k n, fun n => - b.bu n⟩

/-- Models `backward_scale`, backward_layers/utils.py:427-452. -/
def backwardScale {κ : Type*} (s : α) (b : Back κ ν α) : Back κ ν α :=
  if s ≥ 0 then ⟨fun k n => s * b.wu k n, b.bu, fun k n => s * b.wl k n, b.bl⟩
  else ⟨fun k n => s * b.wl k n, b.bl, fun k n => s * b.wu k n, b.bu⟩

/-- Models `backward_subtract`, backward_layers/utils.py:455-498. -/
def backwardSubtract (D : PertDomain X ι α) (m : Mode) (f0 f1 : Full X ι κ α) (b : Back κ ν α) : Back κ ν α × Back κ ν α :=
  let r := backwardAdd D m f0 (minusT D m f1) b
  (r.1, ⟨fun k n => - r.2.wu k n, r.2.bu, fun k n => - r.2.wl k n, r.2.bl⟩)

/-- Models `backward_maximum`, backward_layers/utils.py:160-226 (default slope and no finetuning). -/
def backwardMaximum (D : PertDomain X ι α) (m : Mode) (eps : α) (f0 f1 : Full X ι κ α) (b : Back κ ν α) :
    Back κ ν α × Back κ ν α :=
  let step0 := reluT D m false eps .vSlope (fun _ => 1) (subtractT D m f0 f1)
  let b1 := (backwardAdd D m step0 f1 b).2
  let step1 := reluT D m false eps .vSlope (fun _ => 1) (subtractT D m f1 f0)
  let b0 := (backwardAdd D m step1 f0 b).2
  (b0, b1)

/-- Models `backward_minimum`, backward_layers/utils.py:352-402. -/
def backwardMinimum (D : PertDomain X ι α) (m : Mode) (eps : α) (f0 f1 : Full X ι κ α) (b : Back κ ν α) :
    Back κ ν α × Back κ ν α :=
  let r := backwardMaximum D m eps f0 f1 (backwardMinus b)
  (backwardMinus r.1, backwardMinus r.2)

/-- The loop of `backward_max_`, backward_layers/utils.py:323-331: `outs` is `outputs[::-1]`, the pairs (maximum of the first
entries, next entry); returns the bounds of the entries, the first entry first.  `perturbation_domain` is not passed to
`backward_maximum` (lines 326-328), which therefore works with a `BoxDomain`: hence a domain `Di` of its own. -/
def backwardMaxLoop (Di : PertDomain X ι α) (m : Mode) (eps : α) :
    List (Full X ι κ α × Full X ι κ α) → Back κ ν α → List (Back κ ν α)
  | [], b => [b]
  | (f0, f1) :: outs, b =>
    let r := backwardMaximum Di m eps f0 f1 b
    backwardMaxLoop Di m eps outs r.1 ++ [r.2]

/-- The pairs of `backward_max_`, backward_layers/utils.py:308-322, last pair first.  `maximum` gets the domain of the caller
(lines 317-319). -/
def backwardMaxPairs (D : PertDomain X ι α) (m : Mode) (eps : α) :
    Full X ι κ α → List (Full X ι κ α) → List (Full X ι κ α × Full X ι κ α) → List (Full X ι κ α × Full X ι κ α)
  | _, [], acc => acc
  | f0, f1 :: fs, acc => backwardMaxPairs D m eps (maximumT D m false eps (fun _ => 1) f0 f1) fs ((f0, f1) :: acc)

/-- Models `backward_max_`, backward_layers/utils.py:230-349, on the slices `f0 :: fs` of the axis (at least two): the weights of
the slices side by side, the biases summed (lines 334-343).  `D` is the domain of the caller, `Di` the `BoxDomain` of the inner
calls. -/
def backwardMax (D Di : PertDomain X ι α) (m : Mode) (eps : α) (f0 : Full X ι κ α) (fs : List (Full X ι κ α)) (b : Back κ ν α) :
    List ((κ → ν → α) × (κ → ν → α)) × (ν → α) × (ν → α) :=
  let bounds := backwardMaxLoop Di m eps (backwardMaxPairs D m eps f0 fs []) b
  (bounds.map fun b => (b.wu, b.wl), fun n => (bounds.map fun b => b.bu n).sum, fun n => (bounds.map fun b => b.bl n).sum)

/-- One operand of the result of `backward_multiply`: weights with one axis too many. -/
structure BackMul (κ ν α : Type*) where
  wu : κ → κ → ν → α
  bu : κ → ν → α
  wl : κ → κ → ν → α
  bl : κ → ν → α

/-- Models `backward_multiply`, backward_layers/utils.py:501-581, for a batch of one sample.  `a_u_0` and the like are reshaped to
`(1, n, 1, 1)` (lines 539-557: one trailing axis per axis of `w_u_out`, input axis included), so the product with
`w_u_out` of shape `(1, n, n_out)` has shape `(1, n, n, n_out)`; the sums of lines 568-577 run over the first of the two
`n` axes. -/
def backwardMultiply (D : PertDomain X ι α) (m : Mode) (f0 f1 : Full X ι κ α) (b : Back κ ν α) :
    BackMul κ ν α × BackMul κ ν α :=
  let f0 := f0.tighten D m true true
  let f1 := f1.tighten D m true true
  let side (g h : Full X ι κ α) : BackMul κ ν α :=
    let au : κ → α := h.uc
    let bu : κ → α := fun k => max (g.lc k) 0 * h.uc k + min (g.lc k) 0 * h.lc k - h.uc k * g.lc k
    let al : κ → α := h.lc
    let bl : κ → α := fun k => max (g.lc k) 0 * h.lc k + min (g.lc k) 0 * h.uc k - h.lc k * g.lc k
    { wu := fun k j n => max (b.wu j n) 0 * au k + min (b.wu j n) 0 * al k
      bu := fun j n => (∑ k, max (b.wu j n) 0 * bu k) + (∑ k, min (b.wu j n) 0 * bl k) + b.bu n
      wl := fun k j n => max (b.wl j n) 0 * al k + min (b.wl j n) 0 * au k
      bl := fun j n => (∑ k, max (b.wl j n) 0 * bl k) + (∑ k, min (b.wl j n) 0 * bu k) + b.bl n }
  (side f0 f1, side f1 f0)

/-- numpy broadcasting of two reversed shapes. -/
def broadcastRev : List ℕ → List ℕ → Except PyErr (List ℕ)
  | [], b => .ok b
  | a, [] => .ok a
  | a :: as, b :: bs =>
    if a = b ∨ a = 1 ∨ b = 1 then (broadcastRev as bs).map (max a b :: ·) else .error .valueError

/-- The shape of `w_u_out_max * a_u_0` in `backward_multiply`, lines 539-566: `w_u_out` is `(B, n, n_out)` and `a_u_0` is
`(B, n, 1, 1)`. -/
def backwardMultiplyShape (B n nOut : ℕ) : Except PyErr (List ℕ) :=
  (broadcastRev [nOut, n, B] [1, 1, n, B]).map List.reverse

/-- Models `BackwardAdd.call`, backward_merge.py:166-189. -/
def backwardAddLayer [DecidableEq κ] (D : PertDomain X ι α) (m : Mode) (fs : List (Full X ι κ α)) :
    Except PyErr (List (Back κ κ α)) :=
  match fs with
  | [_] => .ok [Back.identity]
  | [f0, f1] => .ok [(backwardAdd D m f0 f1 Back.identity).1, (backwardAdd D m f0 f1 Back.identity).2]
  | _ => .error .notImplemented

/-- The loop of `BackwardAverage.call`, backward_merge.py:225-251, from index `j` down to 1: the bounds of inputs `0..j`, not yet
divided by the number of inputs.  The left operand is input 0 when `j = 1`, otherwise the sum of the inputs `[:j-1]`. -/
def backwardAverageLoop (D : PertDomain X ι α) (m : Mode) (fs : List (Full X ι κ α)) (d : Full X ι κ α) :
    ℕ → Back κ ν α → List (Back κ ν α)
  | 0, _ => []
  | j + 1, b =>
    let f1 := fs.getD (j + 1) d
    let f0 := if j = 0 then fs.getD 0 d else
      match fs.take j with
      | [] => d
      | g :: gs => addLayerT D m g gs
    let r := backwardAdd D m f0 f1 b
    (if j = 0 then [r.1] else backwardAverageLoop D m fs d j r.1) ++ [r.2]

/-- Models `BackwardAverage.call`, backward_merge.py:214-251. -/
def backwardAverageLayer [DecidableEq κ] (D : PertDomain X ι α) (m : Mode) (f0 : Full X ι κ α) (fs : List (Full X ι κ α)) :
    List (Back κ κ α) :=
  if fs.length = 0 then [Back.identity]
  else
    let n : α := ((f0 :: fs).length : α)
    (backwardAverageLoop D m (f0 :: fs) f0 fs.length Back.identity).map fun b =>
      ⟨fun i k => 1 / n * b.wu i k, fun k => 1 / n * b.bu k, fun i k => 1 / n * b.wl i k, fun k => 1 / n * b.bl k⟩

end Ops

section Concat
variable {α : Type*} [Field α]

/-- `get_identity_lirpa`, backward_layers/utils.py:649-658: the size of the identity is that of `inputs[-1]`, a tensor of the
*last* input only (0 for no input). -/
def concatIdentitySize (sizes : List ℕ) : ℕ := sizes.getLast?.getD 0

/-- `np.cumsum(n_list[:-1])`, backward_merge.py:418: where the identity is cut. -/
def concatCuts (sizes : List ℕ) : List ℕ := (List.range (sizes.length - 1)).map fun j => (sizes.take (j + 1)).sum

/-- `K.split(w, indices, -1)`, backward_merge.py:422-425: first column and number of columns of piece `j` of a tensor with `n` columns, as
in numpy: a cut beyond the end gives an empty piece (the TensorFlow backend refuses it). -/
def splitPiece (n : ℕ) (cuts : List ℕ) (j : ℕ) : ℕ × ℕ :=
  let start := if j = 0 then 0 else min n (cuts.getD (j - 1) n)
  let stop := min n (cuts.getD j n)
  (start, stop - start)

/-- The shape of the weights returned by `BackwardConcatenate.call`, backward_merge.py:412-431, for input `j` (inputs of rank 2 with the
given sizes, `axis = -1`). -/
def backwardConcatShape (sizes : List ℕ) (j : ℕ) : ℕ × ℕ :=
  (concatIdentitySize sizes, (splitPiece (concatIdentitySize sizes) (concatCuts sizes) j).2)

/-- The bounds returned by `BackwardConcatenate.call`, backward_merge.py:412-431, for input `j` (inputs of rank 2 with the given sizes,
`axis = -1`): piece `j` of the columns of the identity of the last input. -/
def backwardConcat (sizes : List ℕ) (j : ℕ) : Back (Fin (backwardConcatShape sizes j).1) (Fin (backwardConcatShape sizes j).2) α :=
  let start := (splitPiece (concatIdentitySize sizes) (concatCuts sizes) j).1
  { wu := fun q k => if (q : ℕ) = start + k then 1 else 0
    bu := fun _ => 0
    wl := fun q k => if (q : ℕ) = start + k then 1 else 0
    bl := fun _ => 0 }

end Concat

end Decomon
