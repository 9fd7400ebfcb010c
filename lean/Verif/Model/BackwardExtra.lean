import Verif.Model.Backward

/-!
Model of public functions that no other function of the package calls: `backward_linear_prod` and `backward_sort`
(`/repo/src/decomon/backward_layers/utils.py`), `frac_pos_hull` (`/repo/src/decomon/layers/utils.py`),
`backward_softsign_` (`/repo/src/decomon/backward_layers/activations.py`).
-/

namespace Decomon

section Prod
variable {X ι κ ν α : Type*} [Fintype κ] [Field α] [LinearOrder α]

/-- `x_max`, backward_layers/utils.py:117: an upper bound of the distance between the two lines of entry `k`. -/
def linearProdGap (D : PertDomain X ι α) (x : X) (prev : Back ι κ α) (k : κ) : α :=
  D.getUpper x (fun i => prev.wu i k - prev.wl i k) (prev.bu k - prev.bl k)

/-- `mask_b`, backward_layers/utils.py:118. -/
def linearProdMaskB (D : PertDomain X ι α) (x : X) (prev : Back ι κ α) (k : κ) : α := 1 - ksign (linearProdGap D x prev k)

/-- `mask_a`, backward_layers/utils.py:119. -/
def linearProdMaskA (D : PertDomain X ι α) (x : X) (prev : Back ι κ α) (k : κ) : α := 1 - linearProdMaskB D x prev k

/-- Models `backward_linear_prod`, backward_layers/utils.py:85-157, for one sample and backward bounds of shape `(batch, 1, n, n_out)` (weights)
and `(batch, 1, n_out)` (biases); `prev` is `bounds_x`, of shape `(batch, d, n)` and `(batch, n)`.  The reshape of lines 111-115 (bounds of
rank above 3) is left out. -/
def backwardLinearProd (D : PertDomain X ι α) (x : X) (prev : Back ι κ α) (b : Back κ ν α) : Back ι ν α :=
  let a := linearProdMaskA D x prev
  let c := linearProdMaskB D x prev
  { wu := fun i n => (∑ k, a k * (max (b.wu k n) 0 * prev.wu i k + min (b.wu k n) 0 * prev.wl i k)) + ∑ k, b.wu k n * c k * prev.wu i k
    wl := fun i n => (∑ k, a k * (max (b.wl k n) 0 * prev.wl i k + min (b.wl k n) 0 * prev.wu i k)) + ∑ k, b.wl k n * c k * prev.wl i k
    bu := fun n => (∑ k, a k * (max (b.wu k n) 0 * prev.bu k + min (b.wu k n) 0 * prev.bl k)) + (∑ k, c k * (b.wu k n * prev.bu k)) + b.bu n
    bl := fun n => (∑ k, a k * (max (b.wl k n) 0 * prev.bl k + min (b.wl k n) 0 * prev.bu k)) + (∑ k, c k * (b.wl k n * prev.bl k)) + b.bl n }

end Prod

/-- The shape of `K.sum(... w_u_pos_expanded * w_u_i_expanded ..., 3)`, backward_layers/utils.py:121-143, when the weights `w_u` of the backward
bounds have the shape `(B, n, n_out)` of the backward layers of the package: `w_u_pos_expanded` is `(B, n, 1, n_out)` and `w_u_i_expanded` is
`(B, 1, d, n, 1)`; the second entry of the reversed shape is the axis 3 that is summed. -/
def linearProdShape (B d n nOut : ℕ) : Except PyErr (List ℕ) :=
  (broadcastRev [nOut, 1, n, B] [1, n, d, 1, B]).map fun l => (l.eraseIdx 1).reverse

/-- `K.reshape(t, [-1, n, n])` of a tensor with `size` entries: the first axis of the result. -/
def reshapeSquare (size n : ℕ) : Except PyErr ℕ := if n = 0 ∨ size % (n * n) ≠ 0 then .error .valueError else .ok (size / (n * n))

/-- Models the shapes in `backward_sort`, backward_layers/utils.py:584-646, for an input of shape `(B,) + s` with `n = prod(s)` entries and
backward weights of (reversed) shape `w`.  `u_c[:, None] * n_dim` (line 619) multiplies the numbers by `n_dim`, so that `w_tmp` has the shape
`(B, 1) + s`, which `sort` keeps: `B * n` entries, reshaped to `(-1, n, n)` on line 629 (`b` is the first axis), then line 638 multiplies by
`K.expand_dims(w_u_tmp, -1)` and sums axis 1, line 640 multiplies by `b_u_tmp` of shape `(B, n)` and sums axis 1.  Returns the shapes (not
reversed) of `w_u_out` and of the product of line 640 after the sum. -/
def backwardSortShape (B n : ℕ) (w : List ℕ) : Except PyErr (List ℕ × List ℕ) := do
  let b ← reshapeSquare (B * n) n
  let p ← broadcastRev w [1, n, n, b]
  let q ← broadcastRev w [n, B]
  .ok (p.reverse.eraseIdx 1, q.reverse.eraseIdx 1)

/-- Models the values of `backward_sort`, backward_layers/utils.py:584-646, for one sample with one entry, where the shapes fit: `sort` of
one entry returns its inputs, `w_u_tmp = w_l_tmp = 0`, `b_u_tmp = u_c`, `b_l_tmp = l_c`; lines 638-641 (both weights use `w_u_out_pos`). -/
def backwardSortOne {ν α : Type*} [Field α] [LinearOrder α] (uc lc : α) (b : Back Unit ν α) : Back Unit ν α where
  wu := fun i n => max (b.wu i n) 0 * 0 + max (b.wu i n) 0 * 0
  wl := fun i n => max (b.wu i n) 0 * 0 + max (b.wu i n) 0 * 0
  bu := fun n => b.bu n + max (b.wu () n) 0 * uc + min (b.wu () n) 0 * lc
  bl := fun n => b.bl n + max (b.wl () n) 0 * lc + min (b.wl () n) 0 * uc

section Hull
variable {α : Type*} [Field α] [LinearOrder α]

/-- The lines `w_u, b_u, w_l, b_l` of `frac_pos_hull`, layers/utils.py:943-949, for one entry, with `power z` for the value of `K.power(z)`.
Divisions by zero (`u_c = l_c`) give 0 here, infinities in the code. -/
def fracPosHullLines (power : α → α) (uc lc : α) : α × α × α × α :=
  let l := max lc 1
  let z := (uc + l) / 2
  let wu := (1 / uc - 1 / l) / (uc - l)
  (wu, 1 / uc - wu * uc, -1 / power z, 2 / z)

/-- Models `frac_pos_hull`, layers/utils.py:916-951, for one entry.  `oneArgPower` is `K.power` called with one argument: `none` in Keras, whose
`power(x1, x2)` requires two, so that the call on line 945 raises `TypeError`. -/
def fracPosHull (oneArgPower : Option (α → α)) (uc lc : α) : Except PyErr (α × α × α × α) :=
  match oneArgPower with
  | none => .error .typeError
  | some power => .ok (fracPosHullLines power uc lc)

end Hull

section Softsign
variable {X ι κ ν α : Type*} [Field α] [LinearOrder α]

/-- The lines of `get_linear_hull_s_shape` with the function softsign, called by `backward_softsign_`, backward_layers/activations.py:375-377. -/
def softsignLines (D : PertDomain X ι α) (m : Mode) (eps : α) (inp : Full X ι κ α) (k : κ) : Hull α :=
  let b := inp.tighten D m true true
  sShapeHull eps softsign softsignPrime (b.uc k) (b.lc k)

/-- The weights of `backward_softsign_`, backward_layers/activations.py:388-389. -/
def softsignBackW (up lo : α) (w : α) : α := max 0 w * up + min 0 w * lo

/-- Models `backward_softsign_`, backward_layers/activations.py:362-391, for one sample and backward weights of shape `(1, 1, n, n_out)`: axis 2
is the axis of the entries. -/
def backwardSoftsignOld [Fintype κ] (D : PertDomain X ι α) (m : Mode) (eps : α) (inp : Full X ι κ α) (b : Back κ ν α) : Back κ ν α :=
  let h := softsignLines D m eps inp
  { wu := fun k n => softsignBackW (h k).wu (h k).wl (b.wu k n)
    wl := fun k n => softsignBackW (h k).wl (h k).wu (b.wl k n)
    bu := fun n => (∑ k, softsignBackW (h k).bu (h k).bl (b.wu k n)) + b.bu n
    bl := fun n => (∑ k, softsignBackW (h k).bl (h k).bu (b.wl k n)) + b.bl n }

/-- The same for backward weights of shape `(batch, n, n_out)` with `n = n_out`: axis 2 is the axis of the outputs, and the sum, of shape
`(batch, n)`, is added to biases of shape `(batch, n_out)`. -/
def backwardSoftsignOld3 [Fintype κ] (D : PertDomain X ι α) (m : Mode) (eps : α) (inp : Full X ι κ α) (b : Back κ κ α) : Back κ κ α :=
  let h := softsignLines D m eps inp
  { wu := fun k n => softsignBackW (h k).wu (h k).wl (b.wu k n)
    wl := fun k n => softsignBackW (h k).wl (h k).wu (b.wl k n)
    bu := fun k => (∑ n, softsignBackW (h k).bu (h k).bl (b.wu k n)) + b.bu k
    bl := fun k => (∑ n, softsignBackW (h k).bl (h k).bu (b.wl k n)) + b.bl k }

end Softsign

/-- The shapes of the weights and of the biases that `backward_softsign_` returns for backward weights of (reversed) shape `w` and biases of
(reversed) shape `b`: `w_u_0` and `b_u_0` are `(B, n, 1)`; axis 2 is summed (`IndexError` stands for the exception of a sum over an axis that
does not exist). -/
def softsignOldShape (B n : ℕ) (w b : List ℕ) : Except PyErr (List ℕ × List ℕ) := do
  let p ← broadcastRev w [1, n, B]
  if p.length ≤ 2 then .error .indexError
  else
    let q ← broadcastRev (p.reverse.eraseIdx 2).reverse b
    .ok (p.reverse, q.reverse)

end Decomon
