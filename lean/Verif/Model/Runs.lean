import Verif.SpecRuns
import Verif.Model.Rounded
import Verif.Model.Wrapper

/-!
Model of the method `forward-ibp` when the layers do not compute exactly: first with errors of any origin (`Net.RunsIbp`), then in rounded
arithmetic with the operations of the code one by one (`Lay.RoundedIbp`, `MergeOp.roundedIbp`).
-/

namespace Decomon

section
variable {ι κ κ' α : Type} [Field α] [LinearOrder α] [IsStrictOrderedRing α]

/-- The tensors of ibp mode, `[u_c, l_c]`: no input, no affine bounds. -/
def ibpOnly (up lo : κ → α) : Full Unit Empty κ α :=
  { x := (), uc := up, lc := lo, wu := fun _ _ => 0, bu := fun _ => 0, wl := fun _ _ => 0, bl := fun _ => 0, h := fun _ => 0, g := fun _ => 0 }

/-- The domain is not read in ibp mode; on no inputs an affine form is its constant. -/
def emptyDomain (α : Type) : PertDomain Unit Empty α := { getUpper := fun _ _ b => b, getLower := fun _ _ b => b }

/-- The pairs `(u_c, l_c)` that the model of `clone(model, method="forward-ibp")` may return on the box with the corners `lo`, `up`: every
decomon layer (`Lay.forward`, `MergeOp.forward` in ibp mode) is applied to the computed bounds of its inputs, with an error. -/
def Net.RunsIbp (E : OpError α) (eps : α) (slope : Slope) (up lo : ι → α) : {κ : Type} → Net α ι κ → (κ → α) → (κ → α) → Prop
  | _, .input, u, l => u = up ∧ l = lo
  | _, @Net.layer _ _ _ _ _ _ _ n lay, u, l => ∃ u0 l0, n.RunsIbp E eps slope up lo u0 l0 ∧ ∀ k,
      |u k - (lay.forward (emptyDomain α) .ibp eps slope (ibpOnly u0 l0)).uc k| ≤ E.lay lay (fun t => max |u0 t| |l0 t|) k ∧
      |l k - (lay.forward (emptyDomain α) .ibp eps slope (ibpOnly u0 l0)).lc k| ≤ E.lay lay (fun t => max |u0 t| |l0 t|) k
  | _, .merge op n0 n1, u, l => ∃ u0 l0 u1 l1, n0.RunsIbp E eps slope up lo u0 l0 ∧ n1.RunsIbp E eps slope up lo u1 l1 ∧ ∀ k,
      |u k - (op.forward (emptyDomain α) .ibp eps (ibpOnly u0 l0) (ibpOnly u1 l1)).uc k| ≤
          E.merge op (max |u0 k| |l0 k|) (max |u1 k| |l1 k|) ∧
      |l k - (op.forward (emptyDomain α) .ibp eps (ibpOnly u0 l0) (ibpOnly u1 l1)).lc k| ≤
          E.merge op (max |u0 k| |l0 k|) (max |u1 k| |l1 k|)

/-- `v` is the sum of the terms `p`, rounded after every addition, in some order (`K.dot`, `K.conv`, `tensordot` in a backend). -/
def IsSum {τ : Type} [Fintype τ] (rd : α → α) (p : τ → α) (v : α) : Prop :=
  (IsEmpty τ ∧ v = 0) ∨ ∃ t : SumTree τ, (t.leaves : Multiset τ) = Finset.univ.val ∧ v = t.sum rd p

/-- The call of a Keras layer in rounded arithmetic: `Dense` and `Conv2D` sum products and add the bias.  The algorithm of
`BatchNormalization` depends on the backend: any result within `bn` of the formula. -/
def Lay.RoundedCall [Fintype κ] (rd : α → α) (bn : α → α → α → α → α → α) : Lay α κ κ' → (κ → α) → (κ' → α) → Prop
  | .dense kernel bias, w, v => ∀ o, ∃ d, IsSum rd (fun t => w t * kernel t o) d ∧ v o = rd (d + bias o)
  | @Lay.linear _ _ _ _ _ _ L kernel bias, w, v =>
    ∀ o, ∃ d, IsSum rd (fun t => (L.src o t).elim 0 w * kernel (L.kidx o t)) d ∧ v o = rd (d + bias o)
  | .relu _ _, w, v => ∀ k, v k = max (w k) 0
  | .batchNorm gamma beta mean sd, w, v => ∀ k, |v k - (gamma k * ((w k - mean k) / sd k) + beta k)| ≤ bn (gamma k) (beta k) (mean k) (sd k) |w k|
  | .reshape e, w, v => ∀ k, v k = w (e k)
  | .skip, w, v => ∀ k, v k = w k

/-- The call of the decomon layer in ibp mode, in rounded arithmetic.  `DecomonDense.call`, decomon_layers.py:441-442, 458-459 and
489-490; `DecomonConv2D.call`, decomon_layers.py:185-186 and 256-257; `relu_`, utils.py:379-381;
`DecomonFlatten`, `DecomonReshape`, `DecomonDropout` move numbers.  `DecomonBatchNormalization`: any result within `bn` of the formula. -/
def Lay.RoundedIbp [Fintype κ] (rd : α → α) (bn : α → α → α → α → α → α) : Lay α κ κ' → (κ → α) → (κ → α) → (κ' → α) → (κ' → α) → Prop
  | .dense kernel bias, u0, l0, u, l => ∀ o,
    (∃ a b, IsSum rd (fun t => u0 t * max 0 (kernel t o)) a ∧ IsSum rd (fun t => l0 t * min 0 (kernel t o)) b ∧ u o = rd (rd (a + b) + bias o)) ∧
    ∃ a b, IsSum rd (fun t => l0 t * max 0 (kernel t o)) a ∧ IsSum rd (fun t => u0 t * min 0 (kernel t o)) b ∧ l o = rd (rd (a + b) + bias o)
  | @Lay.linear _ _ _ _ _ _ L kernel bias, u0, l0, u, l => ∀ o,
    (∃ a b, IsSum rd (fun t => (L.src o t).elim 0 u0 * max 0 (kernel (L.kidx o t))) a ∧
      IsSum rd (fun t => (L.src o t).elim 0 l0 * min 0 (kernel (L.kidx o t))) b ∧ u o = rd (rd (a + b) + bias o)) ∧
    ∃ a b, IsSum rd (fun t => (L.src o t).elim 0 l0 * max 0 (kernel (L.kidx o t))) a ∧
      IsSum rd (fun t => (L.src o t).elim 0 u0 * min 0 (kernel (L.kidx o t))) b ∧ l o = rd (rd (a + b) + bias o)
  | .relu _ _, u0, l0, u, l => ∀ k, u k = max (u0 k) 0 ∧ l k = max (l0 k) 0
  | .batchNorm gamma beta mean sd, u0, l0, u, l => ∀ k,
    |u k - (max 0 (gamma k) * ((u0 k - mean k) / sd k) + min 0 (gamma k) * ((l0 k - mean k) / sd k) + beta k)| ≤
        bn (gamma k) (beta k) (mean k) (sd k) (max |u0 k| |l0 k|) ∧
    |l k - (max 0 (gamma k) * ((l0 k - mean k) / sd k) + min 0 (gamma k) * ((u0 k - mean k) / sd k) + beta k)| ≤
        bn (gamma k) (beta k) (mean k) (sd k) (max |u0 k| |l0 k|)
  | .reshape e, u0, l0, u, l => ∀ k, u k = u0 (e k) ∧ l k = l0 (e k)
  | .skip, u0, l0, u, l => ∀ k, u k = u0 k ∧ l k = l0 k

/-- The Keras merge layers in rounded arithmetic. -/
def MergeOp.roundedCall (rd : α → α) (op : MergeOp) (a b : α) : α :=
  match op with
  | .add => rd (a + b)
  | .average => rd (rd (a + b) / 2)
  | .subtract => rd (a - b)
  | .maximum => max a b
  | .minimum => min a b
  | .multiply => rd (a * b)

/-- `maximum`, utils.py:443-481, in ibp mode: `add(relu_(subtract(y, x)), x)`; the pair `(u_c, l_c)`. -/
def roundedMaxIbp (rd : α → α) (u0 l0 u1 l1 : α) : α × α :=
  (rd (max (rd (u1 + -l0)) 0 + u0), rd (max (rd (l1 + -u0)) 0 + l0))

/-- The decomon merge layers in ibp mode, in rounded arithmetic; the pair `(u_c, l_c)`.  `DecomonAdd`, `DecomonAverage`, `DecomonSubtract`,
`DecomonMaximum`, `DecomonMinimum`, `DecomonMultiply`, decomon_merge_layers.py (see `Model/Layers.lean`); `add`, `minus`, `maximum`, utils.py; `multiply`,
layers/utils.py:430-521. -/
def MergeOp.roundedIbp (rd : α → α) (op : MergeOp) (u0 l0 u1 l1 : α) : α × α :=
  match op with
  | .add => (rd (u0 + u1), rd (l0 + l1))
  | .average => (rd (rd (u0 + u1) / 2), rd (rd (l0 + l1) / 2))
  | .subtract => (rd (u0 + -l1), rd (l0 + -u1))
  | .maximum => roundedMaxIbp rd u0 l0 u1 l1
  | .minimum =>
    let r := roundedMaxIbp rd (-l0) (-u0) (-l1) (-u1)
    (-r.2, -r.1)
  | .multiply =>
    (min (rd (rd (max (rd (u0 * u1)) (rd (u0 * l1)) + max (rd (u0 * l1)) (rd (l0 * l1))) - rd (u0 * l1)))
        (rd (rd (max (rd (u1 * u0)) (rd (u1 * l0)) + max (rd (u1 * l0)) (rd (l1 * l0))) - rd (u1 * l0))),
     rd (rd (min (rd (l0 * l1)) (rd (l0 * u1)) + min (rd (l0 * l1)) (rd (u0 * l1))) - rd (l0 * l1)))

/-- What the Keras model may return at the input `p` in rounded arithmetic. -/
def Net.RoundedCall (rd : α → α) (bn : α → α → α → α → α → α) (p : ι → α) : {κ : Type} → Net α ι κ → (κ → α) → Prop
  | _, .input, v => v = p
  | _, @Net.layer _ _ _ _ _ _ _ n l, v => ∃ w, n.RoundedCall rd bn p w ∧ l.RoundedCall rd bn w v
  | _, .merge op n0 n1, v => ∃ w0 w1, n0.RoundedCall rd bn p w0 ∧ n1.RoundedCall rd bn p w1 ∧ ∀ k, v k = op.roundedCall rd (w0 k) (w1 k)

/-- The pairs `(u_c, l_c)` that the model of `clone(model, method="forward-ibp")` may return on a box in rounded arithmetic
(`convert_forward_functional_model`, forward_cloning.py:132-228). -/
def Net.RoundedIbp (rd : α → α) (bn : α → α → α → α → α → α) (up lo : ι → α) : {κ : Type} → Net α ι κ → (κ → α) → (κ → α) → Prop
  | _, .input, u, l => u = up ∧ l = lo
  | _, @Net.layer _ _ _ _ _ _ _ n lay, u, l => ∃ u0 l0, n.RoundedIbp rd bn up lo u0 l0 ∧ lay.RoundedIbp rd bn u0 l0 u l
  | _, .merge op n0 n1, u, l => ∃ u0 l0 u1 l1, n0.RoundedIbp rd bn up lo u0 l0 ∧ n1.RoundedIbp rd bn up lo u1 l1 ∧
      ∀ k, (u k, l k) = op.roundedIbp rd (u0 k) (l0 k) (u1 k) (l1 k)

end

end Decomon
