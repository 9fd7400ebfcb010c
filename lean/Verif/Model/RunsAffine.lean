import Verif.Model.Utils
import Verif.Model.Network
import Verif.Model.Runs
import Verif.SpecTol

/-!
The forward conversion in affine and hybrid mode when the layers compute with errors (rounding, another order of the sums, approximate kernels).
-/

namespace Decomon

section
variable {X ι κ κ' α : Type} [Field α] [LinearOrder α] [Fintype ι]

/-- `relu_`, utils.py:343-401, from the computed bounds `u`, `l` of its input (utils.py:359).  The lower line is chosen from bounds `u2`, `l2` which
may differ from them: `get_linear_hull_relu` compares `alpha` with 1/2, or `upper + lower` with 0 (utils.py:150-161), after a rounding of its own. -/
def reluFrom (m : Mode) (eps : α) (slope : Slope) (gamma u l u2 l2 : κ → α) (f : Full X ι κ α) : Full X ι κ α :=
  let hu : κ → Hull α := fun k => linearHullRelu eps slope (gamma k) (u k) (l k)
  let hl : κ → Hull α := fun k => linearHullRelu eps slope (gamma k) (u2 k) (l2 k)
  { x := f.x
    uc := fun k => if getIbp m then relu (u k) else 0
    lc := fun k => if getIbp m then relu (l k) else 0
    wu := fun i k => if getAffine m then (hu k).wu * f.wu i k else 0
    bu := fun k => if getAffine m then (hu k).wu * f.bu k + (hu k).bu else 0
    wl := fun i k => if getAffine m then (hl k).wl * f.wl i k else 0
    bl := fun k => if getAffine m then (hl k).wl * f.bl k + (hl k).bl else 0
    h := fun _ => 0
    g := fun _ => 0 }

/-- `relu_` may return the tensors `g` on the tensors `f`: the bounds of the input are computed up to `t`, and so are the results. -/
def ReluComputes (D : PertDomain X ι α) (m : Mode) (eps : α) (slope : Slope) (gamma t : κ → α) (f g : Full X ι κ α) : Prop :=
  ∃ u l u2 l2 : κ → α, (∀ k, |u k - (f.tighten D m true true).uc k| ≤ t k ∧ |l k - (f.tighten D m true true).lc k| ≤ t k) ∧
    (∀ k, |u2 k - (f.tighten D m true true).uc k| ≤ t k ∧ |l2 k - (f.tighten D m true true).lc k| ≤ t k) ∧
    (reluFrom m eps slope gamma u l u2 l2 f).Off m t g

/-- A decomon layer (`Lay.forward`) may return the tensors `g` on the tensors `f`. -/
def Lay.Computes [Fintype κ] (D : PertDomain X ι α) (m : Mode) (eps : α) (slope : Slope) (t : κ' → α) :
    Lay α κ κ' → Full X ι κ α → Full X ι κ' α → Prop
  | .relu gf _, f, g => ReluComputes D m eps slope gf t f g
  | l, f, g => (l.forward D m eps slope f).Off m t g

/-- `maximum`, utils.py:443-481: a difference, a ReLU and a sum. -/
def MaxComputes (D : PertDomain X ι α) (m : Mode) (eps t : α) (f0 f1 g : Full X ι κ α) : Prop :=
  ∃ d r, (subtractT D m f1 f0).Off m (fun _ => t) d ∧ ReluComputes D m eps .vSlope (fun _ => 1) (fun _ => t) d r ∧ (addT D m r f0).Off m (fun _ => t) g

/-- A decomon merge layer on two inputs; changing a sign makes no error. -/
def MergeOp.Computes (D : PertDomain X ι α) (m : Mode) (eps t : α) (op : MergeOp) (f0 f1 g : Full X ι κ α) : Prop :=
  match op with
  | .maximum => MaxComputes D m eps t f0 f1 g
  | .minimum => ∃ g', MaxComputes D m eps t (minusT D m f0) (minusT D m f1) g' ∧ g = minusT D m g'
  | op => (op.forward D m eps f0 f1).Off m (fun _ => t) g

/-- The tensors that the converted model may return (`convert_forward_functional_model`, forward_cloning.py:132-228) when every layer computes with an
error. -/
def Net.Computes (D : PertDomain X ι α) (m : Mode) (eps : α) (slope : Slope) (t : Tol α) (inp : Full X ι ι α) :
    {κ : Type} → Net α ι κ → Full X ι κ α → Prop
  | _, .input, g => g = inp
  | _, @Net.layer _ _ _ _ _ _ _ n l, g => ∃ f, n.Computes D m eps slope t inp f ∧ l.Computes D m eps slope (t.lay l) f g
  | _, .merge op n0 n1, g => ∃ f0 f1, n0.Computes D m eps slope t inp f0 ∧ n1.Computes D m eps slope t inp f1 ∧
      op.Computes D m eps (t.merge op) f0 f1 g

/-- `DecomonDense.call` in affine mode in rounded arithmetic, decomon_layers.py:458-490: every coefficient is the sum of two products with the positive and the
negative part of the kernel. -/
structure DenseRounded [Fintype κ] (rd : α → α) (kernel : κ → κ' → α) (bias : κ' → α) (f : Full X ι κ α) (g : Full X ι κ' α) : Prop where
  x : g.x = f.x
  wu : ∀ i o, ∃ a b, IsSum rd (fun t => f.wu i t * max 0 (kernel t o)) a ∧ IsSum rd (fun t => f.wl i t * min 0 (kernel t o)) b ∧ g.wu i o = rd (a + b)
  wl : ∀ i o, ∃ a b, IsSum rd (fun t => f.wl i t * max 0 (kernel t o)) a ∧ IsSum rd (fun t => f.wu i t * min 0 (kernel t o)) b ∧ g.wl i o = rd (a + b)
  bu : ∀ o, ∃ a b, IsSum rd (fun t => f.bu t * max 0 (kernel t o)) a ∧ IsSum rd (fun t => f.bl t * min 0 (kernel t o)) b ∧
    g.bu o = rd (rd (a + b) + bias o)
  bl : ∀ o, ∃ a b, IsSum rd (fun t => f.bl t * max 0 (kernel t o)) a ∧ IsSum rd (fun t => f.bu t * min 0 (kernel t o)) b ∧
    g.bl o = rd (rd (a + b) + bias o)

end

end Decomon
