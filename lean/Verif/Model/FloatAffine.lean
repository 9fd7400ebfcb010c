import Verif.Model.RunsAffine
import Verif.SpecFloat

/-!
Model of the method `forward-affine` in rounded arithmetic, over a box, with the operations of the code one by one: every operation of `keras.ops` is
followed by a rounding `rd`.

Simplified: no overflow, underflow, NaN or fused multiply-add; multiplying by the indicators 0 and 1 of the hull of ReLU, and adding a zero, make no error;
ReLU without the option `finetune`; the model input has the identity as its weights (the shortcut of the first layer makes fewer roundings).
-/

namespace Decomon

section
variable {ι κ κ' α : Type} [Field α] [LinearOrder α] [Fintype ι]

/-- Models `get_upper_box`, core.py:483-495: `K.sum(w_pos * x_max + w_neg * x_min, 1) + b`. -/
def UpperRounded (rd : α → α) (x : BoxOf ι α) (w : ι → α) (b v : α) : Prop :=
  ∃ d, IsSum rd (fun i => rd (max (w i) 0 * x.2 i) + rd (min (w i) 0 * x.1 i)) d ∧ v = rd (d + b)

/-- Models `get_lower_box`, core.py:513-525. -/
def LowerRounded (rd : α → α) (x : BoxOf ι α) (w : ι → α) (b v : α) : Prop :=
  ∃ d, IsSum rd (fun i => rd (max (w i) 0 * x.1 i) + rd (min (w i) 0 * x.2 i)) d ∧ v = rd (d + b)

/-- Models `get_linear_hull_relu`, utils.py:128-201, without `finetune` (`gamma = 1`). -/
def roundedHullRelu (rd : α → α) (eps : α) (slope : Slope) (upper lower : α) : Hull α :=
  let alpha := rd (rd (relu upper - relu lower) / max eps (rd (upper - lower)))
  let bu := rd (relu lower - rd (alpha * lower))
  let wl := match slope with
    | .vSlope => 1 - - kclip (ksign (rd (upper + lower)) - 1) (-1) 0
    | .aSlope => kclip (ksign (rd (alpha - 1 / 2))) 0 1
    | .zSlope => 0
    | .oSlope => 1
    | .sSlope => alpha
  let dead := indexDead upper
  let lin := indexLinear lower
  { wu := (1 - lin) * ((1 - dead) * alpha) + lin
    wl := (1 - lin) * ((1 - dead) * wl) + lin
    bu := (1 - lin) * ((1 - dead) * bu)
    bl := 0 }

/-- Models `relu_` in affine mode, utils.py:343-401: the bounds of line 359, the hull of line 391 and the products of lines 392-395. -/
def ReluRounded (rd : α → α) (eps : α) (slope : Slope) (f g : Full (BoxOf ι α) ι κ α) : Prop :=
  ∃ u l : κ → α, (∀ k, UpperRounded rd f.x (fun i => f.wu i k) (f.bu k) (u k)) ∧ (∀ k, LowerRounded rd f.x (fun i => f.wl i k) (f.bl k) (l k)) ∧
    g.x = f.x ∧ ∀ k, (∀ i, g.wu i k = rd ((roundedHullRelu rd eps slope (u k) (l k)).wu * f.wu i k) ∧
        g.wl i k = rd ((roundedHullRelu rd eps slope (u k) (l k)).wl * f.wl i k)) ∧
      g.bu k = rd (rd ((roundedHullRelu rd eps slope (u k) (l k)).wu * f.bu k) + (roundedHullRelu rd eps slope (u k) (l k)).bu) ∧
      g.bl k = rd (rd ((roundedHullRelu rd eps slope (u k) (l k)).wl * f.bl k) + (roundedHullRelu rd eps slope (u k) (l k)).bl)

/-- Models `DecomonConv2D.call` in affine mode, decomon_layers.py:187-257 (and `DecomonDense` on inputs of higher rank): as `DenseRounded`. -/
structure LinearRounded {T Q : Type} [Fintype T] (rd : α → α) (L : LinIndex κ κ' T Q) (kernel : Q → α) (bias : κ' → α)
    (f : Full (BoxOf ι α) ι κ α) (g : Full (BoxOf ι α) ι κ' α) : Prop where
  x : g.x = f.x
  wu : ∀ i o, ∃ a b, IsSum rd (fun t => (L.src o t).elim 0 (f.wu i) * max 0 (kernel (L.kidx o t))) a ∧
    IsSum rd (fun t => (L.src o t).elim 0 (f.wl i) * min 0 (kernel (L.kidx o t))) b ∧ g.wu i o = rd (a + b)
  wl : ∀ i o, ∃ a b, IsSum rd (fun t => (L.src o t).elim 0 (f.wl i) * max 0 (kernel (L.kidx o t))) a ∧
    IsSum rd (fun t => (L.src o t).elim 0 (f.wu i) * min 0 (kernel (L.kidx o t))) b ∧ g.wl i o = rd (a + b)
  bu : ∀ o, ∃ a b, IsSum rd (fun t => (L.src o t).elim 0 f.bu * max 0 (kernel (L.kidx o t))) a ∧
    IsSum rd (fun t => (L.src o t).elim 0 f.bl * min 0 (kernel (L.kidx o t))) b ∧ g.bu o = rd (rd (a + b) + bias o)
  bl : ∀ o, ∃ a b, IsSum rd (fun t => (L.src o t).elim 0 f.bl * max 0 (kernel (L.kidx o t))) a ∧
    IsSum rd (fun t => (L.src o t).elim 0 f.bu * min 0 (kernel (L.kidx o t))) b ∧ g.bl o = rd (rd (a + b) + bias o)

/-- The decomon layers in affine mode.  `DecomonBatchNormalization` (decomon_layers.py:816-887): any result with the relative error `bn`.  `DecomonFlatten`,
`DecomonReshape`, `DecomonDropout` move numbers. -/
def Lay.RoundedAffine [Fintype κ] (rd : α → α) (eps : α) (slope : Slope) (bn : α) :
    Lay α κ κ' → Full (BoxOf ι α) ι κ α → Full (BoxOf ι α) ι κ' α → Prop
  | .dense kernel bias, f, g => DenseRounded rd kernel bias f g
  | @Lay.linear _ _ _ _ _ _ L kernel bias, f, g => LinearRounded rd L kernel bias f g
  | .relu gf _, f, g => (∀ k, gf k = 1) ∧ ReluRounded rd eps slope f g
  | .batchNorm gamma beta mean sd, f, g =>
    g.x = f.x ∧ ∀ k, (∀ i, |g.wu i k - (batchNormT boxDomain .affine gamma beta mean sd f).wu i k| ≤ bn * (|gamma k| / sd k * max |f.wu i k| |f.wl i k|) ∧
        |g.wl i k - (batchNormT boxDomain .affine gamma beta mean sd f).wl i k| ≤ bn * (|gamma k| / sd k * max |f.wu i k| |f.wl i k|)) ∧
      |g.bu k - (batchNormT boxDomain .affine gamma beta mean sd f).bu k| ≤ bn * (|gamma k| / sd k * (max |f.bu k| |f.bl k| + |mean k|) + |beta k|) ∧
      |g.bl k - (batchNormT boxDomain .affine gamma beta mean sd f).bl k| ≤ bn * (|gamma k| / sd k * (max |f.bu k| |f.bl k| + |mean k|) + |beta k|)
  | .reshape e, f, g => g = reindexT boxDomain .affine false e f
  | .skip, f, g => g = f

/-- Models `add`, utils.py:295-340, and `DecomonAdd.call` on two inputs, decomon_merge_layers.py:119-156, in affine mode. -/
structure AddRounded (rd : α → α) (f0 f1 g : Full (BoxOf ι α) ι κ α) : Prop where
  x : g.x = f0.x
  wu : ∀ i k, g.wu i k = rd (f0.wu i k + f1.wu i k)
  wl : ∀ i k, g.wl i k = rd (f0.wl i k + f1.wl i k)
  bu : ∀ k, g.bu k = rd (f0.bu k + f1.bu k)
  bl : ∀ k, g.bl k = rd (f0.bl k + f1.bl k)

/-- Models `DecomonAverage.call` on two inputs, decomon_merge_layers.py:187-228, in affine mode: `sum(x) / len(x)`. -/
structure AverageRounded (rd : α → α) (f0 f1 g : Full (BoxOf ι α) ι κ α) : Prop where
  x : g.x = f0.x
  wu : ∀ i k, g.wu i k = rd (rd (f0.wu i k + f1.wu i k) / 2)
  wl : ∀ i k, g.wl i k = rd (rd (f0.wl i k + f1.wl i k) / 2)
  bu : ∀ k, g.bu k = rd (rd (f0.bu k + f1.bu k) / 2)
  bl : ∀ k, g.bl k = rd (rd (f0.bl k + f1.bl k) / 2)

/-- Models `maximum`, utils.py:443-481, in affine mode: `add(relu_(subtract(y, x)), x)`. -/
def MaxRounded (rd : α → α) (eps : α) (f0 f1 g : Full (BoxOf ι α) ι κ α) : Prop :=
  ∃ d r, AddRounded rd f1 (minusT boxDomain .affine f0) d ∧ ReluRounded rd eps .vSlope d r ∧ AddRounded rd r f0 g

/-- The decomon merge layers on two inputs in affine mode; changing a sign makes no error.  `Multiply` is left out. -/
def MergeOp.RoundedAffine (rd : α → α) (eps : α) (op : MergeOp) (f0 f1 g : Full (BoxOf ι α) ι κ α) : Prop :=
  match op with
  | .add => AddRounded rd f0 f1 g
  | .subtract => AddRounded rd f0 (minusT boxDomain .affine f1) g
  | .average => AverageRounded rd f0 f1 g
  | .maximum => MaxRounded rd eps f0 f1 g
  | .minimum => ∃ g', MaxRounded rd eps (minusT boxDomain .affine f0) (minusT boxDomain .affine f1) g' ∧ g = minusT boxDomain .affine g'
  | .multiply => False

/-- The tensors that the model of `clone(model, method="forward-affine")` may return on a box in rounded arithmetic
(`convert_forward_functional_model`, forward_cloning.py:132-228). -/
def Net.RoundedAffine (rd : α → α) (eps : α) (slope : Slope) (bn : α) (inp : Full (BoxOf ι α) ι ι α) :
    {κ : Type} → Net α ι κ → Full (BoxOf ι α) ι κ α → Prop
  | _, .input, g => g = inp
  | _, @Net.layer _ _ _ _ _ _ _ n l, g => ∃ f, n.RoundedAffine rd eps slope bn inp f ∧ l.RoundedAffine rd eps slope bn f g
  | _, .merge op n0 n1, g => ∃ f0 f1, n0.RoundedAffine rd eps slope bn inp f0 ∧ n1.RoundedAffine rd eps slope bn inp f1 ∧ op.RoundedAffine rd eps f0 f1 g

/-- What `get_range_box` computes with numpy from the affine tensors, wrapper.py:556-565: two sums, and the bias. -/
def RangeRounded (rd : α → α) (b : BoxOf ι α) (g : Full (BoxOf ι α) ι κ α) (k : κ) (U L : α) : Prop :=
  (∃ x y, IsSum rd (fun i => b.2 i * max 0 (g.wu i k)) x ∧ IsSum rd (fun i => b.1 i * min 0 (g.wu i k)) y ∧ U = rd (rd (x + y) + g.bu k)) ∧
  ∃ x y, IsSum rd (fun i => b.1 i * max 0 (g.wl i k)) x ∧ IsSum rd (fun i => b.2 i * min 0 (g.wl i k)) y ∧ L = rd (rd (x + y) + g.bl k)

/-- The score of `get_adv_box` between the classes `j` and `c`, wrapper.py:207-224: the differences of the tensors, two sums, and the bias. -/
def ScoreRounded (rd : α → α) (b : BoxOf ι α) (g : Full (BoxOf ι α) ι κ α) (j c : κ) (v : α) : Prop :=
  ∃ x y, IsSum rd (fun i => b.2 i * max 0 (rd (g.wu i j - g.wl i c))) x ∧ IsSum rd (fun i => b.1 i * min 0 (rd (g.wu i j - g.wl i c))) y ∧
    v = rd (rd (x + y) + rd (g.bu j - g.bl c))

end

end Decomon
