import Verif.Model.FloatAffine
import Verif.SpecFloatMode

/-!
Model of the methods `forward-ibp`, `forward-affine` and `forward-hybrid` in rounded arithmetic, over a box, with the operations of the code one by one:
every operation of `keras.ops` is followed by a rounding `rd`.  The layers compute `u_c_out, l_c_out` from `u_c, l_c` by the same expressions as
`b_u_out, b_l_out` from `b_u, b_l`, so the constant bounds are modelled as affine bounds in no inputs.

Simplified: as in `Model/FloatAffine.lean`.
-/

namespace Decomon

section
variable {ι κ κ' α : Type} [Field α] [LinearOrder α] [Fintype ι]

/-- Constant bounds as affine bounds in no inputs. -/
def constAff (u l : κ → α) : Full (BoxOf Empty α) Empty κ α :=
  ⟨(Empty.elim, Empty.elim), fun _ => 0, fun e => e.elim, u, fun _ => 0, fun e => e.elim, l, fun _ => 0, fun _ => 0⟩

/-- The constant bounds that a layer reads, `get_fullinputs_from_inputsformode`, core.py:286-347. -/
def TightRounded (rd : α → α) (m : Mode) (f : Full (BoxOf ι α) ι κ α) (u l : κ → α) : Prop :=
  match m with
  | .ibp => u = f.uc ∧ l = f.lc
  | .affine => ∀ k, UpperRounded rd f.x (fun i => f.wu i k) (f.bu k) (u k) ∧ LowerRounded rd f.x (fun i => f.wl i k) (f.bl k) (l k)
  | .hybrid => ∃ ua la : κ → α, (∀ k, UpperRounded rd f.x (fun i => f.wu i k) (f.bu k) (ua k) ∧ LowerRounded rd f.x (fun i => f.wl i k) (f.bl k) (la k)) ∧
      ∀ k, u k = min (f.uc k) (ua k) ∧ l k = max (f.lc k) (la k)

/-- Models `relu_`, utils.py:343-401: the bounds of line 359, `K.relu` of lines 379-381, the hull of line 391 and the products of lines 392-395. -/
def ReluMode (rd : α → α) (m : Mode) (eps : α) (slope : Slope) (f g : Full (BoxOf ι α) ι κ α) : Prop :=
  ∃ u l, TightRounded rd m f u l ∧ g.x = f.x ∧ (getIbp m = true → ∀ k, g.uc k = relu (u k) ∧ g.lc k = relu (l k)) ∧
    (getAffine m = true → ∀ k, (∀ i, g.wu i k = rd ((roundedHullRelu rd eps slope (u k) (l k)).wu * f.wu i k) ∧
        g.wl i k = rd ((roundedHullRelu rd eps slope (u k) (l k)).wl * f.wl i k)) ∧
      g.bu k = rd (rd ((roundedHullRelu rd eps slope (u k) (l k)).wu * f.bu k) + (roundedHullRelu rd eps slope (u k) (l k)).bu) ∧
      g.bl k = rd (rd ((roundedHullRelu rd eps slope (u k) (l k)).wl * f.bl k) + (roundedHullRelu rd eps slope (u k) (l k)).bl))

/-- The affine parts of two lists of tensors are the same. -/
def Full.SameAff (f g : Full (BoxOf ι α) ι κ α) : Prop := f.x = g.x ∧ f.wu = g.wu ∧ f.bu = g.bu ∧ f.wl = g.wl ∧ f.bl = g.bl

/-- The decomon layers (decomon_layers.py:135-257 for `DecomonConv2D`, 420-502 for `DecomonDense`, 816-887 for `DecomonBatchNormalization`,
`DecomonFlatten`, `DecomonReshape`) in every mode; `DecomonDropout` returns its inputs. -/
def Lay.RoundedMode [Fintype κ] (rd : α → α) (m : Mode) (eps : α) (slope : Slope) (bn : α) :
    Lay α κ κ' → Full (BoxOf ι α) ι κ α → Full (BoxOf ι α) ι κ' α → Prop
  | .relu gf _, f, g => (∀ k, gf k = 1) ∧ ReluMode rd m eps slope f g
  | .skip, f, g => g = f
  | l, f, g => g.x = f.x ∧ (getAffine m = true → ∃ g', l.RoundedAffine rd eps slope bn f g' ∧ g.SameAff g') ∧
      (getIbp m = true → ∃ u lo g', TightRounded rd m f u lo ∧ l.RoundedAffine rd eps slope bn (constAff u lo) g' ∧ g.uc = g'.bu ∧ g.lc = g'.bl)

/-- Models `add`, utils.py:295-340, and `DecomonAdd.call` on two inputs, decomon_merge_layers.py:119-156. -/
def AddMode (rd : α → α) (m : Mode) (f0 f1 g : Full (BoxOf ι α) ι κ α) : Prop :=
  g.x = f0.x ∧ (getAffine m = true → AddRounded rd f0 f1 g) ∧
    (getIbp m = true → ∃ u0 l0 u1 l1, TightRounded rd m f0 u0 l0 ∧ TightRounded rd m f1 u1 l1 ∧
      ∀ k, g.uc k = rd (u0 k + u1 k) ∧ g.lc k = rd (l0 k + l1 k))

/-- Models `DecomonAverage.call` on two inputs, decomon_merge_layers.py:187-228. -/
def AverageMode (rd : α → α) (m : Mode) (f0 f1 g : Full (BoxOf ι α) ι κ α) : Prop :=
  g.x = f0.x ∧ (getAffine m = true → AverageRounded rd f0 f1 g) ∧
    (getIbp m = true → ∃ u0 l0 u1 l1, TightRounded rd m f0 u0 l0 ∧ TightRounded rd m f1 u1 l1 ∧
      ∀ k, g.uc k = rd (rd (u0 k + u1 k) / 2) ∧ g.lc k = rd (rd (l0 k + l1 k) / 2))

/-- Models `maximum`, utils.py:443-481: `add(relu_(subtract(y, x)), x)`. -/
def MaxMode (rd : α → α) (m : Mode) (eps : α) (f0 f1 g : Full (BoxOf ι α) ι κ α) : Prop :=
  ∃ d r, AddMode rd m f1 (minusT boxDomain m f0) d ∧ ReluMode rd m eps .vSlope d r ∧ AddMode rd m r f0 g

/-- The decomon merge layers on two inputs; changing a sign makes no error.  `Multiply` is left out. -/
def MergeOp.RoundedMode (rd : α → α) (m : Mode) (eps : α) (op : MergeOp) (f0 f1 g : Full (BoxOf ι α) ι κ α) : Prop :=
  match op with
  | .add => AddMode rd m f0 f1 g
  | .subtract => AddMode rd m f0 (minusT boxDomain m f1) g
  | .average => AverageMode rd m f0 f1 g
  | .maximum => MaxMode rd m eps f0 f1 g
  | .minimum => ∃ g', MaxMode rd m eps (minusT boxDomain m f0) (minusT boxDomain m f1) g' ∧ g = minusT boxDomain m g'
  | .multiply => False

/-- The tensors that the model of `clone(model, method="forward-…")` may return on a box in rounded arithmetic
(`convert_forward_functional_model`, forward_cloning.py:132-228). -/
def Net.RoundedMode (rd : α → α) (m : Mode) (eps : α) (slope : Slope) (bn : α) (inp : Full (BoxOf ι α) ι ι α) :
    {κ : Type} → Net α ι κ → Full (BoxOf ι α) ι κ α → Prop
  | _, .input, g => g = inp
  | _, @Net.layer _ _ _ _ _ _ _ n l, g => ∃ f, n.RoundedMode rd m eps slope bn inp f ∧ l.RoundedMode rd m eps slope bn f g
  | _, .merge op n0 n1, g => ∃ f0 f1, n0.RoundedMode rd m eps slope bn inp f0 ∧ n1.RoundedMode rd m eps slope bn inp f1 ∧ op.RoundedMode rd m eps f0 f1 g

/-- What `get_range_box` returns for the output `k`, wrapper.py:538-585. -/
def RangeMode (rd : α → α) (m : Mode) (b : BoxOf ι α) (g : Full (BoxOf ι α) ι κ α) (k : κ) (U L : α) : Prop :=
  match m with
  | .ibp => U = g.uc k ∧ L = g.lc k
  | .affine => RangeRounded rd b g k U L
  | .hybrid => ∃ Uf Lf, RangeRounded rd b g k Uf Lf ∧ U = min (g.uc k) Uf ∧ L = max (g.lc k) Lf

/-- What `get_adv_box` returns for the source class `c` and the target classes `T`, wrapper.py:157-262: a maximum of scores, for the pairs that the mask
keeps (from which `0` is subtracted), and in mode hybrid the smaller of both maxima. -/
def AdvMode (rd : α → α) (m : Mode) (b : BoxOf ι α) (g : Full (BoxOf ι α) ι κ α) (T : Set κ) (c : κ) (R : α) : Prop :=
  match m with
  | .ibp => ∀ j ∈ T, rd (g.uc j - g.lc c) ≤ R
  | .affine => ∀ j ∈ T, ∃ v, ScoreRounded rd b g j c v ∧ v ≤ R
  | .hybrid => ∃ R1 R2, (∀ j ∈ T, rd (g.uc j - g.lc c) ≤ R1) ∧ (∀ j ∈ T, ∃ v, ScoreRounded rd b g j c v ∧ v ≤ R2) ∧ R = min R1 R2

end

end Decomon
