import Verif.Model.FloatCrown
import Verif.Model.FloatMode
import Verif.Model.Wrapper
import Verif.SpecFloatSplit

/-!
Model of the refinement of boxes (wrapper.py) in rounded arithmetic: `rd` rounds every operation of numpy on the boxes (`float64`), `cast` converts the
corners to the format of the model (`float32`), in which the model computes with the rounding `rm`.
-/

namespace Decomon

section
variable {n : ℕ} {α : Type} [Field α] [LinearOrder α]

/-- `(x_min + x_max) / 2.0`, wrapper.py:783 and 892-893. -/
def midRounded {ι : Type} (rd : α → α) (b : BoxOf ι α) (j : ι) : α := rd (rd (b.1 j + b.2 j) / 2)

/-- The half of a box below the computed middle of coordinate `j`, wrapper.py:788. -/
def lowRounded {ι : Type} [DecidableEq ι] (rd : α → α) (b : BoxOf ι α) (j : ι) : BoxOf ι α := (b.1, Function.update b.2 j (midRounded rd b j))

/-- The half above it, wrapper.py:787. -/
def highRounded {ι : Type} [DecidableEq ι] (rd : α → α) (b : BoxOf ι α) (j : ι) : BoxOf ι α := (Function.update b.1 j (midRounded rd b j), b.2)

/-- `X_max - X_min`, wrapper.py:796. -/
def widthRounded {ι : Type} (rd : α → α) (b : BoxOf ι α) : ι → α := fun i => rd (b.2 i - b.1 i)

/-- Models the inner function `split` of `refine_boxes`, wrapper.py:773-791, on the boxes of one sample, with `j = np.argmax(X_max - X_min, -1)`
(line 796). -/
def splitRounded (rd : α → α) (bs : List (BoxOf (Fin (n + 1)) α)) : List (BoxOf (Fin (n + 1)) α) :=
  bs.map (fun b => lowRounded rd b (argmax (widthRounded rd b))) ++ bs.map (fun b => highRounded rd b (argmax (widthRounded rd b)))

/-- Models the loop of `refine_boxes`, wrapper.py:793-798; `fuel` bounds the number of iterations. -/
def refineLoopRounded (rd : α → α) : ℕ → ℕ → List (BoxOf (Fin (n + 1)) α) → List (BoxOf (Fin (n + 1)) α)
  | 0, _, bs => bs
  | fuel + 1, nSub, bs => if 2 * bs.length ≤ nSub then refineLoopRounded rd fuel nSub (splitRounded rd bs) else bs

/-- Models `refine_boxes` for one sample of shape `(n,)`, wrapper.py:758-804.  (For more dimensions see the exact model: line 766 loses `x_max`.)  The sums
with `np.zeros` are exact. -/
def refineRounded (rd : α → α) (nSub : ℕ) (b : BoxOf (Fin (n + 1)) α) : List (BoxOf (Fin (n + 1)) α) := refineLoopRounded rd nSub nSub [b]

/-- One iteration of the loop of `refine_box`, wrapper.py:887-900. -/
def stepRounded {ι : Type} [DecidableEq ι] (rd : α → α) (bs : List (BoxOf ι α)) (i : ℕ) (j : ι) : List (BoxOf ι α) :=
  match bs[i]? with
  | some b => bs.set i (lowRounded rd b j) ++ [highRounded rd b j]
  | none => bs

/-- Models the loop of `refine_box` with `random=False`, wrapper.py:876-901: `widths` is `index_max[n_i, :count]`, whose entries are halved (lines
897-898); `fuel` bounds the number of iterations. -/
def refineBoxLoopRounded (rd : α → α) : ℕ → ℕ → List (BoxOf (Fin (n + 1)) α) → List (Fin (n + 1) → α) → List (BoxOf (Fin (n + 1)) α)
  | 0, _, bs, _ => bs
  | fuel + 1, nSplit, bs, widths =>
    if bs.length < nSplit then
      let vals := widths.map fun w => w (argmax w)
      let i := vals.findIdx (· = listMax vals)
      match widths[i]? with
      | none => bs
      | some w =>
        let j := argmax w
        let w' := Function.update w j (rd (w j / 2))
        refineBoxLoopRounded rd fuel nSplit (stepRounded rd bs i j) (widths.set i w' ++ [w'])
    else bs

/-- The boxes on which `refine_box` calls its function, wrapper.py:837-901. -/
def refineBoxRounded (rd : α → α) (nSplit : ℕ) (b : BoxOf (Fin (n + 1)) α) : List (BoxOf (Fin (n + 1)) α) :=
  refineBoxLoopRounded rd nSplit nSplit [b] [widthRounded rd b]

end

section
variable {ι κ α : Type} [Fintype ι] [DecidableEq ι] [Field α] [LinearOrder α]

/-- The tensors that the model of `clone(model, method)` may return on a box in rounded arithmetic (convert.py:78-258). -/
def Net.CloneRounded (rm : α → α) (method : Method) (eps : α) (slope : Slope) (bn : α) (b : BoxOf ι α) (n : Net α ι κ) (g : Full (BoxOf ι α) ι κ α) : Prop :=
  match method with
  | .crown => n.CrownRounded rm eps slope bn b g.uc g.lc
  | .crownForwardIbp | .crownForwardAffine | .crownForwardHybrid => n.FwdCrownRounded rm method.outMode eps slope bn b g
  | .forwardIbp | .forwardAffine | .forwardHybrid => n.RoundedMode rm method.outMode eps slope bn (inputTensorsBox method.outMode b.1 b.2) g

/-- What `get_range_box` may return for the output `k` of a sample which was replaced by the boxes `bs`, wrapper.py:502-594, and `refine_box` with
`get_upper_box` and `get_lower_box`, wrapper.py:903-909: a range for every box, computed with the rounding `rd` from the tensors that the model returns on
the converted corners, but from the corners before the conversion (lines 556-565); then the largest upper and the smallest lower bound.  (With `n_sub_boxes`
greater than 1, lines 591-593 mix the outputs of a model that has more than one.) -/
def Net.RangeOver (rd rm cast : α → α) (method : Method) (eps : α) (slope : Slope) (bn : α) (bs : List (BoxOf ι α)) (n : Net α ι κ) (k : κ) (U L : α) : Prop :=
  ∃ rs : List (α × α), List.Forall₂ (fun b r => ∃ g, n.CloneRounded rm method eps slope bn (castBox cast b) g ∧
    RangeMode rd method.outMode b g k r.1 r.2) bs rs ∧ U = listMax (rs.map Prod.fst) ∧ L = listMin (rs.map Prod.snd)

/-- What `get_adv_box` may return for the source class `c` and the target classes `T`, wrapper.py:80-262: the largest of the scores of the boxes, which are
computed with the corners that the model returns (lines 232-247). -/
def Net.AdvOver (rd rm cast : α → α) (method : Method) (eps : α) (slope : Slope) (bn : α) (bs : List (BoxOf ι α)) (n : Net α ι κ) (T : Set κ) (c : κ)
    (R : α) : Prop :=
  ∃ rs, List.Forall₂ (fun b r => ∃ g, n.CloneRounded rm method eps slope bn (castBox cast b) g ∧
    AdvMode rd method.outMode (castBox cast b) g T c r) bs rs ∧ R = listMax rs

end

end Decomon
