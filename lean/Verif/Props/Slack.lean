import Verif.Lemmas.Slack
import Verif.Props.Network

/-!
C104, C105: soundness of the bounds up to an error that depends on the weights only.
-/

namespace Decomon

section
variable {X ι κ ν α : Type} [Fintype ι] [Field α] [LinearOrder α] [IsStrictOrderedRing α]

/-- C104: forward LiRPA of a network without `Multiply` is sound up to `eps * gain`, in every mode, for all input sets. -/
theorem C104_forward_near (D : PertDomain X ι α) (m : Mode) (eps : α) (he : 0 < eps) (slope : Slope) (inp : Full X ι ι α)
    (S : Set (ι → α)) (hD : D.Sound inp.x S) (n : Net α ι κ) (hn : n.WF) (hm : n.NoMultiply) (p : ι → α) (hp : p ∈ S)
    (hi : Valid m false inp p p) : Near m (n.forward D m eps slope inp) p (n.eval p) (fun k => eps * n.gain k) :=
  Net.forward_near D m eps he slope inp S hD p hp hi n hn hm

/-- C104: end to end on a box. -/
theorem C104_box [DecidableEq ι] (m : Mode) (eps : α) (he : 0 < eps) (slope : Slope) (xmin xmax : ι → α) (n : Net α ι κ)
    (hn : n.WF) (hm : n.NoMultiply) (p : ι → α) (hp : p ∈ Box xmin xmax) :
    Near m (n.forward boxDomain m eps slope (inputTensorsBox m xmin xmax)) p (n.eval p) (fun k => eps * n.gain k) :=
  C104_forward_near boxDomain m eps he slope _ (Box xmin xmax) (boxDomain_sound xmin xmax) n hn hm p hp
    (C27_input_box m xmin xmax p hp)

/-- C104: the constant bounds that the user reads off in affine mode, the concretised affine bounds over the box, have the same
error. -/
theorem C104_box_concretised [DecidableEq ι] (m : Mode) (ha : getAffine m = true) (eps : α) (he : 0 < eps) (slope : Slope)
    (xmin xmax : ι → α) (n : Net α ι κ) (hn : n.WF) (hm : n.NoMultiply) (p : ι → α) (hp : p ∈ Box xmin xmax) (k : κ) :
    let out := n.forward boxDomain m eps slope (inputTensorsBox m xmin xmax)
    boxDomain.getLower (xmin, xmax) (fun i => out.wl i k) (out.bl k) - eps * n.gain k ≤ n.eval p k ∧
      n.eval p k ≤ boxDomain.getUpper (xmin, xmax) (fun i => out.wu i k) (out.bu k) + eps * n.gain k := by
  have h := (C104_box m eps he slope xmin xmax n hn hm p hp).aff ha k
  have h1 := boxDomain_sound xmin xmax p hp
  exact ⟨(sub_le_sub_right (h1 _ _).1 _).trans h.1, h.2.trans (add_le_add_left (h1 _ _).2 _)⟩

/-- `L` ReLUs on one coordinate. -/
def reluChain : ℕ → Net α (Fin 1) (Fin 1)
  | 0 => .input
  | L + 1 => .layer (reluChain L) (.relu (fun _ => 1) (fun _ => 1))

/-- C104: the error depends on the network only: not on the input set, the mode, the slope or the finetuning parameters.  For `L`
ReLUs in a row it is `(2 ^ L - 1) / 4`. -/
theorem C104_gain_relu_chain (L : ℕ) (k : Fin 1) : (reluChain L : Net α (Fin 1) (Fin 1)).gain k = (2 ^ L - 1) / 4 := by
  induction L with
  | zero => simp [reluChain, Net.gain]
  | succ L ih =>
    simp only [reluChain, Net.gain, Lay.gain, ih]
    rw [pow_succ]
    field_simp
    ring

/-- C105: backward LiRPA of a chain succeeds with bounds that are sound up to the same error, whichever intermediate bounds are
used. -/
theorem C105_crown_near [DecidableEq ι] (c : CrownCfg X ι α) (he : 0 < c.eps) (S : Set (ι → α)) (hD : c.D.Sound c.inp.x S)
    (hst : c.m = .ibp → c.D.Sound (c.stack c.inp.lc c.inp.uc) S) (n : Net α ι κ) (hc : n.Chain) (hn : n.WF)
    (p : ι → α) (hp : p ∈ S) (hi : Valid c.m false c.inp p p) :
    ∃ out, c.model n = .ok out ∧ Near c.m out p (n.eval p) (fun k => c.eps * n.gain k) := by
  obtain ⟨⟨b, h1, h2⟩, -⟩ := c.node_near he S hD hst p hp hi n hc hn
  exact ⟨_, by rw [CrownCfg.model, h1]; rfl, convert2BackwardMode_near c.D c.stack c.m c.inp S (fun _ => hD) hst p hp b _ _ h2⟩

/-- C105: end to end on a box, for `crown` (`m = ibp`, `uf = false`) and `crown-forward-*` (`uf = true`). -/
theorem C105_box [DecidableEq ι] (m : Mode) (eps : α) (he : 0 < eps) (slope : Slope) (uf : Bool) (xmin xmax : ι → α) (n : Net α ι κ)
    (hc : n.Chain) (hn : n.WF) (p : ι → α) (hp : p ∈ Box xmin xmax) :
    ∃ out, (boxCrown m eps slope uf xmin xmax).model n = .ok out ∧ Near m out p (n.eval p) (fun k => eps * n.gain k) :=
  C105_crown_near (boxCrown m eps slope uf xmin xmax) he (Box xmin xmax) (boxDomain_sound xmin xmax)
    (boxCrown_stack m eps slope uf xmin xmax) n hc hn p hp (C27_input_box m xmin xmax p hp)

/-- C105: with `back_bounds = [C]` the error in column `j` is the sum over the outputs `k` of `|C k j|` times the error of `k`. -/
theorem C105_back_bounds [DecidableEq ι] [Fintype κ] (c : CrownCfg X ι α) (he : 0 < c.eps) (S : Set (ι → α)) (hD : c.D.Sound c.inp.x S)
    (hst : c.m = .ibp → c.D.Sound (c.stack c.inp.lc c.inp.uc) S) (n : Net α ι κ) (hc : n.Chain) (hn : n.WF)
    (C : κ → ν → α) (p : ι → α) (hp : p ∈ S) (hi : Valid c.m false c.inp p p) :
    ∃ out, c.modelBack n C = .ok out ∧
      Near c.m out p (fun j => ∑ k, n.eval p k * C k j) (fun j => c.eps * ∑ k, |C k j| * n.gain k) := by
  obtain ⟨-, h⟩ := c.node_near he S hD hst p hp hi n hc hn
  obtain ⟨b, h1, h2⟩ := h ν ⟨C, fun _ => 0, C, fun _ => 0⟩ (fun j => ∑ k, n.eval p k * C k j) (fun _ => 0) (fun k j => |C k j|)
    (fun _ _ => ⟨le_rfl, le_rfl⟩) (fun j => by
      have e : affEval (fun k => C k j) 0 (n.eval p) = ∑ k, n.eval p k * C k j := by
        simp only [affEval, add_zero]; exact Finset.sum_congr rfl fun k _ => mul_comm _ _
      simp only [e, mul_zero, sub_zero, add_zero, le_refl, and_self])
  simp only [zero_add] at h2
  exact ⟨_, by rw [CrownCfg.modelBack, h1]; rfl, convert2BackwardMode_near c.D c.stack c.m c.inp S (fun _ => hD) hst p hp b _ _ h2⟩

/-- C105: a certificate with a margin: when the upper bounds of `y · C` that the converted model returns are at most minus the error,
the network really satisfies `y · C ≤ 0` on the whole input set. -/
theorem C105_certificate [DecidableEq ι] [Fintype κ] (m : Mode) (hm : getIbp m = true) (eps : α) (he : 0 < eps) (slope : Slope) (uf : Bool)
    (xmin xmax : ι → α) (n : Net α ι κ) (hc : n.Chain) (hn : n.WF) (C : κ → ν → α) (out : Full ((ι → α) × (ι → α)) ι ν α)
    (ho : (boxCrown m eps slope uf xmin xmax).modelBack n C = .ok out)
    (hu : ∀ j, out.uc j ≤ -(eps * ∑ k, |C k j| * n.gain k)) (p : ι → α) (hp : p ∈ Box xmin xmax) (j : ν) :
    ∑ k, n.eval p k * C k j ≤ 0 := by
  obtain ⟨out', h1, h2⟩ := C105_back_bounds (boxCrown m eps slope uf xmin xmax) he (Box xmin xmax) (boxDomain_sound xmin xmax)
    (boxCrown_stack m eps slope uf xmin xmax) n hc hn C p hp (C27_input_box m xmin xmax p hp)
  rw [ho] at h1
  cases h1
  have := (h2.const hm j).2
  have := hu j
  simp only [boxCrown] at *
  linarith

end

section Ball
variable {ι κ : Type} [Fintype ι] [DecidableEq ι] [Nonempty ι]

/-- C104: end to end on an `Lp` ball. -/
theorem C104_ball (m : Mode) (leps : ℝ) (he : 0 < leps) (slope : Slope) (eps : ℝ) (q : PVal) (z : ι → ℝ) (n : Net ℝ ι κ)
    (hn : n.WF) (hm : n.NoMultiply) (p : ι → ℝ) (hp : p ∈ LpBall z eps q) :
    Near m (n.forward (ballDomain eps q) m leps slope (inputTensorsBall m eps q z)) p (n.eval p) (fun k => leps * n.gain k) :=
  C104_forward_near (ballDomain eps q) m leps he slope (inputTensorsBall m eps q z) (LpBall z eps q)
    (ball_input_sound m eps q z) n hn hm p hp (C27_input_ball m eps q z p hp)

/-- C105: end to end on an `Lp` ball, affine and hybrid mode (in ibp mode the ball is misread, C67). -/
theorem C105_ball_affine (m : Mode) (hm : m ≠ .ibp) (leps : ℝ)
    (he : 0 < leps) (slope : Slope) (uf : Bool) (stack : (ι → ℝ) → (ι → ℝ) → ι → ℝ) (eps : ℝ) (q : PVal) (z : ι → ℝ)
    (n : Net ℝ ι κ) (hc : n.Chain) (hn : n.WF) (p : ι → ℝ) (hp : p ∈ LpBall z eps q) :
    ∃ out, (⟨ballDomain eps q, stack, m, leps, slope, uf, inputTensorsBall m eps q z⟩ : CrownCfg (ι → ℝ) ι ℝ).model n = .ok out ∧
      Near m out p (n.eval p) (fun k => leps * n.gain k) :=
  C105_crown_near ⟨ballDomain eps q, stack, m, leps, slope, uf, inputTensorsBall m eps q z⟩ he (LpBall z eps q)
    (ball_input_sound m eps q z) (fun h => absurd h hm) n hc hn p hp (C27_input_ball m eps q z p hp)

end Ball

/-- C104: the quarter cannot be replaced by a smaller number: for every `c < 1/4` the affine upper bound of a single ReLU is wrong by
more than `c * eps` on some box. -/
theorem C104_quarter_sharp (m : Mode) (hm : getAffine m = true) (eps c : ℚ) (he : 0 < eps) (hc0 : 0 ≤ c) (hc : c < 1 / 4) (s : Slope) :
    ∃ xmin xmax : Fin 1 → ℚ, ∃ p ∈ Box xmin xmax,
      let n : Net ℚ (Fin 1) (Fin 1) := .layer .input (.relu (fun _ => 1) (fun _ => 1))
      let out := n.forward boxDomain m eps s (inputTensorsBox m xmin xmax)
      affEval (fun i => out.wu i 0) (out.bu 0) p + c * eps < n.eval p 0 := by
  have hd : 0 < eps * (1 / 4 - c) := mul_pos he (by linarith)
  have hd1 : eps * (1 / 4 - c) ≤ eps / 4 := by nlinarith
  have h1 : (0 : ℚ) < eps / 2 := by linarith
  have h2 : -(eps * (1 / 4 - c)) < 0 := by linarith
  have h3 : max eps (eps / 2 - -(eps * (1 / 4 - c))) = eps := max_eq_left (by linarith)
  have e : eps / 2 / eps = 1 / 2 := by field_simp
  obtain ⟨hw, hb, -⟩ := hullRelu_active (g := 1) s he zero_le_one le_rfl h1 h2
  rw [h3, e] at hw hb
  refine ⟨fun _ => -(eps * (1 / 4 - c)), fun _ => eps / 2, fun _ => eps / 2, fun i => ⟨by linarith, le_rfl⟩, ?_⟩
  cases m
  · simp [getAffine] at hm
  all_goals
    simp [Net.forward, Lay.forward, reluT, Full.tighten, inputTensorsBox, boxDomain, getUpperBox, getLowerBox,
      getAffine, getIbp, affEval, Net.eval, Lay.eval, max_eq_left h1.le]
    rw [show -(eps * (4⁻¹ - c)) = -(eps * (1 / 4 - c)) by ring, hw, hb]
    nlinarith

/-- Non-vacuity of C104: the network and the box of the refutation of C27 for `M = 2`, where the bound is wrong by 2; the error
granted by the theorem is `eps * |8 M / eps| / 4 = 4`. -/
example : (sliverNet (1 / 10000000) 2).WF ∧ (sliverNet (1 / 10000000) 2).NoMultiply ∧
    1 / 10000000 * (sliverNet (1 / 10000000) 2).gain 0 = 4 := by
  refine ⟨by simp [sliverNet, Net.WF, Lay.WF], trivial, ?_⟩
  simp [sliverNet, Net.gain, Lay.gain]
  norm_num

/-- Non-vacuity of C104 with a merge layer: the error of `exampleNet` is a quarter of `eps`. -/
example : exampleNet.WF ∧ exampleNet.NoMultiply ∧ exampleNet.gain 0 = 1 / 4 := by
  refine ⟨by simp [exampleNet, Net.WF, Lay.WF], by simp [exampleNet, Net.NoMultiply], ?_⟩
  simp [exampleNet, Net.gain, Lay.gain, MergeOp.gain]

/-- Non-vacuity of C105: method `crown` on `ReLU(1 - 2x)`, `x ∈ [2,3]`, with the column `C = 1`: the certificate `ReLU(1-2x) ≤ 0` is not
granted (the bound is 0, not below minus the error), that of `-ReLU(1-2x) - 1`, seen as the chain with a Dense layer, is. -/
example : ∃ out, (boxCrown .ibp (1 / 10000000 : ℚ) .vSlope false (fun _ => 2) (fun _ => 3)).modelBack
      (.layer chainNet (.dense (fun _ _ => -1) (fun _ => -1)) : Net ℚ (Fin 1) (Fin 1)) (fun _ (_ : Fin 1) => 1) = .ok out ∧
    ∀ j, out.uc j ≤ -(1 / 10000000 * ∑ k : Fin 1, |(1 : ℚ)| *
      (.layer chainNet (.dense (fun _ _ => -1) (fun _ => -1)) : Net ℚ (Fin 1) (Fin 1)).gain k) := by
  refine ⟨_, rfl, ?_⟩
  decide +kernel

end Decomon
