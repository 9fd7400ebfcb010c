import Verif.Lemmas.Exact
import Mathlib.Analysis.SpecialFunctions.Integrals.Basic

/-! Theorems about the precision of the bounds: C84 (single points), C85 (the ReLU hull is the best one). -/

namespace Decomon

/-! ### C84: a perturbation domain reduced to one point -/

section
variable {X ι κ ν α : Type} [Fintype ι] [DecidableEq ι] [Field α] [LinearOrder α] [IsStrictOrderedRing α]

omit [LinearOrder α] [IsStrictOrderedRing α] in
theorem affEval_pick (p : ι → α) (k : ι) : affEval (fun i => if i = k then (1 : α) else 0) 0 p = p k := by simp [affEval]

omit [IsStrictOrderedRing α] in
/-- The input tensors of the box `[p, p]` say exactly `p`. -/
theorem inputTensorsBox_exact (m : Mode) (p : ι → α) : ExactAt m (inputTensorsBox m p p) p p := by
  refine ⟨fun hi k => ?_, fun ha k => ?_⟩
  · simp [inputTensorsBox, hi]
  · simp only [inputTensorsBox, ha, if_true, affEval_pick, and_self]

/-- C84: on the box `[p, p]`, the forward bounds of every graph of layers, in every mode, are the value of the model at `p`. -/
theorem C84_forward_box (m : Mode) (eps : α) (slope : Slope) (p : ι → α) (n : Net α ι κ) :
    ExactAt m (n.forward boxDomain m eps slope (inputTensorsBox m p p)) p (n.eval p) :=
  Net.forward_exact boxDomain m eps slope _ p (boxDomain_point p) (inputTensorsBox_exact m p) n

/-- C84: the same for the numbers a user reads: the constant bounds, and the concretised affine bounds. -/
theorem C84_forward_box_values (m : Mode) (eps : α) (slope : Slope) (p : ι → α) (n : Net α ι κ) (k : κ)
    (out : Full ((ι → α) × (ι → α)) ι κ α) (ho : out = n.forward boxDomain m eps slope (inputTensorsBox m p p)) :
    (getIbp m = true → out.lc k = n.eval p k ∧ out.uc k = n.eval p k) ∧
    (getAffine m = true → getLowerBox p p (fun i => out.wl i k) (out.bl k) = n.eval p k ∧
      getUpperBox p p (fun i => out.wu i k) (out.bu k) = n.eval p k) := by
  subst ho
  have h := C84_forward_box m eps slope p n
  refine ⟨fun hi => h.const hi k, fun ha => ?_⟩
  have a := boxDomain_point p
  exact ⟨((a _ _).1).trans (h.aff ha k).1, ((a _ _).2).trans (h.aff ha k).2⟩

/-- C84: on the box `[p, p]`, the backward bounds of every chain of layers, for all methods, are the value of the model at `p`. -/
theorem C84_crown_box (m : Mode) (eps : α) (slope : Slope) (uf : Bool) (p : ι → α) (n : Net α ι κ) (hc : n.Chain) :
    ∃ out, (boxCrown m eps slope uf p p).model n = .ok out ∧ ExactAt m out p (n.eval p) := by
  have hst : (boxCrown m eps slope uf p p).m = .ibp → (boxCrown m eps slope uf p p).D.Point
      ((boxCrown m eps slope uf p p).stack (boxCrown m eps slope uf p p).inp.lc (boxCrown m eps slope uf p p).inp.uc) p := by
    intro hm
    have : m = .ibp := hm
    subst this
    have : ((boxCrown .ibp eps slope uf p p).stack (boxCrown .ibp eps slope uf p p).inp.lc
      (boxCrown .ibp eps slope uf p p).inp.uc) = (p, p) := by simp [boxCrown, inputTensorsBox, getIbp]
    rw [this]
    exact boxDomain_point p
  obtain ⟨⟨b, h1, h2⟩, -⟩ := CrownCfg.node_exactAt (boxCrown m eps slope uf p p) p (boxDomain_point p) hst
    (inputTensorsBox_exact m p) n hc
  exact ⟨_, by rw [CrownCfg.model, h1]; rfl, convert2BackwardMode_exact _ _ _ _ p (boxDomain_point p) hst b _ h2⟩

end

section Ball
variable {ι κ : Type} [Fintype ι] [DecidableEq ι] [Nonempty ι]

theorem ballDomain_zero_point (q : PVal) (hq : q = .inf ∨ q = .fin 1 ∨ q = .fin 2) (z : ι → ℝ) : (ballDomain 0 q).Point z z := by
  intro w b
  rcases hq with hq | hq | hq
  · have hb := boxDomain_point z w b
    subst hq
    simp only [ballDomain, getLowerBall, getUpperBall, if_true, Except.toOption, sub_zero, add_zero, Option.getD_some]
    exact hb
  · subst hq
    simp only [ballDomain, getLowerBall, getUpperBall, getLqNorm, bind, Except.bind, pure, Except.pure, reduceCtorEq, if_false, if_true,
      Except.toOption, Option.getD_some, zero_mul, neg_zero, zero_add, affEval, and_self]
  · subst hq
    have h21 : (PVal.fin 2 = PVal.fin 1) = False := by simp
    simp only [ballDomain, getLowerBall, getUpperBall, getLqNorm, bind, Except.bind, pure, Except.pure, reduceCtorEq, if_false, if_true, h21,
      Except.toOption, Option.getD_some, zero_mul, neg_zero, zero_add, affEval, and_self]

theorem inputTensorsBall_exact (m : Mode) (q : PVal) (hq : q = .inf ∨ q = .fin 1 ∨ q = .fin 2) (z : ι → ℝ) :
    ExactAt m (inputTensorsBall m 0 q z) z z := by
  have hD := ballDomain_zero_point q hq z
  refine ⟨fun hi k => ?_, fun ha k => ?_⟩
  · simp only [inputTensorsBall, hi, if_true]
    split
    · simp
    · rw [(hD _ _).1, (hD _ _).2, affEval_pick]; exact ⟨rfl, rfl⟩
  · simp only [inputTensorsBall, ha, if_true, affEval_pick, and_self]

/-- C84: on a ball of radius 0 (`p = 1, 2, inf`) around `z`, the forward bounds of every graph, in every mode, are the value at `z`. -/
theorem C84_forward_ball (m : Mode) (leps : ℝ) (slope : Slope) (q : PVal) (hq : q = .inf ∨ q = .fin 1 ∨ q = .fin 2) (z : ι → ℝ)
    (n : Net ℝ ι κ) : ExactAt m (n.forward (ballDomain 0 q) m leps slope (inputTensorsBall m 0 q z)) z (n.eval z) :=
  Net.forward_exact (ballDomain 0 q) m leps slope (inputTensorsBall m 0 q z) z (ballDomain_zero_point q hq z)
    (inputTensorsBall_exact m q hq z) n

end Ball

/-- C84 on an example: a network with a ReLU, a product and a maximum at the point `3`. -/
example : ((Net.merge .maximum (.merge .multiply (.layer .input (.relu (fun _ => 1) (fun _ => 1))) .input)
      (.layer .input (.dense (fun _ _ => -2) (fun _ => 1))) : Net ℚ (Fin 1) (Fin 1)).forward boxDomain .hybrid (1 / 10000000) .vSlope
      (inputTensorsBox .hybrid (fun _ => 3) (fun _ => 3))).uc 0 = 9 := by decide +kernel

/-- C84 needs a point: on `[-1, 1]` the bounds of `ReLU(x) - x` are not exact. -/
example : ((Net.merge .subtract (.layer .input (.relu (fun _ => 1) (fun _ => 1))) .input : Net ℚ (Fin 1) (Fin 1)).forward boxDomain .ibp
      (1 / 10000000) .vSlope (inputTensorsBox .ibp (fun _ => -1) (fun _ => 1))).lc 0 = -1 := by decide +kernel

/-! ### C85: the ReLU hull is the tightest -/

section Hull
variable {α : Type} [Field α] [LinearOrder α] [IsStrictOrderedRing α]

/-- C85: outside the sliver, the upper line is below every line that is above ReLU on `[l, u]`.  Missing with respect to the full
claim: the sliver, where the upper line is not even above ReLU (C05). -/
theorem C85_upper_lowest_partial (eps : α) (he : 0 < eps) (s : Slope) (g u l : α) (hg0 : 0 ≤ g) (hg1 : g ≤ 1) (h : l ≤ u)
    (hs : ¬ (l < 0 ∧ 0 < u ∧ u - l < eps)) (a b : α) (hab : ∀ z, l ≤ z → z ≤ u → max z 0 ≤ a * z + b) (z : α) (h1 : l ≤ z)
    (h2 : z ≤ u) : (linearHullRelu eps s g u l).wu * z + (linearHullRelu eps s g u l).bu ≤ a * z + b := by
  rcases le_or_gt 0 l with hl | hl
  · rw [hullRelu_linear s hl]
    have := hab z h1 h2
    rw [max_eq_left (hl.trans h1)] at this
    simpa using this
  · rcases le_or_gt u 0 with hu | hu
    · rw [hullRelu_dead s hu hl]
      have := hab z h1 h2
      rw [max_eq_right (h2.trans hu)] at this
      simpa using this
    · obtain ⟨h3, h4, -⟩ := hullRelu_active s he hg0 hg1 hu hl
      have hd : eps ≤ u - l := by by_contra hc; exact hs ⟨hl, hu, not_le.mp hc⟩
      rw [h3, h4, max_eq_right hd]
      have hpos : 0 < u - l := lt_of_lt_of_le he hd
      have el := hab l le_rfl h
      have eu := hab u h le_rfl
      rw [max_eq_right hl.le] at el
      rw [max_eq_left hu.le] at eu
      have e : u / (u - l) * z + -(u / (u - l)) * l = u * (z - l) / (u - l) := by ring
      rw [e, div_le_iff₀ hpos]
      nlinarith [mul_nonneg (sub_nonneg.2 h1) (sub_nonneg.2 eu), mul_nonneg (sub_nonneg.2 h2) el]

/-- C85: with the default slope and without finetuning, the lower line takes at the middle of `[l, u]` the value of ReLU. -/
theorem C85_vslope_middle (eps u l : α) (h : l ≤ u) :
    (linearHullRelu eps .vSlope 1 u l).wl * ((u + l) / 2) + (linearHullRelu eps .vSlope 1 u l).bl = max ((u + l) / 2) 0 := by
  rcases le_or_gt 0 l with hl | hl
  · rw [hullRelu_linear _ hl, max_eq_left (by linarith)]; simp
  · rcases le_or_gt u 0 with hu | hu
    · rw [hullRelu_dead _ hu hl, max_eq_right (by linarith)]; simp
    · rcases le_or_gt (u + l) 0 with hm | hm
      · have := indexDead_of_nonpos hm
        simp only [indexDead] at this
        rw [max_eq_right (by linarith)]
        simp [linearHullRelu, indexDead_of_pos hu, indexLinear_of_neg hl, this]
      · have := indexDead_of_pos hm
        simp only [indexDead] at this
        rw [max_eq_left (by linarith)]
        simp [linearHullRelu, indexDead_of_pos hu, indexLinear_of_neg hl, this]

/-- C85: outside the sliver, `V_SLOPE` and `A_SLOPE` give the same hull, with or without finetuning. -/
theorem C85_vslope_eq_aslope (eps : α) (he : 0 < eps) (g u l : α) (hs : ¬ (l < 0 ∧ 0 < u ∧ u - l < eps)) :
    linearHullRelu eps .vSlope g u l = linearHullRelu eps .aSlope g u l := by
  rcases le_or_gt 0 l with hl | hl
  · rw [hullRelu_linear _ hl, hullRelu_linear _ hl]
  · rcases le_or_gt u 0 with hu | hu
    · rw [hullRelu_dead _ hu hl, hullRelu_dead _ hu hl]
    · have hd : eps ≤ u - l := by by_contra hc; exact hs ⟨hl, hu, not_le.mp hc⟩
      have hpos : 0 < u - l := lt_of_lt_of_le he hd
      have key : 1 - - kclip (ksign (u + l) - 1) (-1) 0 =
          kclip (ksign ((relu u - relu l) / max eps (u - l) - 1 / 2)) 0 1 := by
        rw [relu_of_nonneg hu.le, relu_of_nonpos hl.le, max_eq_right hd, sub_zero]
        have e : u / (u - l) - 1 / 2 = (u + l) / (2 * (u - l)) := by field_simp; ring
        rw [e]
        rcases lt_trichotomy (u + l) 0 with hm | hm | hm
        · have := indexDead_of_nonpos hm.le
          simp only [indexDead] at this
          rw [this, ksign_neg (div_neg_of_neg_of_pos hm (by positivity))]
          simp [kclip]
        · rw [hm, zero_div, ksign_zero]; simp [kclip]
        · have := indexDead_of_pos hm
          simp only [indexDead] at this
          rw [this, ksign_pos (div_pos hm (by positivity))]
          simp [kclip]
      simp only [linearHullRelu, key]

end Hull

/-- The area between ReLU and the line `a z + b` over `[l, u]`. -/
noncomputable def reluGap (a b l u : ℝ) : ℝ := ∫ z in l..u, (max z 0 - (a * z + b))

/-- C85: with the default slope and without finetuning, among all the lines below ReLU on `[l, u]`, the lower line has the smallest
area to ReLU. -/
theorem C85_vslope_smallest_area (eps u l : ℝ) (h : l ≤ u) (a b : ℝ) (hab : ∀ z, l ≤ z → z ≤ u → a * z + b ≤ max z 0) :
    reluGap (linearHullRelu eps .vSlope 1 u l).wl (linearHullRelu eps .vSlope 1 u l).bl l u ≤ reluGap a b l u := by
  have area : ∀ a b : ℝ, reluGap a b l u = (∫ z in l..u, max z 0) - (u - l) * (a * ((u + l) / 2) + b) := by
    intro a b
    unfold reluGap
    rw [intervalIntegral.integral_sub (Continuous.intervalIntegrable (by fun_prop) _ _)
      (Continuous.intervalIntegrable (by fun_prop) _ _)]
    congr 1
    rw [intervalIntegral.integral_add (Continuous.intervalIntegrable (by fun_prop) _ _)
      (Continuous.intervalIntegrable (by fun_prop) _ _), intervalIntegral.integral_const_mul, integral_id,
      intervalIntegral.integral_const, smul_eq_mul]
    ring
  rw [area, area, C85_vslope_middle eps u l h]
  have := hab ((u + l) / 2) (by linarith) (by linarith)
  nlinarith [mul_nonneg (sub_nonneg.2 h) (sub_nonneg.2 this)]

/-- C85 on an example: on `[-1, 2]` the hull is `2/3 (z + 1)` and `z`; the lines `z ↦ z + 3/2` and `z ↦ 0` meet the hypotheses and are
looser. -/
example : (linearHullRelu (1 / 10000000 : ℚ) .vSlope 1 2 (-1)).wu = 2 / 3 ∧ (linearHullRelu (1 / 10000000 : ℚ) .vSlope 1 2 (-1)).bu = 2 / 3 ∧
    (linearHullRelu (1 / 10000000 : ℚ) .vSlope 1 2 (-1)).wl = 1 ∧ (linearHullRelu (1 / 10000000 : ℚ) .vSlope 1 2 (-1)).bl = 0 ∧
    (∀ z : ℚ, -1 ≤ z → z ≤ 2 → max z 0 ≤ 1 * z + 3 / 2 ∧ 0 * z + 0 ≤ max z 0) := by
  refine ⟨by decide +kernel, by decide +kernel, by decide +kernel, by decide +kernel, fun z h1 h2 => ⟨?_, by simp⟩⟩
  rw [max_le_iff]; constructor <;> linarith

/-- C85: inside the sliver `V_SLOPE` and `A_SLOPE` differ, and neither upper line is above ReLU. -/
theorem C85_sliver_refuted : (linearHullRelu (1 / 10 : ℚ) .vSlope 1 (2 / 100) (-1 / 100)).wl = 1 ∧
    (linearHullRelu (1 / 10 : ℚ) .aSlope 1 (2 / 100) (-1 / 100)).wl = 0 ∧
    (linearHullRelu (1 / 10 : ℚ) .vSlope 1 (2 / 100) (-1 / 100)).wu * (2 / 100) +
      (linearHullRelu (1 / 10 : ℚ) .vSlope 1 (2 / 100) (-1 / 100)).bu < 2 / 100 := by
  refine ⟨by decide +kernel, by decide +kernel, by decide +kernel⟩

end Decomon
