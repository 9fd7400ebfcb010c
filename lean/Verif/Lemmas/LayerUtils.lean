import Verif.Model.LayerUtils
import Verif.Lemmas.Utils
import Mathlib.Analysis.Convex.SpecificFunctions.Basic

/-! Helper lemmas for products, exp, log. -/

namespace Decomon

section
variable {X ι κ α : Type*} [Fintype ι] [Field α] [LinearOrder α] [IsStrictOrderedRing α]

theorem aff_compose_upper {a c y z b : α} {w : ι → α} {p : ι → α} (ha : 0 ≤ a) (hy : y ≤ affEval w b p)
    (hz : z ≤ a * y + c) : z ≤ affEval (fun i => a * w i) (a * b + c) p := by
  rw [affEval_add_const, affEval_smul]
  have := mul_le_mul_of_nonneg_left hy ha
  linarith

theorem aff_compose_lower {a c y z b : α} {w : ι → α} {p : ι → α} (ha : 0 ≤ a) (hy : affEval w b p ≤ y)
    (hz : a * y + c ≤ z) : affEval (fun i => a * w i) (a * b + c) p ≤ z := by
  rw [affEval_add_const, affEval_smul]
  have := mul_le_mul_of_nonneg_left hy ha
  linarith

/-- `c·y` from an upper and a lower form of `y`, selected by the sign of `c`. -/
theorem posneg_form_upper {c y fu fl : α} (h1 : fl ≤ y) (h2 : y ≤ fu) : c * y ≤ max c 0 * fu + min c 0 * fl :=
  mul_le_posneg h1 h2

theorem mul_le_max_ends {c y l u : α} (h1 : l ≤ y) (h2 : y ≤ u) : c * y ≤ max (c * u) (c * l) := by
  rcases le_total 0 c with h | h
  · exact le_max_of_le_left (mul_le_mul_of_nonneg_left h2 h)
  · exact le_max_of_le_right (mul_le_mul_of_nonpos_left h1 h)

theorem min_ends_le_mul {c y l u : α} (h1 : l ≤ y) (h2 : y ≤ u) : min (c * l) (c * u) ≤ c * y := by
  rcases le_total 0 c with h | h
  · exact min_le_of_left_le (mul_le_mul_of_nonneg_left h1 h)
  · exact min_le_of_right_le (mul_le_mul_of_nonpos_left h2 h)

theorem affEval_comb4 (c1 c2 c3 c4 d : α) (w1 w2 w3 w4 : ι → α) (b1 b2 b3 b4 : α) (p : ι → α) :
    affEval (fun i => c1 * w1 i + c2 * w2 i + c3 * w3 i + c4 * w4 i) (c1 * b1 + c2 * b2 + c3 * b3 + c4 * b4 - d) p =
      c1 * affEval w1 b1 p + c2 * affEval w2 b2 p + c3 * affEval w3 b3 p + c4 * affEval w4 b4 p - d := by
  simp only [affEval, add_mul, Finset.sum_add_distrib, mul_add, Finset.mul_sum, mul_assoc]
  ring

theorem valid_multiply (D : PertDomain X ι α) (m : Mode) (f0 f1 : Full X ι κ α) (S : Set (ι → α))
    (h0 : D.Sound f0.x S) (h1 : D.Sound f1.x S) (p : ι → α) (hp : p ∈ S) (y0 y1 : κ → α)
    (v0 : Valid m false f0 p y0) (v1 : Valid m false f1 p y1) :
    Valid m false (multiplyT D m f0 f1) p (fun k => y0 k * y1 k) := by
  have c0 := tighten_const D m false f0 S h0 p hp y0 v0
  have c1 := tighten_const D m false f1 S h1 p hp y1 v1
  refine ⟨fun hi k => ?_, fun ha k => ?_, by simp⟩
  · simp only [multiplyT, hi, if_true]
    set u0 := (f0.tighten D m true true).uc k
    set l0 := (f0.tighten D m true true).lc k
    set u1 := (f1.tighten D m true true).uc k
    set l1 := (f1.tighten D m true true).lc k
    obtain ⟨a1, a2⟩ := c0 k
    obtain ⟨b1, b2⟩ := c1 k
    constructor
    · have e1 : min (l0 * l1) (l0 * u1) ≤ l0 * y1 k := min_ends_le_mul b1 b2
      have e2 : min (l0 * l1) (u0 * l1) ≤ l1 * y0 k := by
        have := min_ends_le_mul (c := l1) a1 a2
        rwa [mul_comm l1 l0, mul_comm l1 u0] at this
      nlinarith [mul_nonneg (sub_nonneg.mpr a1) (sub_nonneg.mpr b1)]
    · apply le_min
      · have e1 : u0 * y1 k ≤ max (u0 * u1) (u0 * l1) := mul_le_max_ends b1 b2
        have e2 : l1 * y0 k ≤ max (u0 * l1) (l0 * l1) := by
          have := mul_le_max_ends (c := l1) a1 a2
          rwa [mul_comm l1 l0, mul_comm l1 u0] at this
        nlinarith [mul_nonneg (sub_nonneg.mpr a2) (sub_nonneg.mpr b1)]
      · have e1 : u1 * y0 k ≤ max (u1 * u0) (u1 * l0) := mul_le_max_ends a1 a2
        have e2 : l0 * y1 k ≤ max (u1 * l0) (l1 * l0) := by
          have := mul_le_max_ends (c := l0) b1 b2
          rwa [mul_comm l0 l1, mul_comm l0 u1] at this
        nlinarith [mul_nonneg (sub_nonneg.mpr b2) (sub_nonneg.mpr a1)]
  · simp only [multiplyT, ha, if_true, tighten_wu, tighten_wl, tighten_bu, tighten_bl, affEval_comb4]
    set u0 := (f0.tighten D m true true).uc k
    set l0 := (f0.tighten D m true true).lc k
    set u1 := (f1.tighten D m true true).uc k
    set l1 := (f1.tighten D m true true).lc k
    obtain ⟨a1, a2⟩ := c0 k
    obtain ⟨b1, b2⟩ := c1 k
    obtain ⟨p1, p2⟩ := v0.aff ha k
    obtain ⟨q1, q2⟩ := v1.aff ha k
    constructor
    · have e1 := posneg_le_mul (w := l0) q1 q2
      have e2 := posneg_le_mul (w := l1) p1 p2
      nlinarith [mul_nonneg (sub_nonneg.mpr a1) (sub_nonneg.mpr b1)]
    · have e1 := mul_le_posneg (w := u0) q1 q2
      have e2 := mul_le_posneg (w := l1) p1 p2
      nlinarith [mul_nonneg (sub_nonneg.mpr a2) (sub_nonneg.mpr b1)]

theorem valid_sum {ν σ : Type*} [Fintype ν] (D : PertDomain X ι α) (m : Mode) (e : κ × ν → σ) (f : Full X ι σ α)
    (S : Set (ι → α)) (h : D.Sound f.x S) (p : ι → α) (hp : p ∈ S) (y : σ → α) (v : Valid m false f p y) :
    Valid m false (sumT D m e f) p (fun k => ∑ n, y (e (k, n))) := by
  obtain ⟨a, -⟩ := C04_tighten_valid D m false false true f S h p hp y v
  refine ⟨fun hi k => ?_, fun ha k => ?_, by simp⟩
  · simp only [sumT, hi, if_true]
    exact ⟨Finset.sum_le_sum fun n _ => (a.const hi _).1, Finset.sum_le_sum fun n _ => (a.const hi _).2⟩
  · simp only [sumT, ha, if_true, tighten_wu, tighten_wl, tighten_bu, tighten_bl]
    rw [affEval_sum Finset.univ (fun n i => f.wl i (e (k, n))) (fun n => f.bl (e (k, n))),
      affEval_sum Finset.univ (fun n i => f.wu i (e (k, n))) (fun n => f.bu (e (k, n)))]
    exact ⟨Finset.sum_le_sum fun n _ => (v.aff ha _).1, Finset.sum_le_sum fun n _ => (v.aff ha _).2⟩

end

section RealHulls

/-- Secant of a convex function above it. -/
theorem secant_above {f : ℝ → ℝ} {s : Set ℝ} (hf : ConvexOn ℝ s f) {l u z : ℝ} (hl : l ∈ s) (hu : u ∈ s) (h1 : l ≤ z)
    (h2 : z ≤ u) (hlu : l < u) : f z ≤ f l + (f u - f l) / (u - l) * (z - l) := by
  have hd : 0 < u - l := sub_pos.mpr hlu
  have ha : 0 ≤ (u - z) / (u - l) := div_nonneg (by linarith) hd.le
  have hb : 0 ≤ (z - l) / (u - l) := div_nonneg (by linarith) hd.le
  have h := hf.2 hl hu ha hb (by rw [← add_div, div_eq_one_iff_eq hd.ne']; ring)
  have e : ((u - z) / (u - l)) • l + ((z - l) / (u - l)) • u = z := by
    simp only [smul_eq_mul]; field_simp; ring
  rw [e] at h
  refine h.trans (le_of_eq ?_)
  simp only [smul_eq_mul]; field_simp; ring

/-- Secant of a concave function below it. -/
theorem secant_below {f : ℝ → ℝ} {s : Set ℝ} (hf : ConcaveOn ℝ s f) {l u z : ℝ} (hl : l ∈ s) (hu : u ∈ s) (h1 : l ≤ z)
    (h2 : z ≤ u) (hlu : l < u) : f l + (f u - f l) / (u - l) * (z - l) ≤ f z := by
  have := secant_above hf.neg hl hu h1 h2 hlu
  simp only [Pi.neg_apply] at this
  have e : (-f u - -f l) / (u - l) = - ((f u - f l) / (u - l)) := by ring
  rw [e] at this
  linarith

theorem exp_tangent (y z : ℝ) : Real.exp y * z + Real.exp y * (- y + 1) ≤ Real.exp z := by
  have h := Real.add_one_le_exp (z - y)
  have e : Real.exp z = Real.exp y * Real.exp (z - y) := by rw [← Real.exp_add]; congr 1; ring
  rw [e]
  have := mul_le_mul_of_nonneg_left h (Real.exp_pos y).le
  linarith

theorem log_tangent {y z : ℝ} (hy : 0 < y) (hz : 0 < z) : Real.log z ≤ 1 / y * z + (Real.log y - 1) := by
  have h := Real.log_le_sub_one_of_pos (div_pos hz hy)
  rw [Real.log_div hz.ne' hy.ne'] at h
  have : 1 / y * z = z / y := by ring
  linarith

theorem exp_secant {eps l u z : ℝ} (h1 : l ≤ z) (h2 : z ≤ u) (hs : ¬ (l < u ∧ u - l < eps)) :
    Real.exp z ≤ (Real.exp u - Real.exp l) / max (u - l) eps * z +
      (Real.exp l - (Real.exp u - Real.exp l) / max (u - l) eps * l) := by
  rcases (h1.trans h2).lt_or_eq with h | h
  · have hd : eps ≤ u - l := by by_contra hc; exact hs ⟨h, not_le.mp hc⟩
    rw [max_eq_left hd]
    have := secant_above convexOn_exp (Set.mem_univ l) (Set.mem_univ u) h1 h2 h
    linarith
  · have : z = l := le_antisymm (h ▸ h2) h1
    subst this; subst h
    simp

theorem log_secant {eps l u z : ℝ} (hl : 0 < l) (h1 : l ≤ z) (h2 : z ≤ u) :
    (Real.log u - Real.log l) / max (u - l) eps * z +
      (Real.log l - (Real.log u - Real.log l) / max (u - l) eps * l) ≤ Real.log z := by
  rcases (h1.trans h2).lt_or_eq with h | h
  · have hd : 0 < u - l := sub_pos.mpr h
    have := secant_below strictConcaveOn_log_Ioi.concaveOn (Set.mem_Ioi.mpr hl) (Set.mem_Ioi.mpr (hl.trans h)) h1 h2 h
    have hn : 0 ≤ Real.log u - Real.log l := sub_nonneg.mpr (Real.log_le_log hl h.le)
    have h3 : (Real.log u - Real.log l) / max (u - l) eps ≤ (Real.log u - Real.log l) / (u - l) :=
      div_le_div_of_nonneg_left hn hd (le_max_left _ _)
    have := mul_le_mul_of_nonneg_right h3 (sub_nonneg.mpr h1)
    linarith
  · have : z = l := le_antisymm (h ▸ h2) h1
    subst this; subst h
    simp

end RealHulls

end Decomon
