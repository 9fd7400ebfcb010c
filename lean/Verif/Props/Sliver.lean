import Verif.Props.Pooling
import Verif.Props.Network
import Verif.Props.Metrics
import Mathlib.Analysis.Complex.ExponentialBounds

/-!
The hypotheses on the sliver (width below `K.epsilon()`) of C08, C14, C30, C63 and C79 cannot be dropped: for each of them, a concrete
input that meets every other hypothesis and on which the returned tensors are not bounds.
-/

namespace Decomon

/-- The constant function zero on a box, with exact bounds. -/
def zeroInput (lo hi : ℚ) : Full ((Fin 1 → ℚ) × (Fin 1 → ℚ)) (Fin 1) (Fin 1) ℚ :=
  ⟨(fun _ => lo, fun _ => hi), fun _ => 0, fun _ _ => 0, fun _ => 0, fun _ => 0, fun _ _ => 0, fun _ => 0, fun _ => 0, fun _ => 0⟩

theorem zeroInput_valid (m : Mode) (lo hi : ℚ) (p : Fin 1 → ℚ) : Valid m false (zeroInput lo hi) p (fun _ => 0) :=
  ⟨fun _ k => by simp [zeroInput], fun _ k => by simp [zeroInput, affEval], by simp⟩

theorem sliver_wu (eps : ℚ) (he : 0 < eps) (s : Slope) (g : ℚ) :
    (linearHullRelu eps s g (eps / 4) (-(eps / 4))).wu = 1 / 4 ∧ (linearHullRelu eps s g (eps / 4) (-(eps / 4))).bu = eps / 16 := by
  have h1 : (0 : ℚ) < eps / 4 := by linarith
  have h2 : -(eps / 4) < 0 := by linarith
  have h3 : max eps (eps / 4 - -(eps / 4)) = eps := max_eq_left (by linarith)
  have e : eps / 4 / eps = 1 / 4 := by field_simp
  simp only [linearHullRelu, indexDead_of_pos h1, indexLinear_of_neg h2, relu_of_nonneg h1.le, relu_of_nonpos h2.le, h3, sub_zero, e]
  constructor <;> ring

/-- The affine upper bound of `max(0, x)` on `[-eps/4, eps/4]` is `x/4 + eps/16`. -/
theorem sliver_maximum (m : Mode) (hm : getAffine m = true) (eps : ℚ) (he : 0 < eps) (g : Fin 1 → ℚ) :
    let r := maximumT boxDomain m false eps g (zeroInput (-(eps / 4)) (eps / 4)) (oneInput (-(eps / 4)) (eps / 4))
    r.wu 0 0 = 1 / 4 ∧ r.bu 0 = eps / 16 := by
  obtain ⟨w, b⟩ := sliver_wu eps he .vSlope (g 0)
  have h4 : -(eps / 4) ≤ eps / 4 := by linarith
  cases m
  · simp [getAffine] at hm
  all_goals
    simp [maximumT, subtractT, addT, minusT, reluT, Full.tighten, zeroInput, oneInput, boxDomain, getUpperBox, getLowerBox, getAffine,
      getIbp, w, b]

/-- The affine lower bound of `min(0, x)` on `[-eps/4, eps/4]` is `x/4 - eps/16`. -/
theorem sliver_minimum (m : Mode) (hm : getAffine m = true) (eps : ℚ) (he : 0 < eps) (g : Fin 1 → ℚ) :
    let r := minimumT boxDomain m false eps g (zeroInput (-(eps / 4)) (eps / 4)) (oneInput (-(eps / 4)) (eps / 4))
    r.wl 0 0 = 1 / 4 ∧ r.bl 0 = -(eps / 16) := by
  obtain ⟨w, b⟩ := sliver_wu eps he .vSlope (g 0)
  have h4 : -(eps / 4) ≤ eps / 4 := by linarith
  cases m
  · simp [getAffine] at hm
  all_goals
    simp [minimumT, maximumT, subtractT, addT, minusT, reluT, Full.tighten, zeroInput, oneInput, boxDomain, getUpperBox, getLowerBox,
      getAffine, getIbp, w, b]

theorem sliver_top_mem (eps : ℚ) (he : 0 < eps) :
    (fun _ : Fin 1 => eps / 4) ∈ Box (fun _ : Fin 1 => -(eps / 4)) (fun _ => eps / 4) := fun _ => ⟨by linarith, le_rfl⟩

theorem sliver_bot_mem (eps : ℚ) (he : 0 < eps) :
    (fun _ : Fin 1 => -(eps / 4)) ∈ Box (fun _ : Fin 1 => -(eps / 4)) (fun _ => eps / 4) := fun _ => ⟨le_rfl, by linarith⟩

/-- C08: `maximum` and `minimum` of zero and the identity on `[-eps/4, eps/4]` are wrong in affine and hybrid mode, whatever the
finetuning. -/
theorem C08_sliver_refuted (m : Mode) (hm : getAffine m = true) (eps : ℚ) (he : 0 < eps) (g : Fin 1 → ℚ) :
    ∃ f0 f1 : Full ((Fin 1 → ℚ) × (Fin 1 → ℚ)) (Fin 1) (Fin 1) ℚ,
      (boxDomain.Sound f0.x (Box (fun _ : Fin 1 => -(eps / 4)) fun _ => eps / 4) ∧
        boxDomain.Sound f1.x (Box (fun _ : Fin 1 => -(eps / 4)) fun _ => eps / 4)) ∧
      (∀ p ∈ Box (fun _ : Fin 1 => -(eps / 4)) (fun _ => eps / 4), Valid m false f0 p (fun _ => 0) ∧ Valid m false f1 p p) ∧
      (∃ p ∈ Box (fun _ : Fin 1 => -(eps / 4)) (fun _ => eps / 4),
        ¬ Valid m false (maximumT boxDomain m false eps g f0 f1) p (fun k => max 0 (p k))) ∧
      (∃ p ∈ Box (fun _ : Fin 1 => -(eps / 4)) (fun _ => eps / 4),
        ¬ Valid m false (minimumT boxDomain m false eps g f0 f1) p (fun k => min 0 (p k))) := by
  refine ⟨zeroInput (-(eps / 4)) (eps / 4), oneInput (-(eps / 4)) (eps / 4), ⟨boxDomain_sound _ _, boxDomain_sound _ _⟩,
    fun p hp => ⟨zeroInput_valid _ _ _ _, oneInput_valid _ _ _ _ hp⟩, ⟨_, sliver_top_mem eps he, fun v => ?_⟩,
    ⟨_, sliver_bot_mem eps he, fun v => ?_⟩⟩
  · have h := (v.aff hm 0).2
    obtain ⟨w, b⟩ := sliver_maximum m hm eps he g
    simp only [affEval, Fin.sum_univ_one, Finset.univ_unique, Fin.default_eq_zero, Finset.sum_singleton, w, b] at h
    rw [max_eq_right (by linarith)] at h
    linarith
  · have h := (v.aff hm 0).1
    obtain ⟨w, b⟩ := sliver_minimum m hm eps he g
    simp only [affEval, Fin.sum_univ_one, Finset.univ_unique, Fin.default_eq_zero, Finset.sum_singleton, w, b] at h
    rw [min_eq_right (by linarith)] at h
    linarith

/-- C14: so are the layers Maximum and Minimum of two inputs. -/
theorem C14_sliver_refuted (m : Mode) (hm : getAffine m = true) (eps : ℚ) (he : 0 < eps) :
    ∃ f0 f1 : Full ((Fin 1 → ℚ) × (Fin 1 → ℚ)) (Fin 1) (Fin 1) ℚ,
      (boxDomain.Sound f0.x (Box (fun _ : Fin 1 => -(eps / 4)) fun _ => eps / 4) ∧
        boxDomain.Sound f1.x (Box (fun _ : Fin 1 => -(eps / 4)) fun _ => eps / 4)) ∧
      (∀ p ∈ Box (fun _ : Fin 1 => -(eps / 4)) (fun _ => eps / 4), Valid m false f0 p (fun _ => 0) ∧ Valid m false f1 p p) ∧
      (∃ p ∈ Box (fun _ : Fin 1 => -(eps / 4)) (fun _ => eps / 4),
        ¬ Valid m false (maximumLayerT boxDomain m eps f0 [f1]) p (fun k => max 0 (p k))) ∧
      (∃ p ∈ Box (fun _ : Fin 1 => -(eps / 4)) (fun _ => eps / 4),
        ¬ Valid m false (minimumLayerT boxDomain m eps f0 [f1]) p (fun k => min 0 (p k))) :=
  C08_sliver_refuted m hm eps he (fun _ => 1)

/-- The two functions `0` and `x` along an axis of length two. -/
def pairInput (lo hi : ℚ) : Full ((Fin 1 → ℚ) × (Fin 1 → ℚ)) (Fin 1) (Fin 2) ℚ :=
  ⟨(fun _ => lo, fun _ => hi), ![0, hi], fun _ => ![0, 1], fun _ => 0, ![0, lo], fun _ => ![0, 1], fun _ => 0, ![0, hi], fun _ => 0⟩

theorem sliver_reindex (lo hi : ℚ) : ((pairInput lo hi).reindex fun _ : Fin 1 => 0) = zeroInput lo hi ∧
    ((pairInput lo hi).reindex fun _ : Fin 1 => 1) = oneInput lo hi := ⟨rfl, rfl⟩

theorem sliver_maxReduce (m : Mode) (hm : getAffine m = true) (eps : ℚ) (f : Full ((Fin 1 → ℚ) × (Fin 1 → ℚ)) (Fin 1) (Fin 2) ℚ) :
    let r := maxReduceT boxDomain m false eps (fun (_ : Fin 1) (i : Fin 2) => i) f
    let r' := maximumT boxDomain m false eps (fun _ => 1) (f.reindex fun _ : Fin 1 => 0) (f.reindex fun _ : Fin 1 => 1)
    r.wu = r'.wu ∧ r.bu = r'.bu := by
  cases m
  · simp [getAffine] at hm
  · exact ⟨rfl, rfl⟩
  · exact ⟨rfl, rfl⟩

/-- C63: `max_` and `min_` along an axis of length two that holds `0` and `x`, on `[-eps/4, eps/4]`. -/
theorem C63_sliver_refuted (m : Mode) (hm : getAffine m = true) (eps : ℚ) (he : 0 < eps) :
    ∃ f : Full ((Fin 1 → ℚ) × (Fin 1 → ℚ)) (Fin 1) (Fin 2) ℚ,
      boxDomain.Sound f.x (Box (fun _ : Fin 1 => -(eps / 4)) fun _ => eps / 4) ∧
      (∀ p ∈ Box (fun _ : Fin 1 => -(eps / 4)) (fun _ => eps / 4), Valid m false f p ![0, p 0]) ∧
      (∃ p ∈ Box (fun _ : Fin 1 => -(eps / 4)) (fun _ => eps / 4),
        ¬ Valid m false (maxReduceT boxDomain m false eps (fun (_ : Fin 1) (i : Fin 2) => i) f) p (fun _ => max 0 (p 0))) ∧
      (∃ p ∈ Box (fun _ : Fin 1 => -(eps / 4)) (fun _ => eps / 4),
        ¬ Valid m false (minReduceT boxDomain m eps (fun (_ : Fin 1) (i : Fin 2) => i) f) p (fun _ => min 0 (p 0))) := by
  refine ⟨pairInput (-(eps / 4)) (eps / 4), boxDomain_sound _ _, fun p hp => ⟨fun _ k => ?_, fun _ k => ?_, by simp⟩,
    ⟨_, sliver_top_mem eps he, fun v => ?_⟩, ⟨_, sliver_bot_mem eps he, fun v => ?_⟩⟩
  · fin_cases k
    · simp [pairInput]
    · simpa [pairInput] using hp 0
  · fin_cases k <;> simp [pairInput, affEval]
  · have h := (v.aff hm 0).2
    obtain ⟨e1, e2⟩ := sliver_maxReduce m hm eps (pairInput (-(eps / 4)) (eps / 4))
    obtain ⟨w, b⟩ := sliver_maximum m hm eps he (fun _ => 1)
    rw [(sliver_reindex _ _).1, (sliver_reindex _ _).2] at e1 e2
    simp only [affEval, Finset.univ_unique, Fin.default_eq_zero, Finset.sum_singleton, e1, e2, w, b] at h
    rw [max_eq_right (by linarith)] at h
    linarith
  · have h := (v.aff hm 0).1
    obtain ⟨e1, e2⟩ := sliver_maxReduce m hm eps (minusT boxDomain m (pairInput (-(eps / 4)) (eps / 4)))
    obtain ⟨w, b⟩ := sliver_minimum m hm eps he (fun _ => 1)
    have e3 : (minReduceT boxDomain m eps (fun (_ : Fin 1) (i : Fin 2) => i) (pairInput (-(eps / 4)) (eps / 4))).wl 0 0 = 1 / 4 := by
      rw [← w]
      change -(maxReduceT boxDomain m false eps (fun (_ : Fin 1) (i : Fin 2) => i) _).wu 0 0 = _
      rw [e1]; rfl
    have e4 : (minReduceT boxDomain m eps (fun (_ : Fin 1) (i : Fin 2) => i) (pairInput (-(eps / 4)) (eps / 4))).bl 0 = -(eps / 16) := by
      rw [← b]
      change -(maxReduceT boxDomain m false eps (fun (_ : Fin 1) (i : Fin 2) => i) _).bu 0 = _
      rw [e2]; rfl
    simp only [affEval, Finset.univ_unique, Fin.default_eq_zero, Finset.sum_singleton, e3, e4] at h
    rw [min_eq_right (by linarith)] at h
    linarith

/-- C30: with `back_bounds=[C]`, `C` the one-by-one matrix `c > 0`, the upper bound is below the output by any amount `M` (method
`crown`, final mode ibp). -/
theorem C30_sliver_refuted (eps M c : ℚ) (he : 0 < eps) (hM : 0 < M) (hc : 0 < c) (s : Slope) (uf : Bool) :
    (sliverNet eps M).Chain ∧ (sliverNet eps M).WF ∧
    ∃ p ∈ Box (fun _ : Fin 1 => -(eps / 4)) (fun _ => eps / 4), ∃ out,
      (boxCrown .ibp eps s uf (fun _ => -(eps / 4)) (fun _ => eps / 4)).modelBack (sliverNet eps M) (fun _ (_ : Fin 1) => c) = .ok out ∧
      out.uc 0 + c * M = ∑ k, (sliverNet eps M).eval p k * c := by
  refine ⟨trivial, by simp [sliverNet, Net.WF, Lay.WF], fun _ => eps / 4, sliver_top_mem eps he, ?_⟩
  obtain ⟨w, b⟩ := sliver_hull eps he s
  have hpos : (0 : ℚ) < c * (8 * M / eps) := by positivity
  have hpos' : (0 : ℚ) < 8 * M / eps * c := by positivity
  have hle : (0:ℚ) ≤ eps / 4 := by linarith
  have hne : eps ≠ 0 := he.ne'
  cases uf
  all_goals
    refine ⟨_, rfl, ?_⟩
    simp [sliverNet, convert2BackwardMode, boxCrown, fuse, mergeWithPrevious, Back.identity, diagLike, Lay.backward, backwardDense,
      backwardRelu, Back.ofDiag, Net.forward, Full.tighten, inputTensorsBox, boxDomain, getUpperBox, getLowerBox,
      getAffine, getIbp, Net.eval, Lay.eval, w, b, max_eq_left hpos.le, min_eq_right hpos.le, max_eq_left hpos'.le, min_eq_right hpos'.le,
      max_eq_left hle, max_eq_left hc.le, min_eq_right hc.le]
    have e1 : max (4⁻¹ * (8 * M / eps * c)) 0 = 4⁻¹ * (8 * M / eps * c) := max_eq_left (by positivity)
    have e2 : min (4⁻¹ * (8 * M / eps * c)) 0 = 0 := min_eq_right (by positivity)
    rw [e1, e2]
    field_simp
    ring

/-- One class, output `x` on `[0, d]`. -/
def oneClass (d : ℝ) : Full ((Fin 1 → ℝ) × (Fin 1 → ℝ)) (Fin 1) (Unit × Fin 1) ℝ :=
  ⟨(fun _ => 0, fun _ => d), fun _ => d, fun _ _ => 1, fun _ => 0, fun _ => 0, fun _ _ => 1, fun _ => 0, fun _ => 0, fun _ => 0⟩

/-- The number behind `C79_sliver_refuted`: tangent of the logarithm at the middle `m` of the interval found for the sum. -/
theorem cce_number {d U L : ℝ} (hd : 0 < d) (hd1 : d ≤ 1 / 4) (hU : U = 1 + (Real.exp d - 1) / 4) (hL1 : 1 - d ≤ L) (hL2 : L ≤ 1) :
    - d + (1 / ((U + L) / 2) * U + (Real.log ((U + L) / 2) - 1)) < 0 := by
  have ex1 : Real.exp d ≤ 1 + 4 / 3 * d := by
    refine (Real.exp_bound_div_one_sub_of_interval hd.le (by linarith)).trans ?_
    rw [div_le_iff₀ (by linarith)]
    nlinarith
  have ex2 : 1 + d ≤ Real.exp d := by have := Real.add_one_le_exp d; linarith
  obtain ⟨M, hM⟩ : ∃ M, M = (U + L) / 2 := ⟨_, rfl⟩
  rw [← hM]
  have m0 : 0 < M := by linarith
  have hl := Real.log_le_sub_one_of_pos m0
  have : 1 / M * U < d + 2 - M := by
    rw [div_mul_eq_mul_div, one_mul, div_lt_iff₀ m0]
    have h1 : - (d / 2) ≤ M - 1 := by linarith
    have h2 : M - 1 ≤ d / 2 := by linarith
    nlinarith [mul_nonneg (by linarith : (0:ℝ) ≤ M - 1 + d / 2) (by linarith : (0:ℝ) ≤ d / 2 - (M - 1))]
  linarith

/-- C79: in affine and hybrid mode the affine upper bound of the cross entropy of one class is below its value, `0`, when the
interval of the output is narrower than epsilon. -/
theorem C79_sliver_refuted (m : Mode) (hm : getAffine m = true) (eps : ℝ) (he : 0 < eps) (he1 : eps ≤ 1 / 2) :
    ∃ f : Full ((Fin 1 → ℝ) × (Fin 1 → ℝ)) (Fin 1) (Unit × Fin 1) ℝ,
      boxDomain.Sound f.x (Box (fun _ : Fin 1 => (0:ℝ)) fun _ => eps / 4) ∧
      (∀ p ∈ Box (fun _ : Fin 1 => (0:ℝ)) (fun _ => eps / 4), Valid m false f p (fun _ => p 0)) ∧
      ∃ p ∈ Box (fun _ : Fin 1 => (0:ℝ)) (fun _ => eps / 4), ∃ k,
        affEval (fun i => (catCrossEntropy boxDomain boxDomain m eps f).wu i k) ((catCrossEntropy boxDomain boxDomain m eps f).bu k) p <
          - p 0 + Real.log (∑ _n : Fin 1, Real.exp (p 0)) := by
  refine ⟨oneClass (eps / 4), boxDomain_sound _ _, fun p hp => ⟨fun _ k => ?_, fun _ k => ?_, by simp⟩, fun _ => eps / 4,
    fun _ => ⟨by linarith, le_rfl⟩, ((), 0), ?_⟩
  · simpa [oneClass] using hp 0
  · simp [oneClass, affEval]
  · have hmx : max (eps / 4) eps = eps := max_eq_right (by linarith)
    have h4 : (0:ℝ) ≤ eps / 4 := by linarith
    have e0 : Real.exp 0 = 1 := Real.exp_zero
    have ep : 0 < Real.exp (eps / 4) - 1 := by have := Real.add_one_le_exp (eps / 4); linarith
    have q1 : max ((Real.exp (eps / 4) - 1) / eps) 0 = (Real.exp (eps / 4) - 1) / eps := max_eq_left (by positivity)
    have q2 : min (Real.exp (eps / 4 / 2)) 0 = 0 := min_eq_right (Real.exp_pos _).le
    have q3 : (Real.exp (eps / 4) - 1) / eps * (eps / 4) + 1 = 1 + (Real.exp (eps / 4) - 1) / 4 := by field_simp; ring
    have q4 : min (Real.exp (eps / 4)) (1 + (Real.exp (eps / 4) - 1) / 4) = 1 + (Real.exp (eps / 4) - 1) / 4 := min_eq_right (by linarith)
    have l1 : Real.exp (eps / 4 / 2) * (-(eps / 4 / 2) + 1) ≤ 1 := by
      have h := mul_le_mul_of_nonneg_left (Real.add_one_le_exp (-(eps / 4 / 2))) (Real.exp_pos (eps / 4 / 2)).le
      rwa [← Real.exp_add, add_neg_cancel, Real.exp_zero] at h
    have l2 : 1 - eps / 4 ≤ Real.exp (eps / 4 / 2) * (-(eps / 4 / 2) + 1) := by
      have h := mul_le_mul_of_nonneg_right (Real.add_one_le_exp (eps / 4 / 2)) (by linarith : 0 ≤ -(eps / 4 / 2) + 1)
      nlinarith
    have q5 : max 1 (Real.exp (eps / 4 / 2) * (-(eps / 4 / 2) + 1)) = 1 := max_eq_left l1
    simp only [Fin.sum_univ_one, Finset.univ_unique, Finset.sum_singleton, Real.log_exp, neg_add_cancel]
    have key := fun L h1 h2 => cce_number (d := eps / 4) (L := L) (by linarith) (by linarith) rfl h1 h2
    cases m
    · simp [getAffine] at hm
    · have k := key (max eps (Real.exp (eps / 4 / 2) * (-(eps / 4 / 2) + 1))) (le_max_of_le_right l2) (max_le (by linarith) l1)
      simp [catCrossEntropy, expT, sumT, logT, addT, minusT, Full.reindex, Full.tighten, oneClass, boxDomain, getUpperBox, getLowerBox,
        getAffine, getIbp, affEval, hmx, q1, q2, q3]
      refine lt_of_eq_of_lt ?_ k
      field_simp
      ring
    · have k := key 1 (by linarith) le_rfl
      simp [catCrossEntropy, expT, sumT, logT, addT, minusT, Full.reindex, Full.tighten, oneClass, boxDomain, getUpperBox, getLowerBox,
        getAffine, getIbp, affEval, hmx, q1, q2, q3, q4, q5]
      refine lt_of_eq_of_lt ?_ k
      field_simp
      ring

end Decomon
