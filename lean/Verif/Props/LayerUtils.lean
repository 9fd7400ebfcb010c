import Verif.Lemmas.LayerUtils
import Verif.Props.Utils

/-! Properties C09, C21, C23, C24, C59 (sum), C60 (square). -/

namespace Decomon

section
variable {X ι κ α : Type*} [Fintype ι] [Field α] [LinearOrder α] [IsStrictOrderedRing α]

/-- C09: the product of two valid inputs has valid bounds, whatever the signs. -/
theorem C09_multiply_valid (D : PertDomain X ι α) (m : Mode) (f0 f1 : Full X ι κ α) (S : Set (ι → α))
    (h0 : D.Sound f0.x S) (h1 : D.Sound f1.x S) (p : ι → α) (hp : p ∈ S) (y0 y1 : κ → α)
    (v0 : Valid m false f0 p y0) (v1 : Valid m false f1 p y1) :
    Valid m false (multiplyT D m f0 f1) p (fun k => y0 k * y1 k) :=
  valid_multiply D m f0 f1 S h0 h1 p hp y0 y1 v0 v1

/-- C09: on non-negative intervals the ibp bounds are the exact products of the ends. -/
theorem C09_multiply_ibp_exact_nonneg (D : PertDomain X ι α) (f0 f1 : Full X ι κ α) (k : κ)
    (a0 : 0 ≤ f0.lc k) (a1 : f0.lc k ≤ f0.uc k) (b0 : 0 ≤ f1.lc k) (b1 : f1.lc k ≤ f1.uc k) :
    (multiplyT D .ibp f0 f1).lc k = f0.lc k * f1.lc k ∧ (multiplyT D .ibp f0 f1).uc k = f0.uc k * f1.uc k := by
  have hu0 := a0.trans a1
  have hu1 := b0.trans b1
  simp only [multiplyT, Full.tighten, getIbp, if_true]
  simp only [beq_iff_eq, reduceCtorEq, Bool.and_false, Bool.or_false, Bool.false_eq_true, if_false,
    show (Mode.ibp == Mode.affine) = false from rfl, show (Mode.ibp == Mode.hybrid) = false from rfl]
  constructor
  · rw [min_eq_left (mul_le_mul_of_nonneg_left b1 a0), min_eq_left (mul_le_mul_of_nonneg_right a1 b0)]; ring
  · rw [max_eq_left (mul_le_mul_of_nonneg_left b1 hu0), max_eq_left (mul_le_mul_of_nonneg_right a1 b0),
      max_eq_left (mul_le_mul_of_nonneg_left a1 hu1), mul_comm (f1.uc k) (f0.lc k), mul_comm (f1.lc k) (f0.lc k),
      max_eq_left (mul_le_mul_of_nonneg_left b1 a0), mul_comm (f1.uc k) (f0.uc k)]
    simp

/-- C60: the square (`pow`) of a valid input has valid bounds. -/
theorem C60_pow_valid (D : PertDomain X ι α) (m : Mode) (f : Full X ι κ α) (S : Set (ι → α)) (h : D.Sound f.x S)
    (p : ι → α) (hp : p ∈ S) (y : κ → α) (v : Valid m false f p y) :
    Valid m false (powT D m f) p (fun k => y k ^ 2) := by
  simp only [pow_two]
  exact valid_multiply D m f f S h h p hp y y v v

/-- C59: the sum over an axis has valid bounds. -/
theorem C59_sum_valid {ν σ : Type*} [Fintype ν] (D : PertDomain X ι α) (m : Mode) (e : κ × ν → σ) (f : Full X ι σ α)
    (S : Set (ι → α)) (h : D.Sound f.x S) (p : ι → α) (hp : p ∈ S) (y : σ → α) (v : Valid m false f p y) :
    Valid m false (sumT D m e f) p (fun k => ∑ n, y (e (k, n))) :=
  valid_sum D m e f S h p hp y v

/-- C23: `abs` returns bounds of `y` itself. Hence, of the full claim (bounds of `|y|`), what holds is the case of a
non-negative input, outside the sliver of the two inner ReLUs.  The general claim is refuted below. -/
theorem C23_abs_nonneg_partial (D : PertDomain X ι α) (m : Mode) (eps : α) (he : 0 < eps) (f : Full X ι κ α)
    (S : Set (ι → α)) (h : D.Sound f.x S) (hs : SliverFree D m eps f) (hs' : SliverFree D m eps (minusT D m f))
    (p : ι → α) (hp : p ∈ S) (y : κ → α) (v : Valid m false f p y) :
    Valid m false (absT D m eps f) p y ∧
      ((∀ k, 0 ≤ y k) → Valid m false (absT D m eps f) p (fun k => |y k|)) := by
  have hg : ∀ _k : κ, (0 : α) ≤ 1 ∧ (1 : α) ≤ 1 := fun _ => ⟨zero_le_one, le_rfl⟩
  have a := valid_relu D m false eps he .vSlope (fun _ => 1) hg f S h hs p hp y v
  have hx : D.Sound (minusT D m f).x S := by simpa [minusT] using h
  have b := valid_relu D m false eps he .vSlope (fun _ => 1) hg (minusT D m f) S hx hs' p hp _
    (valid_minus D m false f p y v)
  have c := valid_add D m false (reluT D m false eps .vSlope (fun _ => 1) f)
    (minusT D m (reluT D m false eps .vSlope (fun _ => 1) (minusT D m f))) S (by simpa [reluT] using h)
    (by simpa [reluT, minusT] using h) p hp _ _ a (valid_minus D m false _ p _ b)
  have e : (fun k => relu (y k) + - relu (- y k)) = y := by
    funext k; unfold relu
    rcases le_total 0 (y k) with h | h <;> simp [h]
  rw [e] at c
  refine ⟨c, fun hy => ?_⟩
  have : (fun k => |y k|) = y := funext fun k => abs_of_nonneg (hy k)
  rw [this]; exact c

/-- C24: the constant bounds of `frac_pos` are valid for `1/y` when `l_c > 0` (ibp mode, and the constant part of hybrid
mode).  Missing with respect to the full claim: the affine bounds, refuted below. -/
theorem C24_frac_pos_const_partial (D : PertDomain X ι α) (m : Mode) (hm : getIbp m = true) (eps : α) (f : Full X ι κ α)
    (S : Set (ι → α)) (h : D.Sound f.x S) (p : ι → α) (hp : p ∈ S) (y : κ → α) (v : Valid m false f p y) (k : κ)
    (hl : 0 < f.lc k) :
    (fracPosT D m eps f).lc k ≤ 1 / y k ∧ 1 / y k ≤ (fracPosT D m eps f).uc k := by
  obtain ⟨c1, c2⟩ := tighten_const D m false f S h p hp y v k
  have c0 := (C04_tighten_never_looser D m hm true true f k).1
  have hl' : 0 < (f.tighten D m true true).lc k := lt_of_lt_of_le hl c0
  simp only [fracPosT]
  exact ⟨one_div_le_one_div_of_le (hl'.trans_le c1) c2, one_div_le_one_div_of_le hl' c1⟩

end

/-- Non-vacuity of C09: `x · (-x)` on `[-1,2]`, hybrid mode; at `x = 1` the value is `-1` and the bounds found by the model
are `[-7, 5]`. -/
example : (multiplyT boxDomain .hybrid (oneInput (-1) 2) (minusT boxDomain .hybrid (oneInput (-1) 2))).lc 0 = -7 ∧
    (multiplyT boxDomain .hybrid (oneInput (-1) 2) (minusT boxDomain .hybrid (oneInput (-1) 2))).uc 0 = 5 := by
  simp [multiplyT, minusT, oneInput, Full.tighten, boxDomain, getUpperBox, getLowerBox, getIbp]
  norm_num

/-- C23: the claim "bounds of `|y|`" is false: for `y = x` on `[-2,-1]`, at `x = -2`, ibp mode, the upper bound returned is
`-1`. -/
theorem C23_abs_refuted :
    ∃ p ∈ Box (fun _ : Fin 1 => (-2 : ℚ)) (fun _ => -1), Valid .ibp false (oneInput (-2) (-1)) p p ∧
      ¬ Valid .ibp false (absT boxDomain .ibp (1 / 10000000) (oneInput (-2) (-1))) p (fun k => |p k|) := by
  have hp : (fun _ : Fin 1 => (-2 : ℚ)) ∈ Box (fun _ : Fin 1 => (-2 : ℚ)) (fun _ => -1) := fun i => by norm_num
  refine ⟨_, hp, oneInput_valid _ _ _ _ hp, fun v => ?_⟩
  have := (v.const rfl 0).2
  simp [absT, addT, minusT, reluT, Full.tighten, oneInput, getIbp, relu] at this
  norm_num at this

/-- C24: the affine bounds of `frac_pos` are wrong: `y = x` on `[1,2]`, at `x = 1` the affine upper bound is `1/2 < 1`. -/
theorem C24_frac_pos_affine_refuted (m : Mode) (hm : getAffine m = true) :
    ∃ p ∈ Box (fun _ : Fin 1 => (1 : ℚ)) (fun _ => 2), Valid m false (oneInput 1 2) p p ∧ 0 < (oneInput 1 2).lc 0 ∧
      affEval (fun i => (fracPosT boxDomain m (1 / 10000000) (oneInput 1 2)).wu i 0)
        ((fracPosT boxDomain m (1 / 10000000) (oneInput 1 2)).bu 0) p < 1 / p 0 := by
  have hp : (fun _ : Fin 1 => (1 : ℚ)) ∈ Box (fun _ : Fin 1 => (1 : ℚ)) (fun _ => 2) := fun i => by norm_num
  refine ⟨_, hp, oneInput_valid _ _ _ _ hp, by norm_num [oneInput], ?_⟩
  cases m
  · simp [getAffine] at hm
  · simp [fracPosT, affEval, Full.tighten, oneInput, boxDomain, getUpperBox, getLowerBox, getAffine]; norm_num
  · simp [fracPosT, affEval, Full.tighten, oneInput, boxDomain, getUpperBox, getLowerBox, getAffine]; norm_num

/-- C09 and C60 for `x` and `-x` with `x ∈ [-1, 2]`, in every mode. -/
example (m : Mode) (p : Fin 1 → ℚ) (hp : p ∈ Box (fun _ => -1) fun _ => 2) :
    Valid m false (multiplyT boxDomain m (oneInput (-1) 2) (minusT boxDomain m (oneInput (-1) 2))) p (fun k => p k * -p k) ∧
    Valid m false (powT boxDomain m (oneInput (-1) 2)) p fun k => p k ^ 2 :=
  have v := oneInput_valid m _ _ p hp
  ⟨C09_multiply_valid boxDomain m _ (minusT boxDomain m (oneInput (-1) 2)) _ (oneInput_sound (-1) 2) (oneInput_sound (-1) 2) p hp p _ v
    (C07_minus_valid boxDomain m false _ p p v), C60_pow_valid boxDomain m _ _ (oneInput_sound (-1) 2) p hp p v⟩

/-- `[1, 2] * [3, 5] = [3, 10]`. -/
example : (multiplyT boxDomain .ibp (oneInput 1 2) (oneInput 3 5)).lc 0 = 1 * 3 ∧ (multiplyT boxDomain .ibp (oneInput 1 2) (oneInput 3 5)).uc 0 = 2 * 5 :=
  C09_multiply_ibp_exact_nonneg boxDomain (oneInput 1 2) (oneInput 3 5) 0 (by decide +kernel) (by decide +kernel) (by decide +kernel) (by decide +kernel)

/-- C59: the sum of three copies of `x`. -/
example (m : Mode) (p : Fin 1 → ℚ) (hp : p ∈ Box (fun _ => -1) fun _ => 2) :
    Valid m false (sumT boxDomain m (fun _ : Fin 1 × Fin 3 => (0 : Fin 1)) (oneInput (-1) 2)) p fun _ => ∑ _n : Fin 3, p 0 :=
  C59_sum_valid boxDomain m _ _ _ (oneInput_sound (-1) 2) p hp p (oneInput_valid m _ _ p hp)

/-- C23: `|x|` for `x ∈ [1, 2]`, in every mode. -/
example (m : Mode) (p : Fin 1 → ℚ) (hp : p ∈ Box (fun _ => 1) fun _ => 2) :
    Valid m false (absT boxDomain m (1 / 10000000) (oneInput 1 2)) p fun k => |p k| :=
  (C23_abs_nonneg_partial boxDomain m _ (by norm_num) _ _ (oneInput_sound 1 2) (by unfold SliverFree; cases m <;> decide +kernel)
    (by unfold SliverFree; cases m <;> decide +kernel) p hp p (oneInput_valid m _ _ p hp)).2 fun k => by linarith [(hp k).1]

/-- C24: the constant bounds of `1 / x` for `x ∈ [1, 2]`. -/
example (p : Fin 1 → ℚ) (hp : p ∈ Box (fun _ => 1) fun _ => 2) : 1 / p 0 ≤ (fracPosT boxDomain .hybrid (1 / 10000000) (oneInput 1 2)).uc 0 :=
  (C24_frac_pos_const_partial boxDomain .hybrid rfl _ _ _ (oneInput_sound 1 2) p hp p (oneInput_valid .hybrid _ _ p hp) 0 (by decide +kernel)).2

/-! ### C21 -/

section
variable {X ι κ : Type*} [Fintype ι]

/-- C21: `log` keeps the invariant when the lower bound used by the code is positive (at least `eps` in affine mode, where
the code clamps it). -/
theorem C21_log_valid (D : PertDomain X ι ℝ) (m : Mode) (eps : ℝ) (he : 0 < eps) (f : Full X ι κ ℝ)
    (S : Set (ι → ℝ)) (h : D.Sound f.x S) (p : ι → ℝ) (hp : p ∈ S) (y : κ → ℝ) (v : Valid m false f p y)
    (hpos : ∀ k, 0 < (f.tighten D m true true).lc k)
    (haff : m = .affine → ∀ k, eps ≤ (f.tighten D m true true).lc k) :
    Valid m false (logT D m eps f) p (fun k => Real.log (y k)) := by
  have hc := tighten_const D m false f S h p hp y v
  have hl : ∀ k, (if m = .affine then max eps ((f.tighten D m true true).lc k) else (f.tighten D m true true).lc k) =
      (f.tighten D m true true).lc k := by
    intro k; split_ifs with hm
    · exact max_eq_right (haff hm k)
    · rfl
  refine ⟨fun hi k => ?_, fun ha k => ?_, by simp⟩
  · simp only [logT, hl]
    exact ⟨Real.log_le_log (hpos k) (hc k).1, Real.log_le_log ((hpos k).trans_le (hc k).1) (hc k).2⟩
  · simp only [logT, hl, ha, if_true, tighten_wu, tighten_wl, tighten_bu, tighten_bl]
    obtain ⟨c1, c2⟩ := hc k
    have hl0 := hpos k
    set l := (f.tighten D m true true).lc k
    set u := (f.tighten D m true true).uc k
    have hu0 : 0 < u := hl0.trans_le (c1.trans c2)
    constructor
    · apply aff_compose_lower _ (v.aff ha k).1 (log_secant hl0 c1 c2)
      apply div_nonneg (sub_nonneg.mpr (Real.log_le_log hl0 (c1.trans c2)))
      exact le_trans he.le (le_max_right _ _)
    · apply aff_compose_upper _ (v.aff ha k).2 (log_tangent (by positivity) (hl0.trans_le c1))
      positivity

/-- C21: `exp` keeps the invariant outside the sliver `0 < u - l < eps`.  Missing with respect to the full claim: that
sliver, in affine and hybrid mode (upper side), refuted below. -/
theorem C21_exp_valid_partial (D : PertDomain X ι ℝ) (m : Mode) (eps : ℝ) (he : 0 < eps) (f : Full X ι κ ℝ)
    (S : Set (ι → ℝ)) (h : D.Sound f.x S) (p : ι → ℝ) (hp : p ∈ S) (y : κ → ℝ) (v : Valid m false f p y)
    (hs : getAffine m = true → ∀ k, ¬ ((f.tighten D m true true).lc k < (f.tighten D m true true).uc k ∧
      (f.tighten D m true true).uc k - (f.tighten D m true true).lc k < eps)) :
    Valid m false (expT D m eps f) p (fun k => Real.exp (y k)) := by
  have hc := tighten_const D m false f S h p hp y v
  refine ⟨fun hi k => ?_, fun ha k => ?_, by simp⟩
  · simp only [expT]
    exact ⟨Real.exp_le_exp.mpr (hc k).1, Real.exp_le_exp.mpr (hc k).2⟩
  · simp only [expT, ha, if_true, tighten_wu, tighten_wl, tighten_bu, tighten_bl]
    obtain ⟨c1, c2⟩ := hc k
    constructor
    · exact aff_compose_lower (Real.exp_pos _).le (v.aff ha k).1 (exp_tangent _ _)
    · apply aff_compose_upper _ (v.aff ha k).2 (exp_secant c1 c2 (hs ha k))
      apply div_nonneg (sub_nonneg.mpr (Real.exp_le_exp.mpr (c1.trans c2)))
      exact le_trans he.le (le_max_right _ _)

end

/-- The identity on `[lo,hi]`, over the reals. -/
def oneInputR (lo hi : ℝ) : Full ((Fin 1 → ℝ) × (Fin 1 → ℝ)) (Fin 1) (Fin 1) ℝ :=
  ⟨(fun _ => lo, fun _ => hi), fun _ => hi, fun _ _ => 1, fun _ => 0, fun _ => lo, fun _ _ => 1, fun _ => 0,
    fun _ => 0, fun _ => 0⟩

theorem oneInputR_valid (m : Mode) (lo hi : ℝ) (p : Fin 1 → ℝ) (hp : p ∈ Box (fun _ : Fin 1 => lo) (fun _ => hi)) :
    Valid m false (oneInputR lo hi) p p := by
  refine ⟨fun _ k => hp k, fun _ k => ?_, by simp⟩
  have : k = 0 := Subsingleton.elim _ _
  subst this
  simp [oneInputR, affEval]

theorem oneInputR_tighten (m : Mode) (lo hi : ℝ) :
    ((oneInputR lo hi).tighten boxDomain m true true).lc = (fun _ => lo) ∧
      ((oneInputR lo hi).tighten boxDomain m true true).uc = (fun _ => hi) := by
  cases m <;> simp [Full.tighten, oneInputR, boxDomain, getUpperBox, getLowerBox]

/-- C21: in the sliver the affine upper bound of `exp` is wrong. -/
theorem C21_exp_refuted (eps : ℝ) (he : 0 < eps) (m : Mode) (hm : getAffine m = true) :
    ∃ lo hi : ℝ, ∃ p ∈ Box (fun _ : Fin 1 => lo) (fun _ => hi), Valid m false (oneInputR lo hi) p p ∧
      affEval (fun i => (expT boxDomain m eps (oneInputR lo hi)).wu i 0)
        ((expT boxDomain m eps (oneInputR lo hi)).bu 0) p < Real.exp (p 0) := by
  have hp : (fun _ : Fin 1 => eps / 2) ∈ Box (fun _ : Fin 1 => (0 : ℝ)) (fun _ => eps / 2) :=
    fun i => ⟨by positivity, le_rfl⟩
  refine ⟨0, eps / 2, _, hp, oneInputR_valid _ _ _ _ hp, ?_⟩
  obtain ⟨e1, e2⟩ := oneInputR_tighten m 0 (eps / 2)
  simp only [expT, hm, if_true, e1, e2, tighten_wu, tighten_bu, affEval]
  have hm' : max (eps / 2 - 0) eps = eps := max_eq_right (by linarith)
  simp only [hm', oneInputR, Finset.univ_unique, Finset.sum_singleton, Real.exp_zero]
  have h1 : 1 < Real.exp (eps / 2) := Real.one_lt_exp_iff.mpr (by positivity)
  have e : (Real.exp (eps / 2) - 1) / eps * 1 * (eps / 2) = (Real.exp (eps / 2) - 1) / 2 := by field_simp
  simp only [mul_zero, zero_add, sub_zero]
  linarith

/-- Non-vacuity of C21: the identity on `[1,2]`, every mode. -/
example (m : Mode) : (∀ k, 0 < ((oneInputR 1 2).tighten boxDomain m true true).lc k) ∧
    (m = .affine → ∀ k, (1 / 10000000 : ℝ) ≤ ((oneInputR 1 2).tighten boxDomain m true true).lc k) ∧
    (getAffine m = true → ∀ k, ¬ (((oneInputR 1 2).tighten boxDomain m true true).lc k <
        ((oneInputR 1 2).tighten boxDomain m true true).uc k ∧
      ((oneInputR 1 2).tighten boxDomain m true true).uc k - ((oneInputR 1 2).tighten boxDomain m true true).lc k
        < 1 / 10000000)) := by
  obtain ⟨e1, e2⟩ := oneInputR_tighten m 1 2
  simp only [e1, e2]
  refine ⟨fun _ => by norm_num, fun _ _ => by norm_num, fun _ _ => by norm_num⟩

/-- C21: in affine mode `log` clamps a lower bound below `eps`, and then its affine lower bound is wrong: identity on
`[eps/2, 2 eps]`. -/
theorem C21_log_affine_clamp_refuted (eps : ℝ) (he : 0 < eps) :
    ∃ p ∈ Box (fun _ : Fin 1 => eps / 2) (fun _ => 2 * eps), Valid .affine false (oneInputR (eps / 2) (2 * eps)) p p ∧
      (∀ k, 0 < ((oneInputR (eps / 2) (2 * eps)).tighten boxDomain .affine true true).lc k) ∧
      Real.log (p 0) < affEval (fun i => (logT boxDomain .affine eps (oneInputR (eps / 2) (2 * eps))).wl i 0)
        ((logT boxDomain .affine eps (oneInputR (eps / 2) (2 * eps))).bl 0) p := by
  have hp : (fun _ : Fin 1 => eps / 2) ∈ Box (fun _ : Fin 1 => eps / 2) (fun _ => 2 * eps) :=
    fun i => ⟨le_rfl, by linarith⟩
  obtain ⟨e1, e2⟩ := oneInputR_tighten .affine (eps / 2) (2 * eps)
  refine ⟨_, hp, oneInputR_valid _ _ _ _ hp, fun k => by rw [e1]; positivity, ?_⟩
  simp only [logT, e1, e2, tighten_wl, tighten_bl, affEval, getAffine, if_true]
  have hm1 : max eps (eps / 2) = eps := max_eq_left (by linarith)
  have hm2 : max (2 * eps - eps) eps = eps := by rw [show 2 * eps - eps = eps by ring]; exact max_self _
  simp only [hm1, hm2, oneInputR, Finset.univ_unique, Finset.sum_singleton]
  have l2 : Real.log (2 * eps) = Real.log 2 + Real.log eps := Real.log_mul two_ne_zero he.ne'
  have l3 : Real.log (eps / 2) = Real.log eps - Real.log 2 := Real.log_div he.ne' two_ne_zero
  have hl2 : 0 < Real.log 2 := Real.log_pos one_lt_two
  rw [l2, l3]
  have e : (Real.log 2 + Real.log eps - Real.log eps) / eps * 1 * (eps / 2) = Real.log 2 / 2 := by
    rw [add_sub_cancel_right]; field_simp
  have e' : (Real.log 2 + Real.log eps - Real.log eps) / eps * eps = Real.log 2 := by
    rw [add_sub_cancel_right]; field_simp
  rw [e, e']
  linarith

theorem oneInputR_sound (lo hi : ℝ) : (boxDomain : PertDomain _ (Fin 1) ℝ).Sound (oneInputR lo hi).x (Box (fun _ => lo) fun _ => hi) := boxDomain_sound _ _

/-- C21: the logarithm and the exponential on `[1, 2]`, in every mode. -/
example (m : Mode) (p : Fin 1 → ℝ) (hp : p ∈ Box (fun _ => 1) fun _ => 2) :
    Valid m false (logT boxDomain m (1 / 10000000) (oneInputR 1 2)) p (fun k => Real.log (p k)) ∧
    Valid m false (expT boxDomain m (1 / 10000000) (oneInputR 1 2)) p fun k => Real.exp (p k) := by
  obtain ⟨e1, e2⟩ := oneInputR_tighten m 1 2
  have v := oneInputR_valid m 1 2 p hp
  exact ⟨C21_log_valid boxDomain m _ (by norm_num) _ _ (oneInputR_sound 1 2) p hp p v (by simp [e1]) (by simp [e1]; norm_num),
    C21_exp_valid_partial boxDomain m _ (by norm_num) _ _ (oneInputR_sound 1 2) p hp p v (by simp [e1, e2]; norm_num)⟩

end Decomon
