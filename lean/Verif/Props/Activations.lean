import Verif.Lemmas.Activations
import Verif.Props.Pooling

/-! Properties C18, C19, C20, C22, C64. -/

namespace Decomon

/-! ### C18: S-shape hull -/

section
variable {f f' : ℝ → ℝ}

theorem sShape_coeff_mul {eps l u : ℝ} (hd : eps ≤ u - l ∨ l = u) (he : 0 < eps) :
    f u - f l = (f u - f l) / max eps (u - l) * (u - l) := by
  rcases hd with h | h
  · rw [max_eq_right h, div_mul_cancel₀]; linarith
  · rw [h]; simp

/-- C18, upper line, secant branch: if the slope at `u` is at least that of the secant, and the interval is not narrower than
`epsilon` (or is a point), the line is above `f`.  Missing with respect to the full claim: the grid-search branch and narrow
intervals, both refuted below. -/
theorem C18_upper_secant_partial (S : SShaped f f') (eps : ℝ) (he : 0 < eps) (l u : ℝ) (hd : eps ≤ u - l ∨ l = u)
    (hc : (f u - f l) / max eps (u - l) ≤ f' u) (z : ℝ) (h1 : l ≤ z) (h2 : z ≤ u) :
    f z ≤ (sShapeHull eps f f' u l).wu * z + (sShapeHull eps f f' u l).bu := by
  have := S.secant_upper h1 h2 (sShape_coeff_mul (f := f) hd he) hc
  simp only [sShapeHull, ge_iff_le, hc, if_true]
  linarith

/-- C18, lower line, secant branch. Missing: as above. -/
theorem C18_lower_secant_partial (S : SShaped f f') (eps : ℝ) (he : 0 < eps) (l u : ℝ) (hd : eps ≤ u - l ∨ l = u)
    (hc : (f u - f l) / max eps (u - l) ≤ f' l) (z : ℝ) (h1 : l ≤ z) (h2 : z ≤ u) :
    (sShapeHull eps f f' u l).wl * z + (sShapeHull eps f f' u l).bl ≤ f z := by
  have := S.secant_lower h1 h2 (sShape_coeff_mul (f := f) hd he) hc
  simp only [sShapeHull, ge_iff_le, hc, if_true]
  linarith

/-- C18, upper line, positive interval: the constant `f u` (or the secant) is above `f`, also for narrow intervals outside the
secant branch. -/
theorem C18_upper_const_partial (S : SShaped f f') (eps : ℝ) (l u : ℝ) (hl : 0 < l)
    (hc : f' u < (f u - f l) / max eps (u - l)) (z : ℝ) (h2 : z ≤ u) :
    f z ≤ (sShapeHull eps f f' u l).wu * z + (sShapeHull eps f f' u l).bu := by
  have := S.strictMono.monotone h2
  have hc' : ¬ f' u ≥ (f u - f l) / max eps (u - l) := not_le.mpr hc
  simp only [sShapeHull, hc', if_false, ksign_pos hl]
  norm_num
  exact this

/-- C18, lower line, negative interval. -/
theorem C18_lower_const_partial (S : SShaped f f') (eps : ℝ) (l u : ℝ) (hu : u < 0)
    (hc : f' l < (f u - f l) / max eps (u - l)) (z : ℝ) (h1 : l ≤ z) :
    (sShapeHull eps f f' u l).wl * z + (sShapeHull eps f f' u l).bl ≤ f z := by
  have := S.strictMono.monotone h1
  have hc' : ¬ f' l ≥ (f u - f l) / max eps (u - l) := not_le.mpr hc
  simp only [sShapeHull, hc', if_false, ksign_pos (show 0 < -u by linarith)]
  norm_num
  exact this

/-- C18: the grid search for the upper line never returns a valid line: for every `l < 0 < u` outside the secant branch the
upper line crosses the function, for sigmoid, tanh and softsign alike. -/
theorem C18_upper_search_refuted (S : SShaped f f') (eps : ℝ) (he : 0 < eps) (l u : ℝ) (hl : l < 0) (hu : 0 < u)
    (hc : f' u < (f u - f l) / max eps (u - l)) :
    ∃ z, l ≤ z ∧ z ≤ u ∧ (sShapeHull eps f f' u l).wu * z + (sShapeHull eps f f' u l).bu < f z := by
  obtain ⟨z, h1, h2, h3⟩ := S.grid_crosses hl hu he hc _ (tUpperIndex_cases f f' u l)
  refine ⟨z, h1, h2, ?_⟩
  have hc' : ¬ f' u ≥ (f u - f l) / max eps (u - l) := not_le.mpr hc
  simp only [sShapeHull, hc', if_false, ksign_neg hl, tUpper]
  norm_num
  linarith

/-- C18: the same for the lower line. -/
theorem C18_lower_search_refuted (S : SShaped f f') (eps : ℝ) (he : 0 < eps) (l u : ℝ) (hl : l < 0) (hu : 0 < u)
    (hc : f' l < (f u - f l) / max eps (u - l)) :
    ∃ z, l ≤ z ∧ z ≤ u ∧ f z < (sShapeHull eps f f' u l).wl * z + (sShapeHull eps f f' u l).bl := by
  have hc2 : f' (- - l) < (- f (- - l) - - f (- - u)) / max eps (- l - - u) := by
    simp only [neg_neg]
    rw [show - l - - u = u - l by ring, show - f l - - f u = f u - f l by ring]
    exact hc
  obtain ⟨z, h1, h2, h3⟩ := S.mirror.grid_crosses (u := -l) (l := -u) (by linarith) (by linarith) he hc2 _
    (tLowerIndex_cases f f' u l)
  refine ⟨-z, by linarith, by linarith, ?_⟩
  have hc' : ¬ f' l ≥ (f u - f l) / max eps (u - l) := not_le.mpr hc
  simp only [tValue_neg, neg_neg] at h3
  simp only [sShapeHull, hc', if_false, ksign_neg (show -u < 0 by linarith), tLower]
  set t := tValue (tLowerIndex f f' u l) l
  rw [show - f t - - f u = f u - f t by ring, show - t - - u = u - t by ring] at h3
  norm_num
  linarith

/-- C18: the secant branch on an interval narrower than `epsilon` is too low at `u` and too high at `l`. -/
theorem C18_narrow_refuted (S : SShaped f f') (eps : ℝ) (l u : ℝ) (hlu : l < u) (hd : u - l < eps) :
    ((f u - f l) / max eps (u - l) ≤ f' u →
      (sShapeHull eps f f' u l).wu * u + (sShapeHull eps f f' u l).bu < f u) ∧
    ((f u - f l) / max eps (u - l) ≤ f' l →
      f l < (sShapeHull eps f f' u l).wl * l + (sShapeHull eps f f' u l).bl) := by
  have hf : 0 < f u - f l := sub_pos.mpr (S.strictMono hlu)
  have he : 0 < eps := by linarith
  have key : (f u - f l) / eps * (u - l) < f u - f l := by
    rw [div_mul_eq_mul_div, div_lt_iff₀ he]
    exact mul_lt_mul_of_pos_left hd hf
  constructor
  · intro hc
    simp only [sShapeHull, ge_iff_le, hc, if_true]
    rw [max_eq_left hd.le]
    linarith
  · intro hc
    simp only [sShapeHull, ge_iff_le, hc, if_true]
    rw [max_eq_left hd.le]
    linarith

/-- C18: both slopes are non-negative (so that the lines compose with affine bounds). -/
theorem sShapeHull_nonneg (S : SShaped f f') (eps : ℝ) (he : 0 < eps) (l u : ℝ) (hlu : l ≤ u) (hl : l ≠ 0) (hu : u ≠ 0) :
    0 ≤ (sShapeHull eps f f' u l).wu ∧ 0 ≤ (sShapeHull eps f f' u l).wl := by
  have hp : ∀ x, 0 ≤ max eps x := fun x => le_max_of_le_left he.le
  have hc : 0 ≤ (f u - f l) / max eps (u - l) := div_nonneg (sub_nonneg.mpr (S.strictMono.monotone hlu)) (hp _)
  have ht : ∀ (k : ℕ) (c : ℝ), (0 ≤ c → 0 ≤ tValue k c) ∧ (c ≤ 0 → tValue k c ≤ 0) := by
    intro k c
    by_cases hk : k < 100
    · rw [tValue_lt hk]
      exact ⟨fun h => mul_nonneg (by positivity) h, fun h => mul_nonpos_of_nonneg_of_nonpos (by positivity) h⟩
    · rw [tValue_ge (by omega)]; simp
  constructor
  · simp only [sShapeHull, tUpper]
    split
    · norm_num; exact hc
    · rcases lt_or_gt_of_ne hl with h | h
      · rw [ksign_neg h]; norm_num
        by_cases hu0 : 0 ≤ u
        · exact div_nonneg (sub_nonneg.mpr (S.strictMono.monotone (by linarith [(ht (tUpperIndex f f' u l) u).1 hu0]))) (hp _)
        · next hne =>
          exfalso
          rcases hlu.lt_or_eq with hlt | heq
          · have := (S.convex_left hlt (not_le.mp hu0).le).2
            refine hne ?_
            rw [ge_iff_le, div_le_iff₀ (lt_max_of_lt_left he)]
            have := mul_le_mul_of_nonneg_left (le_max_right eps (u - l)) (S.pos u).le
            linarith
          · refine hne ?_
            rw [heq]; simp [(S.pos u).le]
      · rw [ksign_pos h]; norm_num
  · simp only [sShapeHull, tLower]
    split
    · norm_num; exact hc
    · rcases lt_or_gt_of_ne hu with h | h
      · rw [ksign_pos (show 0 < -u by linarith)]; norm_num
      · rw [ksign_neg (show -u < 0 by linarith)]; norm_num
        by_cases hl0 : l ≤ 0
        · exact div_nonneg (sub_nonneg.mpr (S.strictMono.monotone (by linarith [(ht (tLowerIndex f f' u l) l).2 hl0]))) (hp _)
        · next hne =>
          exfalso
          rcases hlu.lt_or_eq with hlt | heq
          · have := (S.concave_right hlt (not_le.mp hl0).le).2
            refine hne ?_
            rw [ge_iff_le, div_le_iff₀ (lt_max_of_lt_left he)]
            have := mul_le_mul_of_nonneg_left (le_max_right eps (u - l)) (S.pos l).le
            linarith
          · refine hne ?_
            rw [heq]; simp [(S.pos u).le]

variable {X ι κ : Type*} [Fintype ι]

/-- C18, whole layer: if no neuron falls in the grid-search branch nor in a narrow interval, the layer output is valid in every
mode.  Missing with respect to the full claim: neurons in those two cases, refuted above. -/
theorem C18_layer_valid_partial (S : SShaped f f') (D : PertDomain X ι ℝ) (m : Mode) (eps : ℝ) (he : 0 < eps)
    (inp : Full X ι κ ℝ) (R : Set (ι → ℝ)) (hD : D.Sound inp.x R) (p : ι → ℝ) (hp : p ∈ R) (y : κ → ℝ)
    (v : Valid m false inp p y)
    (hs : getAffine m = true → ∀ k, let u := (inp.tighten D m true true).uc k; let l := (inp.tighten D m true true).lc k
      (eps ≤ u - l ∨ l = u) ∧ ((f u - f l) / max eps (u - l) ≤ f' u ∨ 0 < l) ∧
        ((f u - f l) / max eps (u - l) ≤ f' l ∨ u < 0)) :
    Valid m false (sShapeT D m eps f f' inp) p (fun k => f (y k)) := by
  have hc := tighten_const D m false inp R hD p hp y v
  obtain ⟨a, -⟩ := C04_tighten_valid D m false false true inp R hD p hp y v
  refine ⟨fun hi k => ?_, fun ha k => ?_, by simp⟩
  · simp only [sShapeT, hi, if_true]
    exact ⟨S.strictMono.monotone (a.const hi k).1, S.strictMono.monotone (a.const hi k).2⟩
  · obtain ⟨hd, hu, hl⟩ := hs ha k
    obtain ⟨c1, c2⟩ := hc k
    simp only [sShapeT, ha, if_true, tighten_wu, tighten_wl, tighten_bu, tighten_bl]
    set u := (inp.tighten D m true true).uc k
    set l := (inp.tighten D m true true).lc k
    have hlu : l ≤ u := c1.trans c2
    have hcf : 0 ≤ (f u - f l) / max eps (u - l) :=
      div_nonneg (sub_nonneg.mpr (S.strictMono.monotone hlu)) (le_max_of_le_left he.le)
    have upper : f (y k) ≤ (sShapeHull eps f f' u l).wu * y k + (sShapeHull eps f f' u l).bu ∧
        0 ≤ (sShapeHull eps f f' u l).wu := by
      by_cases hb : (f u - f l) / max eps (u - l) ≤ f' u
      · refine ⟨C18_upper_secant_partial S eps he l u hd hb _ c1 c2, ?_⟩
        simp only [sShapeHull, ge_iff_le, hb, if_true]; norm_num; exact hcf
      · have h0 := hu.resolve_left hb
        refine ⟨C18_upper_const_partial S eps l u h0 (not_le.mp hb) _ c2, ?_⟩
        simp only [sShapeHull, ge_iff_le, hb, if_false, ksign_pos h0]; norm_num
    have lower : (sShapeHull eps f f' u l).wl * y k + (sShapeHull eps f f' u l).bl ≤ f (y k) ∧
        0 ≤ (sShapeHull eps f f' u l).wl := by
      by_cases hb : (f u - f l) / max eps (u - l) ≤ f' l
      · refine ⟨C18_lower_secant_partial S eps he l u hd hb _ c1 c2, ?_⟩
        simp only [sShapeHull, ge_iff_le, hb, if_true]; norm_num; exact hcf
      · have h0 := hl.resolve_left hb
        refine ⟨C18_lower_const_partial S eps l u h0 (not_le.mp hb) _ c1, ?_⟩
        simp only [sShapeHull, ge_iff_le, hb, if_false, ksign_pos (show 0 < -u by linarith)]; norm_num
    constructor
    · rw [add_comm]
      exact aff_compose_lower lower.2 (v.aff ha k).1 lower.1
    · rw [add_comm]
      exact aff_compose_upper upper.2 (v.aff ha k).2 upper.1

end

/-- C18: the three functions of decomon have the shape assumed above, with the derivatives written in the code. -/
theorem C18_instances : SShaped Real.sigmoid sigmoidPrime ∧ SShaped Real.tanh tanhPrime ∧
    SShaped (softsign : ℝ → ℝ) softsignPrime :=
  ⟨sshaped_sigmoid, sshaped_tanh, sshaped_softsign⟩

/-- C18 for softsign: secants on `[-3, -1]` and `[1, 3]`, constants on the same intervals. -/
example (z : ℝ) (h1 : -3 ≤ z) (h2 : z ≤ -1) :
    softsign z ≤ (sShapeHull (1 / 10000000) softsign softsignPrime (-1) (-3)).wu * z + (sShapeHull (1 / 10000000) softsign softsignPrime (-1) (-3)).bu :=
  C18_upper_secant_partial C18_instances.2.2 _ (by norm_num) _ _ (.inl (by norm_num)) (by norm_num [softsign, softsignPrime]) z h1 h2

example (z : ℝ) (h1 : 1 ≤ z) (h2 : z ≤ 3) :
    (sShapeHull (1 / 10000000) softsign softsignPrime 3 1).wl * z + (sShapeHull (1 / 10000000) softsign softsignPrime 3 1).bl ≤ softsign z :=
  C18_lower_secant_partial C18_instances.2.2 _ (by norm_num) _ _ (.inl (by norm_num)) (by norm_num [softsign, softsignPrime]) z h1 h2

example (z : ℝ) (h2 : z ≤ 3) :
    softsign z ≤ (sShapeHull (1 / 10000000) softsign softsignPrime 3 1).wu * z + (sShapeHull (1 / 10000000) softsign softsignPrime 3 1).bu :=
  C18_upper_const_partial C18_instances.2.2 _ _ _ (by norm_num) (by norm_num [softsign, softsignPrime]) z h2

example (z : ℝ) (h1 : -3 ≤ z) :
    (sShapeHull (1 / 10000000) softsign softsignPrime (-1) (-3)).wl * z + (sShapeHull (1 / 10000000) softsign softsignPrime (-1) (-3)).bl ≤ softsign z :=
  C18_lower_const_partial C18_instances.2.2 _ _ _ (by norm_num) (by norm_num [softsign, softsignPrime]) z h1

/-- The layer on `[1, 3]`, in every mode. -/
example (m : Mode) (p : Fin 1 → ℝ) (hp : p ∈ Box (fun _ => 1) fun _ => 3) :
    Valid m false (sShapeT boxDomain m (1 / 10000000) softsign softsignPrime (oneInputR 1 3)) p fun k => softsign (p k) := by
  obtain ⟨e1, e2⟩ := oneInputR_tighten m 1 3
  refine C18_layer_valid_partial C18_instances.2.2 boxDomain m _ (by norm_num) _ _ (oneInputR_sound 1 3) p hp p (oneInputR_valid m 1 3 p hp) fun _ k => ?_
  simp only [e1, e2]
  exact ⟨.inl (by norm_num), .inr (by norm_num), .inl (by norm_num [softsign, softsignPrime])⟩

/-- C18: exact witness with softsign on `[-1,1]`: at `z = 1/3` the upper line of the code is below `1/4`. -/
theorem C18_softsign_refuted :
    let h := sShapeHull (1 / 10000000 : ℚ) softsign softsignPrime 1 (-1)
    h.wu * (1 / 3) + h.bu < softsign (1 / 3) := by
  decide +kernel

/-- Non-vacuity of the secant branch: softsign on `[-3,-1]` (upper line) and of the constant branch on `[1,3]`. -/
example : (softsign (-1) - softsign (-3)) / max (1 / 10000000) (-1 - -3) ≤ (softsignPrime (-1) : ℚ) ∧
    (softsignPrime 3 : ℚ) < (softsign 3 - softsign 1) / max (1 / 10000000) (3 - 1) := by
  decide +kernel

/-! ### C19: constant bounds of monotone activations -/

theorem softplus_mono : Monotone softplus := by
  intro a b h
  unfold softplus
  exact Real.log_le_log (by positivity) (by gcongr)

section
variable {X ι κ : Type*} [Fintype ι]

/-- C19: sigmoid, tanh, softsign: in ibp and hybrid mode the constant bounds bound `f y`. -/
theorem C19_s_shape_const (D : PertDomain X ι ℝ) (m : Mode) (hm : getIbp m = true) (eps : ℝ) (inp : Full X ι κ ℝ)
    (R : Set (ι → ℝ)) (hD : D.Sound inp.x R) (p : ι → ℝ) (hp : p ∈ R) (y : κ → ℝ) (v : Valid m false inp p y) (k : κ) :
    ((sShapeT D m eps Real.sigmoid sigmoidPrime inp).lc k ≤ Real.sigmoid (y k) ∧
      Real.sigmoid (y k) ≤ (sShapeT D m eps Real.sigmoid sigmoidPrime inp).uc k) ∧
    ((sShapeT D m eps Real.tanh tanhPrime inp).lc k ≤ Real.tanh (y k) ∧
      Real.tanh (y k) ≤ (sShapeT D m eps Real.tanh tanhPrime inp).uc k) ∧
    ((sShapeT D m eps softsign softsignPrime inp).lc k ≤ softsign (y k) ∧
      softsign (y k) ≤ (sShapeT D m eps softsign softsignPrime inp).uc k) := by
  obtain ⟨a, -⟩ := C04_tighten_valid D m false false true inp R hD p hp y v
  obtain ⟨a1, a2⟩ := a.const hm k
  simp only [sShapeT, hm, if_true]
  exact ⟨⟨sshaped_sigmoid.strictMono.monotone a1, sshaped_sigmoid.strictMono.monotone a2⟩,
    ⟨sshaped_tanh.strictMono.monotone a1, sshaped_tanh.strictMono.monotone a2⟩,
    ⟨sshaped_softsign.strictMono.monotone a1, sshaped_softsign.strictMono.monotone a2⟩⟩

/-- C19: exponential and softplus in ibp mode. -/
theorem C19_exp_softplus_const (D : PertDomain X ι ℝ) (eps : ℝ) (he : 0 < eps) (inp : Full X ι κ ℝ) (R : Set (ι → ℝ))
    (hD : D.Sound inp.x R) (p : ι → ℝ) (hp : p ∈ R) (y : κ → ℝ) (v : Valid .ibp false inp p y) :
    Valid .ibp false (expT D .ibp eps inp) p (fun k => Real.exp (y k)) ∧
    Valid .ibp false (softplusIbpT D inp) p (fun k => Real.log (1 + Real.exp (y k))) := by
  refine ⟨C21_exp_valid_partial D .ibp eps he inp R hD p hp y v (by simp [getAffine]), ?_, by simp [getAffine], by simp⟩
  intro _ k
  obtain ⟨h1, h2⟩ := v.const rfl k
  have e : inp.tighten D .ibp true true = inp := by simp [Full.tighten]
  simp only [softplusIbpT, e]
  exact ⟨softplus_mono h1, softplus_mono h2⟩

end

/-- C19: the constant bounds are attained (they are the values at the ends), so they cannot be improved. -/
theorem C19_tight {X ι κ : Type*} (D : PertDomain X ι ℝ) (eps : ℝ) (f f' : ℝ → ℝ) (inp : Full X ι κ ℝ) (k : κ) :
    (sShapeT D .ibp eps f f' inp).lc k = f (inp.lc k) ∧ (sShapeT D .ibp eps f f' inp).uc k = f (inp.uc k) := by
  simp [sShapeT, Full.tighten, getIbp]

/-- C19 on `[-1, 3]`, where the affine bounds of C18 are false. -/
example (p : Fin 1 → ℝ) (hp : p ∈ Box (fun _ => -1) fun _ => 3) :
    Real.sigmoid (p 0) ≤ (sShapeT boxDomain .hybrid (1 / 10000000) Real.sigmoid sigmoidPrime (oneInputR (-1) 3)).uc 0 :=
  (C19_s_shape_const boxDomain .hybrid rfl _ _ _ (oneInputR_sound (-1) 3) p hp p (oneInputR_valid .hybrid _ _ p hp) 0).1.2

example (p : Fin 1 → ℝ) (hp : p ∈ Box (fun _ => -1) fun _ => 3) :
    Valid .ibp false (softplusIbpT boxDomain (oneInputR (-1) 3)) p fun k => Real.log (1 + Real.exp (p k)) :=
  (C19_exp_softplus_const boxDomain (1 / 10000000) (by norm_num) _ _ (oneInputR_sound (-1) 3) p hp p (oneInputR_valid .ibp _ _ p hp)).2

/-- Non-vacuity of C19: softsign on `[-1, 3]`. -/
example : (sShapeT boxDomain .ibp (1 / 10) softsign softsignPrime (oneInput (-1) 3)).lc 0 = -1 / 2 ∧
    (sShapeT boxDomain .ibp (1 / 10) softsign softsignPrime (oneInput (-1) 3)).uc 0 = 3 / 4 := by
  simp only [sShapeT, Full.tighten, getIbp, oneInput]
  decide +kernel

/-! ### C20: softplus hull -/

theorem softplus_gt_relu (z : ℝ) : max z 0 < softplus z := by
  unfold softplus
  have hz : z = Real.log (Real.exp z) := (Real.log_exp z).symm
  refine max_lt ?_ ?_
  · conv_lhs => rw [hz]
    exact Real.log_lt_log (Real.exp_pos z) (by linarith)
  · exact Real.log_pos (by linarith [Real.exp_pos z])

theorem softsign_le_relu (z : ℝ) : softsign z ≤ max z 0 := by
  unfold softsign
  rcases le_total 0 z with h | h
  · rw [abs_of_nonneg h, max_eq_left h]
    exact div_le_self h (by linarith)
  · rw [max_eq_right h]
    exact div_nonpos_of_nonpos_of_nonneg h (by positivity)

theorem softsign_lipschitz {l u : ℝ} (h : l ≤ u) : 0 ≤ softsign u - softsign l ∧ softsign u - softsign l ≤ u - l := by
  refine ⟨sub_nonneg.mpr (sshaped_softsign.strictMono.monotone h), ?_⟩
  rcases h.lt_or_eq with h | h
  · obtain ⟨c, -, e⟩ := sshaped_softsign.mvt h
    rw [e]
    have : softsignPrime c ≤ 1 := by
      unfold softsignPrime
      rw [div_le_one (by positivity)]
      nlinarith [abs_nonneg c]
    nlinarith
  · simp [h]

theorem softplus_alpha_mem {eps l u : ℝ} (he : 0 < eps) (h : l ≤ u) :
    0 ≤ (softsign u - softsign l) / max eps (u - l) ∧ (softsign u - softsign l) / max eps (u - l) ≤ 1 := by
  have hp : 0 < max eps (u - l) := lt_max_of_lt_left he
  obtain ⟨a, b⟩ := softsign_lipschitz h
  exact ⟨div_nonneg a hp.le, by rw [div_le_one hp]; exact b.trans (le_max_right _ _)⟩

/-- C20: the lower line is below softplus, for the slopes V, Z, O, S, every finetuning in `[0,1]`, everywhere in the interval.
Missing with respect to the full claim: the upper line, which is wrong on every interval (next theorem), and the slope A, which
raises. -/
theorem C20_lower_partial (eps : ℝ) (he : 0 < eps) (s : Slope) (ft : Option (ℝ × ℝ))
    (hft : ∀ a ∈ ft, 0 ≤ a.2 ∧ a.2 ≤ 1) (l u : ℝ) (h : Hull ℝ) (hh : softplusHull eps s ft u l = .ok h) (z : ℝ)
    (h1 : l ≤ z) (h2 : z ≤ u) : h.wl * z + h.bl ≤ softplus z := by
  have hlu := h1.trans h2
  obtain ⟨ha0, ha1⟩ := softplus_alpha_mem he hlu
  have hd : 0 ≤ 1 - indexDead u ∧ 1 - indexDead u ≤ 1 := by
    rcases indexDead_mem u with e | e <;> rw [e] <;> norm_num
  have hpos := softplus_gt_relu z
  have key : ∀ w : ℝ, 0 ≤ w → w ≤ 1 → w * z ≤ max z 0 := by
    intro w h0 h1
    rcases le_total 0 z with hz | hz
    · rw [max_eq_left hz]; nlinarith
    · exact (mul_nonpos_of_nonneg_of_nonpos h0 hz).trans (le_max_right _ _)
  have mul01 : ∀ w : ℝ, 0 ≤ w → w ≤ 1 → 0 ≤ (1 - indexDead u) * w ∧ (1 - indexDead u) * w ≤ 1 := fun w h0 h1 =>
    ⟨mul_nonneg hd.1 h0, by nlinarith⟩
  have rest : ∀ w : ℝ, 0 ≤ w → w ≤ 1 → ∀ b : ℝ, (1 - indexDead u) * w * z + (1 - indexDead u) * (0 * b) ≤ softplus z := by
    intro w h0 h1' b
    have k := key _ (mul01 w h0 h1').1 (mul01 w h0 h1').2
    rw [zero_mul, mul_zero, add_zero]; linarith
  have restF : ∀ a : ℝ × ℝ, 0 ≤ a.2 → a.2 ≤ 1 → ∀ w : ℝ, 0 ≤ w → w ≤ 1 → ∀ b : ℝ,
      a.2 * ((1 - indexDead u) * w) * z + (a.2 * ((1 - indexDead u) * (0 * b)) + (1 - a.2) * max l 0) ≤ softplus z := by
    intro a a0 a1 w h0 h1' b
    have k := key _ (mul01 w h0 h1').1 (mul01 w h0 h1').2
    have hl : max l 0 ≤ max z 0 := max_le_max h1 le_rfl
    have e1 := mul_le_mul_of_nonneg_left k a0
    have e2 := mul_le_mul_of_nonneg_left hl (sub_nonneg.mpr a1)
    rw [zero_mul, mul_zero, mul_zero, zero_add]
    nlinarith
  have hv : 0 ≤ 1 - (- kclip (ksign (u + l) - 1) (-1) 0) ∧ 1 - (- kclip (ksign (u + l) - 1) (-1) 0) ≤ (1 : ℝ) := by
    rcases lt_trichotomy (u + l) 0 with h | h | h
    · rw [ksign_neg h]; norm_num [kclip]
    · rw [h, ksign_zero]; norm_num [kclip]
    · rw [ksign_pos h]; norm_num [kclip]
  unfold softplusHull at hh
  cases ft with
  | none =>
    cases s <;> simp only [Except.ok.injEq, reduceCtorEq] at hh <;> subst hh <;> apply rest <;> first | exact hv.1 | exact hv.2 | assumption | (norm_num)
  | some a =>
    obtain ⟨a0, a1⟩ := hft a rfl
    cases s <;> simp only [Except.ok.injEq, reduceCtorEq] at hh <;> subst hh <;> apply restF a a0 a1 <;> first | exact hv.1 | exact hv.2 | assumption | (norm_num)

/-- C20: the upper line is wrong for every interval, slope and finetuning: at `u` it is below softplus. -/
theorem C20_upper_refuted (eps : ℝ) (he : 0 < eps) (s : Slope) (ft : Option (ℝ × ℝ))
    (hft : ∀ a ∈ ft, 0 ≤ a.1 ∧ a.1 ≤ 1) (l u : ℝ) (hlu : l ≤ u) (h : Hull ℝ) (hh : softplusHull eps s ft u l = .ok h) :
    h.wu * u + h.bu < softplus u := by
  have hpos := softplus_gt_relu u
  obtain ⟨ha0, ha1⟩ := softplus_alpha_mem he hlu
  have hline : (softsign u - softsign l) / max eps (u - l) * (u - l) + softsign l ≤ max u 0 := by
    have hp : 0 < max eps (u - l) := lt_max_of_lt_left he
    have : (softsign u - softsign l) / max eps (u - l) * (u - l) ≤ softsign u - softsign l := by
      rw [div_mul_eq_mul_div, div_le_iff₀ hp]
      exact mul_le_mul_of_nonneg_left (le_max_right _ _) (softsign_lipschitz hlu).1
    linarith [softsign_le_relu u]
  set al := (softsign u - softsign l) / max eps (u - l) with hal
  have base : (1 - indexDead u) * al * u + (1 - indexDead u) * (- al * l + softsign l) ≤ max u 0 := by
    rcases indexDead_mem u with e | e <;> rw [e]
    · linarith
    · norm_num
  have restF : ∀ a : ℝ × ℝ, 0 ≤ a.1 → a.1 ≤ 1 →
      a.1 * ((1 - indexDead u) * al) * u + (a.1 * ((1 - indexDead u) * (- al * l + softsign l)) + (1 - a.1) * max u 0) <
        softplus u := by
    intro a a0 a1
    nlinarith [mul_le_mul_of_nonneg_left base a0]
  unfold softplusHull at hh
  cases ft with
  | none =>
    cases s <;> simp only [Except.ok.injEq, reduceCtorEq] at hh <;> subst hh <;> exact base.trans_lt hpos
  | some a =>
    obtain ⟨a0, a1⟩ := hft a rfl
    cases s <;> simp only [Except.ok.injEq, reduceCtorEq] at hh <;> subst hh <;> exact restF a a0 a1

/-- C20: the slope `A_SLOPE` raises `ValueError`; the others do not raise. -/
theorem C20_slopes (eps : ℝ) (s : Slope) (ft : Option (ℝ × ℝ)) (l u : ℝ) :
    (s = .aSlope → softplusHull eps s ft u l = .error .valueError) ∧
    (s ≠ .aSlope → ∃ h, softplusHull eps s ft u l = .ok h) := by
  cases s <;> simp [softplusHull]

/-- C20 on `[-1, 1]`. -/
example (h : Hull ℝ) (hh : softplusHull (1 / 10000000) .vSlope none 1 (-1) = .ok h) (z : ℝ) (h1 : -1 ≤ z) (h2 : z ≤ 1) : h.wl * z + h.bl ≤ softplus z :=
  C20_lower_partial _ (by norm_num) .vSlope none (by simp) _ _ h hh z h1 h2

example : ∃ h, softplusHull (1 / 10000000 : ℝ) .vSlope none 1 (-1) = .ok h := (C20_slopes _ .vSlope none (-1) 1).2 (by decide)

/-- Non-vacuity of C20: slope V on `[-1, 1]` in ℚ: lower line `0`, upper line `z/2`. -/
example : (softplusHull (1 / 10000000 : ℚ) .vSlope none 1 (-1)).map (fun h => (h.wu, h.bu, h.wl, h.bl)) =
    .ok (1 / 2, 0, 0, 0) := by
  decide +kernel

/-! ### C22: softmax -/

section
variable {X ι κ ν : Type*} [Fintype ι] [Fintype ν] [Nonempty ν]

/-- C22: what the ibp bounds of `softmax` enclose is the soft-min `exp(-y) / Σ exp(-y)`.  The full claim (they enclose
softmax) is refuted below. -/
theorem C22_softmin_ibp_partial (D : PertDomain X ι ℝ) (eps : ℝ) (he : 0 < eps) (f : Full X ι (κ × ν) ℝ) (R : Set (ι → ℝ))
    (hD : D.Sound f.x R) (p : ι → ℝ) (hp : p ∈ R) (y : κ × ν → ℝ) (v : Valid .ibp false f p y) :
    Valid .ibp false (softmaxT D .ibp eps f) p
      (fun k => Real.exp (- y k) / ∑ n, Real.exp (- y (k.1, n))) := by
  have v1 := valid_minus D .ibp false f p y v
  have v2 := C21_exp_valid_partial D .ibp eps he (minusT D .ibp f) R (by simpa [minusT] using hD) p hp _ v1
    (by simp [getAffine])
  have hx : (expT D .ibp eps (minusT D .ibp f)).x = f.x := by simp [expT, minusT]
  have v3 := valid_sum D .ibp (fun q : κ × ν => q) _ R (by rw [hx]; exact hD) p hp _ v2
  set e := expT D .ibp eps (minusT D .ibp f)
  set s := sumT D .ibp (fun q : κ × ν => q) e with hs
  have hsx : s.x = f.x := by simp [hs, sumT, hx]
  have hslc : ∀ k, 0 < s.lc k := by
    intro k
    simp only [hs, sumT, getIbp, if_true, Full.tighten]
    simp only [show (Mode.ibp == Mode.affine) = false from rfl, show (Mode.ibp == Mode.hybrid) = false from rfl,
      Bool.and_false, Bool.or_false, Bool.false_eq_true, if_false]
    refine Finset.sum_pos (fun n _ => ?_) Finset.univ_nonempty
    exact Real.exp_pos _
  have v4 : Valid .ibp false (fracPosT D .ibp eps s) p (fun k => 1 / ∑ n, Real.exp (- y (k, n))) :=
    ⟨fun _ k => C24_frac_pos_const_partial D .ibp rfl eps s R (by rw [hsx]; exact hD) p hp _ v3 k (hslc k),
      by simp [getAffine], by simp⟩
  have v5 := valid_reindex_raw .ibp false (Prod.fst : κ × ν → κ) _ p _ v4
  have v6 := valid_multiply D .ibp e ((fracPosT D .ibp eps s).reindex Prod.fst) R (by rw [hx]; exact hD)
    (by simp only [Full.reindex, fracPosT, tighten_x, hsx]; exact hD) p hp _ _ v2 v5
  have v7 := (C04_tighten_valid D .ibp false false true _ R (by simp only [multiplyT, tighten_x, hx]; exact hD) p hp _ v6).1
  refine ⟨fun _ k => ?_, by simp [getAffine], by simp⟩
  obtain ⟨c1, c2⟩ := v7.const rfl k
  have hsum : 0 < ∑ n, Real.exp (- y (k.1, n)) := Finset.sum_pos (fun n _ => Real.exp_pos _) Finset.univ_nonempty
  have hle : Real.exp (- y k) ≤ ∑ n, Real.exp (- y (k.1, n)) :=
    Finset.single_le_sum (f := fun n => Real.exp (- y (k.1, n))) (fun n _ => (Real.exp_pos _).le) (Finset.mem_univ k.2)
  rw [mul_one_div] at c1 c2
  simp only [softmaxT, getIbp, if_true]
  exact ⟨max_le c1 (div_nonneg (Real.exp_pos _).le hsum.le), le_min c2 ((div_le_one hsum).mpr hle)⟩

/-- C22: in ibp (and hybrid) mode the bounds are always inside `[0, 1]` from the side that matters: `l ≥ 0`, `u ≤ 1`. -/
theorem C22_clip (D : PertDomain X ι ℝ) (m : Mode) (hm : getIbp m = true) (eps : ℝ) (f : Full X ι (κ × ν) ℝ) (k : κ × ν) :
    0 ≤ (softmaxT D m eps f).lc k ∧ (softmaxT D m eps f).uc k ≤ 1 := by
  simp only [softmaxT, hm, if_true]
  exact ⟨le_max_right _ _, min_le_right _ _⟩

end

/-- The point `(0, 1)`, as ibp bounds. -/
def pointInput : Full Unit (Fin 0) (Fin 1 × Fin 2) ℝ :=
  ⟨(), fun k => if k.2 = 0 then 0 else 1, fun _ _ => 0, fun _ => 0, fun k => if k.2 = 0 then 0 else 1, fun _ _ => 0, fun _ => 0,
    fun _ => 0, fun _ => 0⟩

/-- C22: on the single point `(0, 1)`, whose first softmax entry is `1/(1+e) < 1/2`, the lower bound returned is `> 1/2`. -/
theorem C22_softmax_refuted (D : PertDomain Unit (Fin 0) ℝ) (hD : D.Sound () Set.univ) :
    let y : Fin 1 × Fin 2 → ℝ := fun k => if k.2 = 0 then 0 else 1
    Valid .ibp false pointInput (fun i => i.elim0) y ∧
      Real.exp (y (0, 0)) / ∑ n, Real.exp (y (0, n)) < (softmaxT D .ibp (1 / 10000000) pointInput).lc (0, 0) := by
  refine ⟨⟨fun _ k => ⟨le_rfl, le_rfl⟩, by simp [getAffine], by simp⟩, ?_⟩
  have h1 : Real.exp 0 < Real.exp 1 := Real.exp_lt_exp.mpr one_pos
  rw [Real.exp_zero] at h1
  have h2 := Real.exp_neg 1
  have lhs : Real.exp 0 / (Real.exp 0 + Real.exp 1) < 1 / 2 := by
    rw [Real.exp_zero, div_lt_div_iff₀ (by linarith) (by norm_num)]; linarith
  have rhs : 1 / 2 < Real.exp (-0) * (1 / (Real.exp (-0) + Real.exp (-1))) := by
    have h3 : Real.exp (-1) < 1 := by rw [← Real.exp_zero]; exact Real.exp_lt_exp.mpr (by norm_num)
    rw [neg_zero, Real.exp_zero, one_mul, div_lt_div_iff₀ (by norm_num) (by linarith [Real.exp_pos (-1)])]; linarith
  have hlc : (softmaxT D .ibp (1 / 10000000) pointInput).lc (0, 0) =
      max (Real.exp (-0) * (1 / (Real.exp (-0) + Real.exp (-1)))) 0 := by
    simp only [softmaxT, multiplyT, expT, minusT, fracPosT, sumT, Full.reindex, Full.tighten, pointInput, getIbp,
      show (Mode.ibp == Mode.affine) = false from rfl, show (Mode.ibp == Mode.hybrid) = false from rfl,
      Bool.and_false, Bool.or_false, Bool.false_eq_true, if_false, if_true, Fin.sum_univ_two, Fin.isValue, one_ne_zero,
      min_self]
    congr 1
    ring
  rw [hlc]
  simp only [Fin.sum_univ_two, Fin.isValue, if_true, one_ne_zero, if_false]
  exact lhs.trans (rhs.trans_le (le_max_left _ _))

/-- C22 for the outputs `(0, 1)`: decomon bounds the softmin. -/
example (p : Fin 0 → ℝ) : Valid .ibp false (softmaxT ⟨fun _ _ b => b, fun _ _ b => b⟩ .ibp (1 / 10000000) pointInput) p
    fun k => Real.exp (-(if k.2 = 0 then 0 else 1)) / ∑ n : Fin 2, Real.exp (-(if n = 0 then 0 else 1)) :=
  C22_softmin_ibp_partial ⟨fun _ _ b => b, fun _ _ b => b⟩ _ (by norm_num) pointInput Set.univ (fun p _ w b => by simp [affEval]) p trivial
    (fun k => if k.2 = 0 then 0 else 1) ⟨fun _ _ => ⟨le_rfl, le_rfl⟩, by simp [getAffine], by simp⟩

example : (softmaxT (⟨fun _ _ b => b, fun _ _ b => b⟩ : PertDomain Unit (Fin 0) ℝ) .hybrid (1 / 10000000) pointInput).uc (0, 1) ≤ 1 :=
  (C22_clip _ .hybrid rfl _ pointInput (0, 1)).2

/-- The hypothesis on the domain in the refutation is met. -/
example : (⟨fun _ _ b => b, fun _ _ b => b⟩ : PertDomain Unit (Fin 0) ℝ).Sound () Set.univ := by
  intro p _ w b
  simp [affEval]

/-! ### C64: registry of activations -/

/-- C64: `get`/`deserialize` lowercases the name, so no string is resolved to `group_sort_2`, nor to `hard_sigmoid`: for any
`lower` that (like `str.lower`) never produces the capital letters of "GroupSort2". -/
theorem C64_unreachable (lower : String → String) (hl : ∀ s, lower s ≠ "GroupSort2") (name : String) :
    actDeserialize lower name ≠ .ok .groupSort2 ∧ actDeserialize lower name ≠ .ok .hardSigmoid := by
  unfold actDeserialize
  simp only [hl name, if_false]
  constructor <;> (split_ifs <;> simp)

example : actDeserialize (fun _ => "relu") "GroupSort2" ≠ .ok .groupSort2 := (C64_unreachable (fun _ => "relu") (fun _ => by decide) "GroupSort2").1

theorem toLower_ne_G (c : Char) : c.toLower ≠ 'G' := by
  intro hc
  have h1 : c.toLower.val.toNat = 71 := by rw [hc]; rfl
  unfold Char.toLower at h1
  split at h1
  · next h =>
    have ha : 65 ≤ c.val.toNat := h.1
    have hz : c.val.toNat ≤ 90 := h.2
    have e : (c.val + ('a'.val - 'A'.val)).toNat = (c.val.toNat + 32) % 2 ^ 32 := by
      rw [UInt32.toNat_add]; rfl
    have h1' : (c.val + ('a'.val - 'A'.val)).toNat = 71 := h1
    omega
  · next h => 
    have : c = 'G' := by apply Char.ext; apply UInt32.toNat_inj.mp; rw [h1]; rfl
    subst this; revert h; decide

/-- C64: the assumption holds of lowercasing ASCII letters. -/
theorem C64_lower_ascii (s : String) : asciiLower s ≠ "GroupSort2" := by
  intro h
  have h' := congrArg String.toList h
  unfold asciiLower at h'
  rw [String.toList_ofList] at h'
  have hm : 'G' ∈ s.toList.map Char.toLower := by rw [h']; decide
  obtain ⟨c, -, hc⟩ := List.mem_map.mp hm
  exact toLower_ne_G c hc

/-- C64: a name is accepted exactly when, lowercased, it is one of ten names; every other raises `ValueError`. -/
theorem C64_accepted (name : String) :
    (∃ a, actDeserialize asciiLower name = .ok a) ↔
      asciiLower name ∈ ["softmax", "elu", "selu", "softplus", "softsign", "sigmoid", "tanh", "relu", "exponential", "linear"] := by
  have h := C64_lower_ascii name
  unfold actDeserialize
  simp only [h, if_false, List.mem_cons, List.not_mem_nil, or_false]
  split_ifs <;> simp_all

/-- C64: a name that is not accepted raises `ValueError`. -/
theorem C64_rejected (name : String) (e : PyErr) (h : actDeserialize asciiLower name = .error e) : e = .valueError := by
  unfold actDeserialize at h
  dsimp only at h
  split_ifs at h <;> simp_all

/-- C64: each accepted name is resolved to the activation of this name. -/
theorem C64_resolved (name : String) :
    (asciiLower name = "softmax" → actDeserialize asciiLower name = .ok .softmax) ∧
    (asciiLower name = "elu" → actDeserialize asciiLower name = .ok .elu) ∧
    (asciiLower name = "selu" → actDeserialize asciiLower name = .ok .selu) ∧
    (asciiLower name = "softplus" → actDeserialize asciiLower name = .ok .softplus) ∧
    (asciiLower name = "softsign" → actDeserialize asciiLower name = .ok .softsign) ∧
    (asciiLower name = "sigmoid" → actDeserialize asciiLower name = .ok .sigmoid) ∧
    (asciiLower name = "tanh" → actDeserialize asciiLower name = .ok .tanh) ∧
    (asciiLower name = "relu" → actDeserialize asciiLower name = .ok .relu) ∧
    (asciiLower name = "exponential" → actDeserialize asciiLower name = .ok .exponential) ∧
    (asciiLower name = "linear" → actDeserialize asciiLower name = .ok .linear) := by
  refine ⟨?_, ?_, ?_, ?_, ?_, ?_, ?_, ?_, ?_, ?_⟩ <;> intro h <;> simp [actDeserialize, h]

/-- C64: of the accepted ones, with `dc_decomp=False` exactly `elu` and `selu` raise when called; with `dc_decomp=True` only
`relu` and `linear` return.  What is raised is `NotImplementedError`. -/
theorem C64_callable (name : String) (a : Act) (h : actDeserialize asciiLower name = .ok a) :
    (actCall false a = .ok () ↔ asciiLower name ≠ "elu" ∧ asciiLower name ≠ "selu") ∧
    (actCall true a = .ok () ↔ asciiLower name = "relu" ∨ asciiLower name = "linear") ∧
    ∀ dc, actCall dc a = .ok () ∨ actCall dc a = .error .notImplemented := by
  have h' := C64_lower_ascii name
  unfold actDeserialize at h
  simp only [h', if_false] at h
  split_ifs at h <;> simp only [Except.ok.injEq, reduceCtorEq] at h <;> subst h <;> simp_all [actCall, raisesOnDc] <;>
    (intro dc; cases dc <;> simp)

/-- C64: `relu` accepts only its default parameters. -/
theorem C64_relu_parameters {α : Type*} [Field α] [DecidableEq α] (alpha : α) (mv : Option α) (th : α) :
    reluGuard alpha mv th = .ok () ↔ alpha = 0 ∧ mv = none ∧ th = 0 := by
  unfold reluGuard
  split_ifs <;> simp_all

/-- C64: any other parameters raise `NotImplementedError`. -/
theorem C64_relu_error {α : Type*} [Field α] [DecidableEq α] (alpha : α) (mv : Option α) (th : α) (e : PyErr)
    (h : reluGuard alpha mv th = .error e) : e = .notImplemented := by
  unfold reluGuard at h
  split_ifs at h <;> simp_all

/-- Cases of C64. -/
example : (∃ a, actDeserialize asciiLower "TanH" = .ok a) ∧ ¬ (∃ a, actDeserialize asciiLower "gelu" = .ok a) := by
  rw [C64_accepted, C64_accepted]; decide +kernel

example (e : PyErr) (h : actDeserialize asciiLower "gelu" = .error e) : e = .valueError := C64_rejected "gelu" e h

example : actCall false .selu ≠ .ok () ∧ actCall true .relu = .ok () :=
  ⟨fun h => absurd rfl ((C64_callable "selu" .selu (by decide +kernel)).1.mp h).2, (C64_callable "relu" .relu (by decide +kernel)).2.1.mpr (.inl (by decide +kernel))⟩

example (e : PyErr) (h : reluGuard (1 / 10 : ℚ) none 0 = .error e) : e = .notImplemented := C64_relu_error _ _ _ e h

example : actDeserialize asciiLower "ReLU" = .ok .relu ∧ actDeserialize asciiLower "GroupSort2" = .error .valueError ∧
    actDeserialize asciiLower "hard_sigmoid" = .error .valueError := by
  decide +kernel

end Decomon
