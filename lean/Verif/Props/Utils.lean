import Verif.Lemmas.Utils

/-! Properties C05 - C08. -/

namespace Decomon

section
variable {α : Type*} [Field α] [LinearOrder α] [IsStrictOrderedRing α]

/-- C05, full statement, without the epsilon guard in the way: outside the sliver `l < 0 < u`, `u - l < eps`, the ReLU hull
encloses ReLU on the whole interval, for the five slopes and any finetuning in `[0,1]`.
Missing with respect to the full claim: the sliver, where the upper side is false (`C05_upper_refuted`). -/
theorem C05_relu_hull_partial (eps : α) (he : 0 < eps) (s : Slope) (gamma : α) (hg0 : 0 ≤ gamma) (hg1 : gamma ≤ 1)
    (l u : α) (hs : ¬ (l < 0 ∧ 0 < u ∧ u - l < eps)) (z : α) (h1 : l ≤ z) (h2 : z ≤ u) :
    (linearHullRelu eps s gamma u l).wl * z + (linearHullRelu eps s gamma u l).bl ≤ max z 0 ∧
      max z 0 ≤ (linearHullRelu eps s gamma u l).wu * z + (linearHullRelu eps s gamma u l).bu :=
  ⟨hullRelu_lower s he hg0 hg1 h1 h2, hullRelu_upper s he hg0 hg1 h1 h2 hs⟩

/-- A case of C05: the chord of relu on `[-1, 3]` is above relu at `1/2`. -/
example : max (1 / 2 : ℚ) 0 ≤ (linearHullRelu (1 / 10000000) .vSlope 1 3 (-1)).wu * (1 / 2) + (linearHullRelu (1 / 10000000 : ℚ) .vSlope 1 3 (-1)).bu :=
  (C05_relu_hull_partial _ (by norm_num) .vSlope 1 (by norm_num) le_rfl (-1) 3 (by norm_num) (1 / 2) (by norm_num) (by norm_num)).2

/-- C05: the lower side holds without exception. -/
theorem C05_relu_hull_lower (eps : α) (he : 0 < eps) (s : Slope) (gamma : α) (hg0 : 0 ≤ gamma) (hg1 : gamma ≤ 1)
    (l u z : α) (h1 : l ≤ z) (h2 : z ≤ u) :
    (linearHullRelu eps s gamma u l).wl * z + (linearHullRelu eps s gamma u l).bl ≤ max z 0 :=
  hullRelu_lower s he hg0 hg1 h1 h2

/-- The lower line is below relu even on an interval narrower than epsilon. -/
example : (linearHullRelu (1 / 10 : ℚ) .aSlope (1 / 2) (1 / 100) (-1 / 100)).wl * (1 / 200) + (linearHullRelu (1 / 10 : ℚ) .aSlope (1 / 2) (1 / 100) (-1 / 100)).bl ≤
    max (1 / 200) 0 :=
  C05_relu_hull_lower _ (by norm_num) .aSlope (1 / 2) (by norm_num) (by norm_num) _ _ _ (by norm_num) (by norm_num)

/-- C05: in the sliver the upper side is wrong by less than `eps`. -/
theorem C05_relu_hull_upper_within_eps (eps : α) (he : 0 < eps) (s : Slope) (gamma : α) (hg0 : 0 ≤ gamma) (hg1 : gamma ≤ 1)
    (l u z : α) (h1 : l ≤ z) (h2 : z ≤ u) :
    max z 0 < (linearHullRelu eps s gamma u l).wu * z + (linearHullRelu eps s gamma u l).bu + eps :=
  hullRelu_upper_slack s he hg0 hg1 h1 h2

/-- On that interval the upper line is too low by less than epsilon. -/
example : max (1 / 200 : ℚ) 0 < (linearHullRelu (1 / 10) .aSlope (1 / 2) (1 / 100) (-1 / 100)).wu * (1 / 200) +
    (linearHullRelu (1 / 10) .aSlope (1 / 2) (1 / 100) (-1 / 100)).bu + 1 / 10 :=
  C05_relu_hull_upper_within_eps _ (by norm_num) .aSlope (1 / 2) (by norm_num) (by norm_num) _ _ _ (by norm_num) (by norm_num)

/-- C05: without restriction the upper side is false, for every value of `eps`, every slope and finetuning. -/
theorem C05_upper_refuted (eps : α) (he : 0 < eps) (s : Slope) (gamma : α) :
    ∃ l u z : α, l ≤ z ∧ z ≤ u ∧
      (linearHullRelu eps s gamma u l).wu * z + (linearHullRelu eps s gamma u l).bu < max z 0 := by
  refine ⟨-(eps / 4), eps / 4, eps / 4, by linarith, le_rfl, ?_⟩
  have hu : 0 < eps / 4 := by linarith
  have hl : -(eps / 4) < 0 := by linarith
  have hm : max eps (eps / 4 - -(eps / 4)) = eps := max_eq_left (by linarith)
  have e1 : (linearHullRelu eps s gamma (eps / 4) (-(eps / 4))).wu = 1 / 4 := by
    simp only [linearHullRelu, indexDead_of_pos hu, indexLinear_of_neg hl, relu_of_nonneg hu.le, relu_of_nonpos hl.le, hm]
    field_simp; ring
  have e2 : (linearHullRelu eps s gamma (eps / 4) (-(eps / 4))).bu = eps / 16 := by
    simp only [linearHullRelu, indexDead_of_pos hu, indexLinear_of_neg hl, relu_of_nonneg hu.le, relu_of_nonpos hl.le, hm]
    field_simp; ring
  rw [e1, e2, max_eq_left hu.le]
  linarith

/-- C05: outside the sliver the upper side is the best possible: it is exact at both ends. -/
theorem C05_relu_hull_upper_tight (eps : α) (he : 0 < eps) (s : Slope) (gamma : α) (hg0 : 0 ≤ gamma) (hg1 : gamma ≤ 1)
    (l u : α) (hlu : l ≤ u) (hs : ¬ (l < 0 ∧ 0 < u ∧ u - l < eps)) :
    (linearHullRelu eps s gamma u l).wu * l + (linearHullRelu eps s gamma u l).bu = max l 0 ∧
      (linearHullRelu eps s gamma u l).wu * u + (linearHullRelu eps s gamma u l).bu = max u 0 := by
  rcases le_or_gt 0 l with hl | hl
  · rw [hullRelu_linear s hl]; simp [hl, hl.trans hlu]
  · rcases le_or_gt u 0 with hu | hu
    · rw [hullRelu_dead s hu hl]; simp [hu, hl.le]
    · obtain ⟨h3, h4, -⟩ := hullRelu_active s he hg0 hg1 hu hl
      have hd : eps ≤ u - l := by by_contra hc; exact hs ⟨hl, hu, not_le.mp hc⟩
      have hpos : u - l ≠ 0 := (lt_of_lt_of_le he hd).ne'
      rw [h3, h4, max_eq_right hd, max_eq_right hl.le, max_eq_left hu.le]
      constructor
      · ring
      · field_simp; ring

/-- The upper line on `[-1, 3]` meets relu at both ends. -/
example : (linearHullRelu (1 / 10000000 : ℚ) .vSlope 1 3 (-1)).wu * 3 + (linearHullRelu (1 / 10000000 : ℚ) .vSlope 1 3 (-1)).bu = max 3 0 :=
  (C05_relu_hull_upper_tight _ (by norm_num) .vSlope 1 (by norm_num) le_rfl (-1) 3 (by norm_num) (by norm_num)).2

end

/-- Non-vacuity of C05: `[-1,3]`, V-slope, no finetuning: `w_u = 3/4`, `b_u = 3/4`, `w_l = 1`, `b_l = 0`. -/
example : linearHullRelu (1 / 10000000 : ℚ) .vSlope 1 3 (-1) = ⟨3 / 4, 3 / 4, 1, 0⟩ := by
  simp [linearHullRelu, indexDead, indexLinear, ksign, kclip, relu]; norm_num

section
variable {X ι κ α : Type*} [Fintype ι] [Field α] [LinearOrder α] [IsStrictOrderedRing α]

/-- The neurons of `f` avoid the sliver in which the division guard of the ReLU hull acts.  The constant bounds are those
the code works with (after `get_fullinputs_from_inputsformode`). -/
def SliverFree (D : PertDomain X ι α) (m : Mode) (eps : α) (f : Full X ι κ α) : Prop :=
  getAffine m = true → ∀ k, ¬ ((f.tighten D m true true).lc k < 0 ∧ 0 < (f.tighten D m true true).uc k ∧
      (f.tighten D m true true).uc k - (f.tighten D m true true).lc k < eps)

/-- C06: `relu_` keeps the invariant in every mode, for every slope and finetuning, outside the sliver.
Missing with respect to the full claim: neurons in the sliver (affine and hybrid mode), refuted below. -/
theorem C06_relu_valid_partial (D : PertDomain X ι α) (m : Mode) (dc : Bool) (eps : α) (he : 0 < eps) (s : Slope)
    (gamma : κ → α) (hg : ∀ k, 0 ≤ gamma k ∧ gamma k ≤ 1) (f : Full X ι κ α) (S : Set (ι → α)) (hD : D.Sound f.x S)
    (hs : SliverFree D m eps f) (p : ι → α) (hp : p ∈ S) (y : κ → α) (v : Valid m dc f p y) :
    Valid m dc (reluT D m dc eps s gamma f) p (fun k => max (y k) 0) :=
  valid_relu D m dc eps he s gamma hg f S hD hs p hp y v

/-- C06: in ibp mode there is no restriction at all. -/
theorem C06_relu_valid_ibp (D : PertDomain X ι α) (dc : Bool) (eps : α) (he : 0 < eps) (s : Slope)
    (gamma : κ → α) (hg : ∀ k, 0 ≤ gamma k ∧ gamma k ≤ 1) (f : Full X ι κ α) (S : Set (ι → α)) (hD : D.Sound f.x S)
    (p : ι → α) (hp : p ∈ S) (y : κ → α) (v : Valid .ibp dc f p y) :
    Valid .ibp dc (reluT D .ibp dc eps s gamma f) p (fun k => max (y k) 0) :=
  valid_relu D .ibp dc eps he s gamma hg f S hD (by simp [getAffine]) p hp y v

/-- C06: the constant bounds returned are non-negative and not wider than the given ones. -/
theorem C06_relu_const_tight (D : PertDomain X ι α) (m : Mode) (dc : Bool) (eps : α) (s : Slope)
    (gamma : κ → α) (f : Full X ι κ α) (hm : getIbp m = true) (k : κ) (hlu : f.lc k ≤ f.uc k) :
    0 ≤ (reluT D m dc eps s gamma f).lc k ∧ (reluT D m dc eps s gamma f).uc k ≤ max (f.uc k) 0 ∧
      max (f.lc k) 0 ≤ (reluT D m dc eps s gamma f).lc k := by
  have h := C04_tighten_never_looser D m hm true true f k
  simp only [reluT, hm, if_true]
  exact ⟨le_max_right _ _, relu_mono h.2.1, relu_mono h.1⟩

/-- C07: addition. -/
theorem C07_add_valid (D : PertDomain X ι α) (m : Mode) (dc : Bool) (f0 f1 : Full X ι κ α) (S : Set (ι → α))
    (h0 : D.Sound f0.x S) (h1 : D.Sound f1.x S) (p : ι → α) (hp : p ∈ S) (y0 y1 : κ → α)
    (v0 : Valid m dc f0 p y0) (v1 : Valid m dc f1 p y1) :
    Valid m dc (addT D m f0 f1) p (fun k => y0 k + y1 k) :=
  valid_add D m dc f0 f1 S h0 h1 p hp y0 y1 v0 v1

/-- C07: negation. -/
theorem C07_minus_valid (D : PertDomain X ι α) (m : Mode) (dc : Bool) (f : Full X ι κ α) (p : ι → α) (y : κ → α)
    (v : Valid m dc f p y) : Valid m dc (minusT D m f) p (fun k => - y k) :=
  valid_minus D m dc f p y v

/-- C07: subtraction. -/
theorem C07_subtract_valid (D : PertDomain X ι α) (m : Mode) (dc : Bool) (f0 f1 : Full X ι κ α) (S : Set (ι → α))
    (h0 : D.Sound f0.x S) (h1 : D.Sound f1.x S) (p : ι → α) (hp : p ∈ S) (y0 y1 : κ → α)
    (v0 : Valid m dc f0 p y0) (v1 : Valid m dc f1 p y1) :
    Valid m dc (subtractT D m f0 f1) p (fun k => y0 k - y1 k) := by
  simp only [sub_eq_add_neg]
  exact valid_add D m dc f0 _ S h0 (by simpa [minusT] using h1) p hp y0 _ v0 (valid_minus D m dc f1 p y1 v1)

/-- C07: in ibp mode the bounds of a sum, difference or negation are the exact interval sum, difference, negation. -/
theorem C07_ibp_exact (D : PertDomain X ι α) (f0 f1 : Full X ι κ α) (k : κ) :
    (addT D .ibp f0 f1).lc k = f0.lc k + f1.lc k ∧ (addT D .ibp f0 f1).uc k = f0.uc k + f1.uc k ∧
    (subtractT D .ibp f0 f1).lc k = f0.lc k - f1.uc k ∧ (subtractT D .ibp f0 f1).uc k = f0.uc k - f1.lc k ∧
    (minusT D .ibp f0).lc k = - f0.uc k ∧ (minusT D .ibp f0).uc k = - f0.lc k := by
  simp [addT, subtractT, minusT, Full.tighten, sub_eq_add_neg]

/-- C08: element-wise maximum, outside the sliver of the inner ReLU on `y1 - y0`.
Missing with respect to the full claim: neurons of the difference in the sliver (affine and hybrid modes). -/
theorem C08_maximum_valid_partial (D : PertDomain X ι α) (m : Mode) (dc : Bool) (eps : α) (he : 0 < eps)
    (gamma : κ → α) (hg : ∀ k, 0 ≤ gamma k ∧ gamma k ≤ 1) (f0 f1 : Full X ι κ α) (S : Set (ι → α))
    (h0 : D.Sound f0.x S) (h1 : D.Sound f1.x S) (hs : SliverFree D m eps (subtractT D m f1 f0))
    (p : ι → α) (hp : p ∈ S) (y0 y1 : κ → α) (v0 : Valid m dc f0 p y0) (v1 : Valid m dc f1 p y1) :
    Valid m dc (maximumT D m dc eps gamma f0 f1) p (fun k => max (y0 k) (y1 k)) := by
  have a := C07_subtract_valid D m dc f1 f0 S h1 h0 p hp y1 y0 v1 v0
  have hx : D.Sound (subtractT D m f1 f0).x S := by simpa [subtractT, addT] using h1
  have b := valid_relu D m dc eps he .vSlope gamma hg _ S hx hs p hp _ a
  have hx2 : D.Sound (reluT D m dc eps .vSlope gamma (subtractT D m f1 f0)).x S := by simpa [reluT] using hx
  have c := valid_add D m dc _ f0 S hx2 h0 p hp _ y0 b v0
  have e : (fun k => max (y0 k) (y1 k)) = fun k => relu (y1 k - y0 k) + y0 k := by
    funext k; unfold relu; rw [max_add]; simp [max_comm]
  rw [e]
  exact c

/-- C08: element-wise minimum, outside the sliver of the inner ReLU. Missing: as for the maximum. -/
theorem C08_minimum_valid_partial (D : PertDomain X ι α) (m : Mode) (dc : Bool) (eps : α) (he : 0 < eps)
    (gamma : κ → α) (hg : ∀ k, 0 ≤ gamma k ∧ gamma k ≤ 1) (f0 f1 : Full X ι κ α) (S : Set (ι → α))
    (h0 : D.Sound f0.x S) (h1 : D.Sound f1.x S)
    (hs : SliverFree D m eps (subtractT D m (minusT D m f1) (minusT D m f0)))
    (p : ι → α) (hp : p ∈ S) (y0 y1 : κ → α) (v0 : Valid m dc f0 p y0) (v1 : Valid m dc f1 p y1) :
    Valid m dc (minimumT D m dc eps gamma f0 f1) p (fun k => min (y0 k) (y1 k)) := by
  have a := C08_maximum_valid_partial D m dc eps he gamma hg (minusT D m f0) (minusT D m f1) S
    (by simpa [minusT] using h0) (by simpa [minusT] using h1) hs p hp _ _
    (valid_minus D m dc f0 p y0 v0) (valid_minus D m dc f1 p y1 v1)
  have b := valid_minus D m dc _ p _ a
  have e : (fun k => min (y0 k) (y1 k)) = fun k => - max (- y0 k) (- y1 k) := by
    funext k; rw [max_neg_neg, neg_neg]
  rw [e]; exact b

/-- C08: in ibp mode there is no restriction. -/
theorem C08_maximum_minimum_ibp (D : PertDomain X ι α) (dc : Bool) (eps : α) (he : 0 < eps)
    (gamma : κ → α) (hg : ∀ k, 0 ≤ gamma k ∧ gamma k ≤ 1) (f0 f1 : Full X ι κ α) (S : Set (ι → α))
    (h0 : D.Sound f0.x S) (h1 : D.Sound f1.x S)
    (p : ι → α) (hp : p ∈ S) (y0 y1 : κ → α) (v0 : Valid .ibp dc f0 p y0) (v1 : Valid .ibp dc f1 p y1) :
    Valid .ibp dc (maximumT D .ibp dc eps gamma f0 f1) p (fun k => max (y0 k) (y1 k)) ∧
    Valid .ibp dc (minimumT D .ibp dc eps gamma f0 f1) p (fun k => min (y0 k) (y1 k)) :=
  ⟨C08_maximum_valid_partial D .ibp dc eps he gamma hg f0 f1 S h0 h1 (by simp [SliverFree, getAffine]) p hp y0 y1 v0 v1,
    C08_minimum_valid_partial D .ibp dc eps he gamma hg f0 f1 S h0 h1 (by simp [SliverFree, getAffine]) p hp y0 y1 v0 v1⟩

end

/-- The full inputs of the network input itself on the box `[lo,hi]` of dimension 1: used as a concrete instance. -/
def oneInput (lo hi : ℚ) : Full ((Fin 1 → ℚ) × (Fin 1 → ℚ)) (Fin 1) (Fin 1) ℚ :=
  ⟨(fun _ => lo, fun _ => hi), fun _ => hi, fun _ _ => 1, fun _ => 0, fun _ => lo, fun _ _ => 1, fun _ => 0,
    fun _ => hi, fun _ => 0⟩

theorem oneInput_valid (m : Mode) (lo hi : ℚ) (p : Fin 1 → ℚ) (hp : p ∈ Box (fun _ : Fin 1 => lo) (fun _ => hi)) :
    Valid m false (oneInput lo hi) p p := by
  refine ⟨fun _ k => hp k, fun _ k => ?_, by simp⟩
  have : k = 0 := Subsingleton.elim _ _
  subst this
  simp [oneInput, affEval]

/-- Non-vacuity of C06 and C08: the identity on `[-1,1]`, hybrid mode, meets every hypothesis. -/
example : SliverFree boxDomain .hybrid (1 / 10000000) (oneInput (-1) 1) ∧
    (boxDomain : PertDomain _ (Fin 1) ℚ).Sound (oneInput (-1) 1).x (Box (fun _ => -1) (fun _ => 1)) ∧
    (∀ p ∈ Box (fun _ : Fin 1 => (-1 : ℚ)) (fun _ => 1), Valid .hybrid false (oneInput (-1) 1) p p) ∧
    SliverFree boxDomain .hybrid (1 / 10000000)
      (subtractT boxDomain .hybrid (oneInput (-1) 1) (minusT boxDomain .hybrid (oneInput (-1) 1))) := by
  refine ⟨fun _ k => ?_, boxDomain_sound _ _, fun p hp => oneInput_valid .hybrid _ _ p hp, fun _ k => ?_⟩
  · simp [Full.tighten, oneInput, boxDomain, getUpperBox, getLowerBox]; norm_num
  · simp [Full.tighten, oneInput, boxDomain, getUpperBox, getLowerBox, subtractT, minusT, addT]; norm_num

/-- C06: in the sliver the affine upper bound of `relu_` is really wrong: identity on `[-eps/4, eps/4]`, affine mode. -/
theorem C06_relu_affine_refuted (eps : ℚ) (he : 0 < eps) (s : Slope) :
    ∃ p ∈ Box (fun _ : Fin 1 => -(eps / 4)) (fun _ => eps / 4),
      Valid .affine false (oneInput (-(eps / 4)) (eps / 4)) p p ∧
      ¬ Valid .affine false (reluT boxDomain .affine false eps s (fun _ => 1) (oneInput (-(eps / 4)) (eps / 4))) p
        (fun k => max (p k) 0) := by
  have hp : (fun _ : Fin 1 => eps / 4) ∈ Box (fun _ : Fin 1 => -(eps / 4)) (fun _ => eps / 4) :=
    fun i => ⟨by linarith, le_rfl⟩
  refine ⟨fun _ => eps / 4, hp, oneInput_valid _ _ _ _ hp, fun v => ?_⟩
  have h := (v.aff rfl 0).2
  have hu : 0 < eps / 4 := by linarith
  have hl : -(eps / 4) < 0 := by linarith
  have hm : max eps (eps / 4 - -(eps / 4)) = eps := max_eq_left (by linarith)
  simp only [reluT, affEval, oneInput, getAffine, if_true, Full.tighten, boxDomain, getUpperBox, getLowerBox,
    linearHullRelu] at h
  simp [indexDead_of_pos hu, indexLinear_of_neg hl, relu_of_nonneg hu.le, relu_of_nonpos hl.le, hm] at h
  have : eps / 4 / eps = 1 / 4 := by field_simp
  rw [max_eq_left (by linarith : eps / 4 + eps / 4 ≤ eps), this] at h
  linarith

theorem oneInput_sound (lo hi : ℚ) : (boxDomain : PertDomain _ (Fin 1) ℚ).Sound (oneInput lo hi).x (Box (fun _ => lo) fun _ => hi) := boxDomain_sound _ _

/-- C06 on `x ∈ [-1, 1]`, in every mode. -/
example (m : Mode) (p : Fin 1 → ℚ) (hp : p ∈ Box (fun _ => -1) fun _ => 1) :
    Valid m false (reluT boxDomain m false (1 / 10000000) .vSlope (fun _ => 1) (oneInput (-1) 1)) p fun k => max (p k) 0 :=
  C06_relu_valid_partial boxDomain m false _ (by norm_num) .vSlope _ (by simp) _ _ (boxDomain_sound _ _)
    (by unfold SliverFree; cases m <;> decide +kernel) p hp p (oneInput_valid m _ _ p hp)

/-- C06 with constant bounds only, on an interval narrower than epsilon. -/
example (p : Fin 1 → ℚ) (hp : p ∈ Box (fun _ => -(1 / 100)) fun _ => 1 / 100) :
    Valid .ibp false (reluT boxDomain .ibp false (1 / 10) .vSlope (fun _ => 1) (oneInput (-(1 / 100)) (1 / 100))) p fun k => max (p k) 0 :=
  C06_relu_valid_ibp boxDomain false _ (by norm_num) .vSlope _ (by simp) _ _ (boxDomain_sound _ _) p hp p (oneInput_valid .ibp _ _ p hp)

/-- The constant bounds of relu on `[-1, 1]` are `[0, 1]`. -/
example : (reluT boxDomain .hybrid false (1 / 10000000) .vSlope (fun _ => 1) (oneInput (-1) 1)).lc 0 = 0 ∧
    (reluT boxDomain .hybrid false (1 / 10000000) .vSlope (fun _ => 1) (oneInput (-1) 1)).uc 0 ≤ max 1 0 :=
  ⟨by decide +kernel, (C06_relu_const_tight boxDomain .hybrid false (1 / 10000000) .vSlope (fun _ => 1) (oneInput (-1) 1) rfl 0 (by decide +kernel)).2.1⟩

/-- C07: `x + x`, `-x` and `x - (-x)` for `x ∈ [-1, 1]`, in every mode. -/
example (m : Mode) (p : Fin 1 → ℚ) (hp : p ∈ Box (fun _ => -1) fun _ => 1) :
    Valid m false (addT boxDomain m (oneInput (-1) 1) (oneInput (-1) 1)) p (fun k => p k + p k) ∧
    Valid m false (minusT boxDomain m (oneInput (-1) 1)) p (fun k => -p k) ∧
    Valid m false (subtractT boxDomain m (oneInput (-1) 1) (minusT boxDomain m (oneInput (-1) 1))) p fun k => p k - -p k :=
  have v := oneInput_valid m _ _ p hp
  have n := C07_minus_valid boxDomain m false _ p p v
  ⟨C07_add_valid boxDomain m false _ _ _ (oneInput_sound _ _) (oneInput_sound _ _) p hp p p v v, n,
    C07_subtract_valid boxDomain m false _ (minusT boxDomain m (oneInput (-1) 1)) _ (oneInput_sound _ _) (oneInput_sound _ _) p hp p _ v n⟩

/-- C07 with constant bounds: `[-1, 2] - [3, 5] = [-6, -1]`. -/
example : (subtractT boxDomain .ibp (oneInput (-1) 2) (oneInput 3 5)).lc 0 = -6 ∧ (subtractT boxDomain .ibp (oneInput (-1) 2) (oneInput 3 5)).uc 0 = -1 := by
  have h := C07_ibp_exact boxDomain (oneInput (-1) 2) (oneInput 3 5) 0
  exact ⟨h.2.2.1.trans (by decide +kernel), h.2.2.2.1.trans (by decide +kernel)⟩

/-- C08: the maximum and the minimum of `x` and `-x` on `[-1, 1]`, in every mode. -/
example (m : Mode) (p : Fin 1 → ℚ) (hp : p ∈ Box (fun _ => -1) fun _ => 1) :
    Valid m false (maximumT boxDomain m false (1 / 10000000) (fun _ => 1) (oneInput (-1) 1) (minusT boxDomain m (oneInput (-1) 1))) p
      (fun k => max (p k) (-p k)) ∧
    Valid m false (minimumT boxDomain m false (1 / 10000000) (fun _ => 1) (oneInput (-1) 1) (minusT boxDomain m (oneInput (-1) 1))) p
      fun k => min (p k) (-p k) :=
  have v := oneInput_valid m _ _ p hp
  have n := C07_minus_valid boxDomain m false _ p p v
  ⟨C08_maximum_valid_partial boxDomain m false _ (by norm_num) _ (by simp) _ (minusT boxDomain m (oneInput (-1) 1)) _ (oneInput_sound _ _) (oneInput_sound _ _)
      (by unfold SliverFree; cases m <;> decide +kernel) p hp p _ v n,
    C08_minimum_valid_partial boxDomain m false _ (by norm_num) _ (by simp) _ (minusT boxDomain m (oneInput (-1) 1)) _ (oneInput_sound _ _) (oneInput_sound _ _)
      (by unfold SliverFree; cases m <;> decide +kernel) p hp p _ v n⟩

/-- C08 with constant bounds only needs no width. -/
example (p : Fin 1 → ℚ) (hp : p ∈ Box (fun _ => -(1 / 100)) fun _ => 1 / 100) :
    Valid .ibp false (maximumT boxDomain .ibp false (1 / 10) (fun _ => 1) (oneInput (-(1 / 100)) (1 / 100))
      (minusT boxDomain .ibp (oneInput (-(1 / 100)) (1 / 100)))) p fun k => max (p k) (-p k) :=
  have v := oneInput_valid .ibp _ _ p hp
  (C08_maximum_minimum_ibp boxDomain false _ (by norm_num) _ (by simp) _ (minusT boxDomain .ibp (oneInput (-(1 / 100)) (1 / 100))) _ (oneInput_sound _ _)
    (oneInput_sound _ _) p hp p _ v
    (C07_minus_valid boxDomain .ibp false _ p p v)).1

end Decomon
