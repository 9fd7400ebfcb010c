import Verif.Model.Activations
import Verif.Lemmas.Pooling
import Mathlib.Analysis.Calculus.Deriv.MeanValue
import Mathlib.Analysis.Calculus.LocalExtr.Basic

/-! Helper lemmas for S-shape functions. -/

namespace Decomon

open Set Filter Topology

/-- S-shape: increasing, strictly convex on the left of 0 and strictly concave on the right, with derivative `f'`. -/
structure SShaped (f f' : ℝ → ℝ) : Prop where
  deriv : ∀ x, HasDerivAt f (f' x) x
  pos : ∀ x, 0 < f' x
  mono : StrictMonoOn f' (Iic 0)
  anti : StrictAntiOn f' (Ici 0)

namespace SShaped
variable {f f' : ℝ → ℝ} (S : SShaped f f')
include S

theorem mvt {a b : ℝ} (h : a < b) : ∃ c ∈ Ioo a b, f b - f a = f' c * (b - a) := by
  obtain ⟨c, hc, e⟩ := exists_hasDerivAt_eq_slope f f' h (fun x _ => (S.deriv x).continuousAt.continuousWithinAt)
    (fun x _ => S.deriv x)
  refine ⟨c, hc, ?_⟩
  rw [e, div_mul_cancel₀]
  linarith

theorem strictMono : StrictMono f := by
  intro a b h
  obtain ⟨c, -, e⟩ := S.mvt h
  have := mul_pos (S.pos c) (sub_pos.mpr h)
  linarith

theorem convex_left {a b : ℝ} (h : a < b) (hb : b ≤ 0) :
    f' a * (b - a) < f b - f a ∧ f b - f a < f' b * (b - a) := by
  obtain ⟨c, hc, e⟩ := S.mvt h
  rw [e]
  have h1 := S.mono (mem_Iic.mpr (by linarith)) (mem_Iic.mpr (by linarith [hc.2])) hc.1
  have h2 := S.mono (mem_Iic.mpr (by linarith [hc.2])) (mem_Iic.mpr hb) hc.2
  constructor <;> exact mul_lt_mul_of_pos_right (by assumption) (by linarith)

theorem concave_right {a b : ℝ} (h : a < b) (ha : 0 ≤ a) :
    f' b * (b - a) < f b - f a ∧ f b - f a < f' a * (b - a) := by
  obtain ⟨c, hc, e⟩ := S.mvt h
  rw [e]
  have h1 := S.anti (mem_Ici.mpr ha) (mem_Ici.mpr (by linarith [hc.1])) hc.1
  have h2 := S.anti (mem_Ici.mpr (by linarith [hc.1])) (mem_Ici.mpr (by linarith)) hc.2
  constructor <;> exact mul_lt_mul_of_pos_right (by assumption) (by linarith)

theorem mirror : SShaped (fun x => - f (- x)) (fun x => f' (- x)) where
  deriv x := by
    have := ((S.deriv (-x)).comp x (hasDerivAt_neg x)).neg
    refine HasDerivAt.congr_deriv (f := fun x => - f (- x)) this ?_
    ring
  pos x := S.pos _
  mono a ha b hb h := S.anti (mem_Ici.mpr (by simpa using hb)) (mem_Ici.mpr (by simpa using ha)) (by linarith)
  anti a ha b hb h := S.mono (mem_Iic.mpr (by simpa using hb)) (mem_Iic.mpr (by simpa using ha)) (by linarith)

/-- The secant is above the function when its slope is at most the slope at the right end. -/
theorem secant_upper {l u c z : ℝ} (h1 : l ≤ z) (h2 : z ≤ u) (hc : f u - f l = c * (u - l)) (hcu : c ≤ f' u) :
    f z ≤ c * (z - l) + f l := by
  have right : ∀ z, 0 ≤ z → z ≤ u → f z ≤ c * (z - l) + f l := by
    intro z hz hzu
    rcases hzu.lt_or_eq with h | h
    · have := (S.concave_right h hz).1
      nlinarith [mul_le_mul_of_nonneg_right hcu (sub_nonneg.mpr h.le)]
    · rw [h]; linarith
  rcases le_or_gt 0 z with hz | hz
  · exact right z hz h2
  rcases h1.lt_or_eq with h1 | h1
  swap
  · rw [h1]; linarith
  have h0 : f (min u 0) ≤ c * (min u 0 - l) + f l := by
    rcases le_total u 0 with h | h
    · rw [min_eq_left h]; linarith
    · rw [min_eq_right h]; exact right 0 le_rfl h
  have hzm : z ≤ min u 0 := le_min h2 hz.le
  rcases hzm.lt_or_eq with hzm | hzm
  swap
  · rw [← hzm] at h0; exact h0
  have a := (S.convex_left h1 hz.le).2
  have b := (S.convex_left hzm (min_le_right _ _)).1
  set v := min u 0
  have hb : 0 < v - z := by linarith
  have ha : 0 < z - l := by linarith
  have e1 : (f z - f l) * (v - z) ≤ f' z * (z - l) * (v - z) := mul_le_mul_of_nonneg_right a.le hb.le
  have e2 : f' z * (v - z) * (z - l) ≤ (f v - f z) * (z - l) := mul_le_mul_of_nonneg_right b.le ha.le
  have e3 : f v * (z - l) ≤ (c * (v - l) + f l) * (z - l) := mul_le_mul_of_nonneg_right h0 ha.le
  have e4 : f z * (v - l) ≤ (c * (z - l) + f l) * (v - l) := by nlinarith
  exact le_of_mul_le_mul_right e4 (by linarith)

/-- The secant is below the function when its slope is at most the slope at the left end. -/
theorem secant_lower {l u c z : ℝ} (h1 : l ≤ z) (h2 : z ≤ u) (hc : f u - f l = c * (u - l)) (hcl : c ≤ f' l) :
    c * (z - u) + f u ≤ f z := by
  have := S.mirror.secant_upper (l := -u) (u := -l) (c := c) (z := -z) (by linarith) (by linarith)
    (by simp only [neg_neg]; linarith) (by simpa using hcl)
  simp only [neg_neg] at this
  linarith

theorem tangent_unique {l t1 t2 : ℝ} (hl : l < 0) (h0 : 0 ≤ t1) (h : t1 < t2) (e1 : f' t1 * (t1 - l) = f t1 - f l)
    (e2 : f' t2 * (t2 - l) = f t2 - f l) : False := by
  have a := (S.concave_right h h0).1
  have b := S.anti (mem_Ici.mpr h0) (mem_Ici.mpr (by linarith)) h
  nlinarith [mul_lt_mul_of_pos_right b (show 0 < t1 - l by linarith)]

theorem tangent_zero {l : ℝ} (hl : l < 0) : f' 0 * (0 - l) ≠ f 0 - f l :=
  ((S.convex_left hl le_rfl).2).ne'

/-- A line through `(l, f l)` with slope at most that of the chord to `t`, where the chord is not tangent, crosses the
function. -/
theorem crosses {l u t w : ℝ} (hl : l < 0) (ht0 : 0 ≤ t) (htu : t ≤ u) (hu : 0 < u)
    (hne : f' t * (t - l) ≠ f t - f l) (hend : t = u → f' t * (t - l) < f t - f l) (hw : w * (t - l) ≤ f t - f l) :
    ∃ z, l ≤ z ∧ z ≤ u ∧ w * (z - l) + f l < f z := by
  have htl : 0 < t - l := by linarith
  set c := (f t - f l) / (t - l) with hc
  have hct : c * (t - l) = f t - f l := by rw [hc, div_mul_cancel₀ _ htl.ne']
  have hwc : w ≤ c := le_of_mul_le_mul_right (by rw [hct]; exact hw) htl
  suffices h : ∃ z, l ≤ z ∧ z ≤ u ∧ c * (z - l) + f l < f z by
    obtain ⟨z, h1, h2, h3⟩ := h
    exact ⟨z, h1, h2, by nlinarith [mul_le_mul_of_nonneg_right hwc (sub_nonneg.mpr h1)]⟩
  by_contra hcon
  push Not at hcon
  have hne' : f' t ≠ c := by
    intro he; rw [he] at hne; exact hne hct
  have hd : HasDerivAt (fun z => f z - c * z) (f' t - c) t := by
    refine HasDerivAt.congr_deriv (f := fun z => f z - c * z) ((S.deriv t).sub ((hasDerivAt_id t).const_mul c)) ?_
    ring
  rcases htu.lt_or_eq with h | h
  · have hm : IsLocalMax (fun z => f z - c * z) t := by
      have : Ioo l u ∈ 𝓝 t := Ioo_mem_nhds (by linarith) h
      filter_upwards [this] with z hz
      have := hcon z hz.1.le hz.2.le
      linarith
    have := hm.hasDerivAt_eq_zero hd
    exact hne' (by linarith)
  · have hlt : f' t - c < 0 := by
      have := hend h
      rw [← hct] at this
      have := lt_of_mul_lt_mul_right this htl.le
      linarith
    have he := (hasDerivAt_iff_tendsto_slope.mp hd).eventually (gt_mem_nhds hlt)
    have he2 : ∀ᶠ z in 𝓝[<] t, slope (fun z => f z - c * z) t z < 0 :=
      he.filter_mono (nhdsWithin_mono _ fun z hz => ne_of_lt hz)
    have he3 : ∀ᶠ z in 𝓝[<] t, z ∈ Ioo l t := Ioo_mem_nhdsLT (by linarith)
    obtain ⟨z, hz1, hz2⟩ := (he2.and he3).exists
    rw [slope_def_field] at hz1
    have hneg : z - t < 0 := by linarith [hz2.2]
    have := hcon z hz2.1.le (by linarith [hz2.2])
    have h4 : 0 < (f z - c * z) - (f t - c * t) := by
      by_contra hc'
      rw [not_lt] at hc'
      exact absurd hz1 (not_lt.mpr (div_nonneg_of_nonpos hc' hneg.le))
    linarith

end SShaped

/-! ### The search over the grid -/

theorem tValue_lt {k : ℕ} (h : k < 100) (c : ℝ) : tValue k c = (k : ℝ) / 99 * c := by
  unfold tValue linspace01
  rw [Finset.sum_eq_single k]
  · simp
  · intro b _ hb; simp [hb]
  · intro hk; exact absurd (Finset.mem_range.mpr h) hk

theorem tValue_ge {k : ℕ} (h : 100 ≤ k) (c : ℝ) : tValue k c = 0 := by
  unfold tValue
  refine Finset.sum_eq_zero fun b hb => ?_
  have : b ≠ k := by have := Finset.mem_range.mp hb; omega
  simp [this]

theorem argminList_get {α : Type*} [Field α] [LinearOrder α] (l : List α) (h : l ≠ []) :
    ∃ hk : argminList l < l.length, l[argminList l] = l.foldl min (l.headD 0) := by
  have hk : argminList l < l.length := by
    unfold argminList
    rw [List.idxOf_lt_length_iff]
    obtain ⟨a, t, rfl⟩ := List.exists_cons_of_ne_nil h
    rcases (foldl_min_spec (a :: t) a).1 with h | h
    · simp only [List.headD_cons]; rw [h]; simp
    · exact h
  refine ⟨hk, ?_⟩
  unfold argminList
  exact List.getElem_idxOf _

namespace SShaped
variable {f f' : ℝ → ℝ} (S : SShaped f f')
include S

theorem score_eq_zero {u l : ℝ} (hl : l < 0) (hu : 0 < u) {k : ℕ} (hk : k < 100) :
    (tUpperScores f f' u l)[k]'(by simpa [tUpperScores] using hk) = 0 ↔
      f' ((k : ℝ) / 99 * u) * ((k : ℝ) / 99 * u - l) = f ((k : ℝ) / 99 * u) - f l := by
  have : 0 ≤ (k : ℝ) / 99 * u := by positivity
  simp only [tUpperScores, List.getElem_map, List.getElem_range, linspace01, abs_eq_zero, sub_eq_zero]
  rw [eq_div_iff]
  linarith

/-- Whatever neighbour is taken when the best score is zero, the chosen point is not a tangent point. -/
theorem chosen_not_tangent {u l : ℝ} (hl : l < 0) (hu : 0 < u) (j : ℕ)
    (hj : (0 < (tUpperScores f f' u l).foldl min ((tUpperScores f f' u l).headD 0) ∧ j = argminList (tUpperScores f f' u l)) ∨
      (¬ 0 < (tUpperScores f f' u l).foldl min ((tUpperScores f f' u l).headD 0) ∧
        (j = argminList (tUpperScores f f' u l) - 1 ∨ j = argminList (tUpperScores f f' u l) + 1))) :
    0 ≤ tValue j u ∧ tValue j u ≤ u ∧ f' (tValue j u) * (tValue j u - l) ≠ f (tValue j u) - f l := by
  set sc := tUpperScores f f' u l with hsc
  have hlen : sc.length = 100 := by simp [hsc, tUpperScores]
  have hne : sc ≠ [] := by intro h; rw [h] at hlen; simp at hlen
  obtain ⟨hk, hget⟩ := argminList_get sc hne
  rw [hlen] at hk
  have hrange : ∀ k : ℕ, k < 100 → 0 ≤ (k : ℝ) / 99 * u ∧ (k : ℝ) / 99 * u ≤ u := by
    intro k hk
    refine ⟨by positivity, ?_⟩
    have : (k : ℝ) / 99 ≤ 1 := by
      rw [div_le_one (by norm_num)]
      exact_mod_cast (by omega : k ≤ 99)
    nlinarith
  have hnn : ∀ k, (hk : k < sc.length) → 0 ≤ sc[k] := by
    intro k hk
    simp only [hsc, tUpperScores, List.getElem_map]
    exact abs_nonneg _
  have ezero : 0 ≤ tValue 100 u ∧ tValue 100 u ≤ u ∧ f' (tValue 100 u) * (tValue 100 u - l) ≠ f (tValue 100 u) - f l := by
    rw [tValue_ge le_rfl]
    exact ⟨le_rfl, hu.le, S.tangent_zero hl⟩
  rcases hj with ⟨hpos, rfl⟩ | ⟨hnp, hj⟩
  · rw [tValue_lt hk]
    refine ⟨(hrange _ hk).1, (hrange _ hk).2, fun he => ?_⟩
    have := (S.score_eq_zero hl hu hk).mpr he
    rw [← hget] at hpos
    exact hpos.ne' this
  · have hz : sc[argminList sc]'(by omega) = 0 := le_antisymm (by rw [hget]; exact not_lt.mp hnp) (hnn _ _)
    have htan := (S.score_eq_zero hl hu hk).mp hz
    by_cases h100 : j < 100
    · rw [tValue_lt h100]
      refine ⟨(hrange _ h100).1, (hrange _ h100).2, fun he => ?_⟩
      have hne : j ≠ argminList sc ∨ (j = 0 ∧ argminList sc = 0) := by omega
      rcases hne with hne | ⟨h0, h1⟩
      · rcases lt_or_gt_of_ne hne with h | h
        · refine S.tangent_unique hl (hrange _ h100).1 ?_ he htan
          have : (j : ℝ) < argminList sc := by exact_mod_cast h
          have h99 : (j : ℝ) / 99 < argminList sc / 99 := by gcongr
          exact mul_lt_mul_of_pos_right h99 hu
        · refine S.tangent_unique hl (hrange _ hk).1 ?_ htan he
          have : (argminList sc : ℝ) < j := by exact_mod_cast h
          have h99 : (argminList sc : ℝ) / 99 < j / 99 := by gcongr
          exact mul_lt_mul_of_pos_right h99 hu
      · rw [h0] at he
        simp only [Nat.cast_zero, zero_div, zero_mul] at he
        exact S.tangent_zero hl he
    · have : tValue j u = tValue 100 u := by rw [tValue_ge (by omega), tValue_ge le_rfl]
      rw [this]; exact ezero

/-- Any choice made by the grid search gives a line that crosses the function. -/
theorem grid_crosses {u l eps : ℝ} (hl : l < 0) (hu : 0 < u) (he : 0 < eps)
    (hc : f' u < (f u - f l) / max eps (u - l)) (j : ℕ)
    (hj : (0 < (tUpperScores f f' u l).foldl min ((tUpperScores f f' u l).headD 0) ∧ j = argminList (tUpperScores f f' u l)) ∨
      (¬ 0 < (tUpperScores f f' u l).foldl min ((tUpperScores f f' u l).headD 0) ∧
        (j = argminList (tUpperScores f f' u l) - 1 ∨ j = argminList (tUpperScores f f' u l) + 1))) :
    ∃ z, l ≤ z ∧ z ≤ u ∧
      (f (tValue j u) - f l) / max eps (tValue j u - l) * (z - l) + f l < f z := by
  obtain ⟨h0, h1, h2⟩ := S.chosen_not_tangent hl hu j hj
  have key : ∀ t, 0 ≤ t → (f t - f l) / max eps (t - l) * (t - l) ≤ f t - f l := by
    intro t ht
    have hp : 0 < max eps (t - l) := lt_max_of_lt_left he
    have hf : 0 ≤ f t - f l := by have := S.strictMono.monotone (show l ≤ t by linarith); linarith
    rw [div_mul_eq_mul_div, div_le_iff₀ hp]
    exact mul_le_mul_of_nonneg_left (le_max_right _ _) hf
  refine S.crosses hl h0 h1 hu h2 ?_ (key _ h0)
  intro htu
  rw [htu]
  have hp : 0 < u - l := by linarith
  have := mul_lt_mul_of_pos_right hc hp
  linarith [key u hu.le]

end SShaped

theorem tUpperIndex_cases (f f' : ℝ → ℝ) (u l : ℝ) :
    (0 < (tUpperScores f f' u l).foldl min ((tUpperScores f f' u l).headD 0) ∧
      tUpperIndex f f' u l = argminList (tUpperScores f f' u l)) ∨
      (¬ 0 < (tUpperScores f f' u l).foldl min ((tUpperScores f f' u l).headD 0) ∧
        (tUpperIndex f f' u l = argminList (tUpperScores f f' u l) - 1 ∨
          tUpperIndex f f' u l = argminList (tUpperScores f f' u l) + 1)) := by
  unfold tUpperIndex
  simp only [zero_mul]
  split
  · exact Or.inl ⟨by assumption, rfl⟩
  · exact Or.inr ⟨by assumption, Or.inl rfl⟩

theorem tLowerScores_mirror (f f' : ℝ → ℝ) (u l : ℝ) :
    tLowerScores f f' u l = tUpperScores (fun x => - f (- x)) (fun x => f' (- x)) (-l) (-u) := by
  unfold tLowerScores tUpperScores
  refine List.map_congr_left fun k _ => ?_
  simp only [mul_neg, neg_neg]
  congr 2
  congr 1 <;> ring

theorem tLowerIndex_cases (f f' : ℝ → ℝ) (u l : ℝ) :
    let sc := tUpperScores (fun x => - f (- x)) (fun x => f' (- x)) (-l) (-u)
    (0 < sc.foldl min (sc.headD 0) ∧ tLowerIndex f f' u l = argminList sc) ∨
      (¬ 0 < sc.foldl min (sc.headD 0) ∧
        (tLowerIndex f f' u l = argminList sc - 1 ∨ tLowerIndex f f' u l = argminList sc + 1)) := by
  unfold tLowerIndex
  rw [tLowerScores_mirror]
  simp only [zero_mul]
  split
  · exact Or.inl ⟨by assumption, rfl⟩
  · exact Or.inr ⟨by assumption, Or.inr rfl⟩

theorem tValue_neg (j : ℕ) (c : ℝ) : tValue j (-c) = - tValue j c := by
  by_cases h : j < 100
  · rw [tValue_lt h, tValue_lt h]; ring
  · rw [tValue_ge (by omega), tValue_ge (by omega), neg_zero]

/-! ### Instances -/

theorem sshaped_sigmoid : SShaped Real.sigmoid sigmoidPrime where
  deriv x := Real.hasDerivAt_sigmoid x
  pos x := mul_pos (Real.sigmoid_pos x) (sub_pos.mpr (Real.sigmoid_lt_one x))
  mono a ha b hb h := by
    have h1 := Real.sigmoid_lt h
    have h2 : Real.sigmoid b ≤ 2⁻¹ := by rw [← Real.sigmoid_zero]; exact Real.sigmoid_le hb
    unfold sigmoidPrime
    nlinarith [Real.sigmoid_pos a]
  anti a ha b hb h := by
    have h1 := Real.sigmoid_lt h
    have h2 : 2⁻¹ ≤ Real.sigmoid a := by rw [← Real.sigmoid_zero]; exact Real.sigmoid_le ha
    unfold sigmoidPrime
    nlinarith [Real.sigmoid_pos a]

theorem hasDerivAt_tanh (x : ℝ) : HasDerivAt Real.tanh (tanhPrime x) x := by
  have h := (Real.hasDerivAt_sinh x).div (Real.hasDerivAt_cosh x) (Real.cosh_pos x).ne'
  have e : Real.tanh = fun x => Real.sinh x / Real.cosh x := by funext y; exact Real.tanh_eq_sinh_div_cosh y
  rw [e]
  refine h.congr_deriv ?_
  unfold tanhPrime
  rw [Real.tanh_eq_sinh_div_cosh]
  have := (Real.cosh_pos x).ne'
  field_simp

theorem tanh_strictMono : StrictMono Real.tanh := by
  apply strictMono_of_hasDerivAt_pos hasDerivAt_tanh
  intro x
  unfold tanhPrime
  linarith [Real.tanh_sq_lt_one x]

theorem sshaped_tanh : SShaped Real.tanh tanhPrime where
  deriv := hasDerivAt_tanh
  pos x := by unfold tanhPrime; linarith [Real.tanh_sq_lt_one x]
  mono a ha b hb h := by
    have h1 := tanh_strictMono h
    have h2 : Real.tanh b ≤ 0 := by rw [← Real.tanh_zero]; exact tanh_strictMono.monotone hb
    unfold tanhPrime
    nlinarith
  anti a ha b hb h := by
    have h1 := tanh_strictMono h
    have h2 : 0 ≤ Real.tanh a := by rw [← Real.tanh_zero]; exact tanh_strictMono.monotone ha
    unfold tanhPrime
    nlinarith

theorem hasDerivAt_softsign (x : ℝ) : HasDerivAt softsign (softsignPrime x) x := by
  rcases lt_trichotomy x 0 with h | h | h
  · have : (softsign : ℝ → ℝ) =ᶠ[𝓝 x] fun y => y / (1 - y) := by
      filter_upwards [Iio_mem_nhds h] with y hy
      unfold softsign; rw [abs_of_neg hy]; ring
    refine HasDerivAt.congr_of_eventuallyEq ?_ this
    have hne : 1 - x ≠ 0 := by linarith
    have := (hasDerivAt_id x).div ((hasDerivAt_id x).const_sub 1) hne
    refine this.congr_deriv ?_
    unfold softsignPrime; rw [abs_of_neg h]
    simp only [id]
    rw [div_eq_div_iff (by positivity) (by rw [← sub_eq_add_neg]; positivity)]
    ring
  · subst h
    rw [hasDerivAt_iff_tendsto_slope]
    have e : ∀ᶠ y : ℝ in 𝓝[≠] (0 : ℝ), slope (softsign : ℝ → ℝ) (0 : ℝ) y = 1 / (1 + |y|) := by
      filter_upwards [self_mem_nhdsWithin] with y hy
      rw [slope_def_field]
      have hy' : y ≠ 0 := hy
      have : 1 + |y| ≠ 0 := by positivity
      unfold softsign
      simp only [zero_div, sub_zero]
      field_simp
    refine Tendsto.congr' (EventuallyEq.symm e) ?_
    have hc : ContinuousAt (fun y : ℝ => 1 / (1 + |y|)) 0 := by
      refine ContinuousAt.div continuousAt_const (by fun_prop) (by simp)
    have := hc.tendsto
    simp only [softsignPrime, abs_zero, add_zero, one_pow] at this ⊢
    exact this.mono_left nhdsWithin_le_nhds
  · have : (softsign : ℝ → ℝ) =ᶠ[𝓝 x] fun y => y / (1 + y) := by
      filter_upwards [Ioi_mem_nhds h] with y hy
      unfold softsign; rw [abs_of_pos hy]
    refine HasDerivAt.congr_of_eventuallyEq ?_ this
    have hne : 1 + x ≠ 0 := by linarith
    have := (hasDerivAt_id x).div ((hasDerivAt_id x).const_add 1) hne
    refine this.congr_deriv ?_
    unfold softsignPrime; rw [abs_of_pos h]
    simp only [id]
    congr 1
    ring

theorem sshaped_softsign : SShaped (softsign : ℝ → ℝ) softsignPrime where
  deriv := hasDerivAt_softsign
  pos x := by unfold softsignPrime; positivity
  mono a ha b hb h := by
    unfold softsignPrime
    rw [abs_of_nonpos ha, abs_of_nonpos hb]
    have : 0 < 1 + -b := by have : b ≤ 0 := hb; linarith
    gcongr
  anti a ha b hb h := by
    unfold softsignPrime
    rw [abs_of_nonneg (show (0 : ℝ) ≤ a from ha), abs_of_nonneg (show (0 : ℝ) ≤ b from hb)]
    have : 0 < 1 + a := by have : 0 ≤ a := ha; linarith
    gcongr

end Decomon
