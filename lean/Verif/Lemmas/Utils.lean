import Verif.Model.Utils
import Verif.Lemmas.Core
import Verif.Props.Core

/-! Helper lemmas for relu hull and elementwise operations. -/

namespace Decomon

section
variable {α : Type*} [Field α] [LinearOrder α] [IsStrictOrderedRing α]

theorem ksign_pos {x : α} (h : 0 < x) : ksign x = 1 := by simp [ksign, not_lt.mpr h.le, h.ne']
theorem ksign_neg {x : α} (h : x < 0) : ksign x = -1 := by simp [ksign, h]
theorem ksign_zero : ksign (0 : α) = 0 := by simp [ksign]

theorem indexDead_of_nonpos {u : α} (h : u ≤ 0) : indexDead u = 1 := by
  rcases h.lt_or_eq with h | h
  · simp only [indexDead, ksign_neg h, kclip]; norm_num
  · subst h; simp [indexDead, ksign_zero, kclip]

theorem indexDead_of_pos {u : α} (h : 0 < u) : indexDead u = 0 := by
  simp [indexDead, ksign_pos h, kclip]

theorem indexLinear_of_nonneg {l : α} (h : 0 ≤ l) : indexLinear l = 1 := by
  rcases h.lt_or_eq with h | h
  · simp only [indexLinear, ksign_pos h, kclip]; norm_num
  · subst h; simp [indexLinear, ksign_zero, kclip]

theorem indexLinear_of_neg {l : α} (h : l < 0) : indexLinear l = 0 := by
  simp [indexLinear, ksign_neg h, kclip]

theorem relu_of_nonneg {x : α} (h : 0 ≤ x) : relu x = x := max_eq_left h
theorem relu_of_nonpos {x : α} (h : x ≤ 0) : relu x = 0 := max_eq_right h
theorem relu_mono {x y : α} (h : x ≤ y) : relu x ≤ relu y := max_le_max h le_rfl

theorem clip01_mem (x : α) : 0 ≤ kclip x 0 1 ∧ kclip x 0 1 ≤ 1 := by
  unfold kclip
  exact ⟨le_min (le_max_right _ _) zero_le_one, min_le_right _ _⟩

theorem indexDead_mem (u : α) : indexDead u = 0 ∨ indexDead u = 1 := by
  rcases le_or_gt u 0 with h | h
  · right; exact indexDead_of_nonpos h
  · left; exact indexDead_of_pos h

theorem alpha_mem {eps u l : α} (he : 0 < eps) (h : l ≤ u) :
    0 ≤ (relu u - relu l) / max eps (u - l) ∧ (relu u - relu l) / max eps (u - l) ≤ 1 := by
  have hm : 0 < max eps (u - l) := lt_max_of_lt_left he
  constructor
  · apply div_nonneg _ hm.le
    have := relu_mono h
    linarith
  · rw [div_le_one hm]
    refine le_trans ?_ (le_max_right _ _)
    unfold relu
    rcases le_total u 0 with h1 | h1 <;> rcases le_total l 0 with h2 | h2 <;> simp [h1, h2] <;> linarith

/-- The pre-mix lower slope is in `[0,1]`. -/
theorem mix01 {g w : α} (hg0 : 0 ≤ g) (hg1 : g ≤ 1) (hw0 : 0 ≤ w) (hw1 : w ≤ 1) :
    0 ≤ g * w + (1 - g) * (1 - w) ∧ g * w + (1 - g) * (1 - w) ≤ 1 := by
  constructor <;> nlinarith [mul_nonneg hg0 hw0, mul_nonneg (sub_nonneg.mpr hg1) (sub_nonneg.mpr hw1),
    mul_nonneg hg0 (sub_nonneg.mpr hw1), mul_nonneg (sub_nonneg.mpr hg1) hw0]

/-- Shape of the hull in the three regimes. -/
theorem hullRelu_dead {eps g u l : α} (s : Slope) (hu : u ≤ 0) (hl : l < 0) :
    linearHullRelu eps s g u l = ⟨0, 0, 0, 0⟩ := by
  simp [linearHullRelu, indexDead_of_nonpos hu, indexLinear_of_neg hl]

theorem hullRelu_linear {eps g u l : α} (s : Slope) (hl : 0 ≤ l) :
    linearHullRelu eps s g u l = ⟨1, 0, 1, 0⟩ := by
  simp [linearHullRelu, indexLinear_of_nonneg hl]

theorem hullRelu_active {eps g u l : α} (s : Slope) (he : 0 < eps) (hg0 : 0 ≤ g) (hg1 : g ≤ 1)
    (hu : 0 < u) (hl : l < 0) :
    (linearHullRelu eps s g u l).wu = u / max eps (u - l) ∧
    (linearHullRelu eps s g u l).bu = - (u / max eps (u - l)) * l ∧
    0 ≤ (linearHullRelu eps s g u l).wl ∧ (linearHullRelu eps s g u l).wl ≤ 1 ∧
    (linearHullRelu eps s g u l).bl = 0 := by
  have hlu : l ≤ u := (hl.trans hu).le
  have ha := alpha_mem he hlu
  have hru : relu u = u := relu_of_nonneg hu.le
  have hrl : relu l = 0 := relu_of_nonpos hl.le
  have e1 : (linearHullRelu eps s g u l).wu = u / max eps (u - l) := by
    simp [linearHullRelu, indexDead_of_pos hu, indexLinear_of_neg hl, hru, hrl]
  have e2 : (linearHullRelu eps s g u l).bu = - (u / max eps (u - l)) * l := by
    simp [linearHullRelu, indexDead_of_pos hu, indexLinear_of_neg hl, hru, hrl]
  have e3 : (linearHullRelu eps s g u l).bl = 0 := by
    simp [linearHullRelu]
  refine ⟨e1, e2, ?_⟩
  rw [e3]
  rw [hru, hrl, sub_zero] at ha
  suffices h : 0 ≤ (linearHullRelu eps s g u l).wl ∧ (linearHullRelu eps s g u l).wl ≤ 1 from ⟨h.1, h.2, rfl⟩
  cases s
  · simp only [linearHullRelu, indexDead_of_pos hu, indexLinear_of_neg hl, sub_zero, one_mul, add_zero]
    have : ∀ x : α, 0 ≤ 1 - - kclip (ksign x - 1) (-1) 0 ∧ 1 - - kclip (ksign x - 1) (-1) 0 ≤ 1 := by
      intro x; have := indexDead_mem x; unfold indexDead at this
      rcases this with h | h <;> rw [h] <;> norm_num
    exact mix01 hg0 hg1 (this _).1 (this _).2
  · simp only [linearHullRelu, indexDead_of_pos hu, indexLinear_of_neg hl, sub_zero, one_mul, add_zero]
    exact mix01 hg0 hg1 (clip01_mem _).1 (clip01_mem _).2
  · simp only [linearHullRelu, indexDead_of_pos hu, indexLinear_of_neg hl, sub_zero, one_mul, add_zero, hru, hrl]
    exact mix01 hg0 hg1 ha.1 ha.2
  · simp only [linearHullRelu, indexDead_of_pos hu, indexLinear_of_neg hl, sub_zero, one_mul, add_zero, zero_mul]
    simpa using mix01 hg0 hg1 (le_refl (0 : α)) zero_le_one
  · simp only [linearHullRelu, indexDead_of_pos hu, indexLinear_of_neg hl, sub_zero, one_mul, add_zero, zero_mul,
      zero_add]
    exact mix01 hg0 hg1 zero_le_one le_rfl

/-- The weights of the ReLU hull are non-negative (needed to compose with affine bounds). -/
theorem hullRelu_nonneg {eps g u l : α} (s : Slope) (he : 0 < eps) (hg0 : 0 ≤ g) (hg1 : g ≤ 1) (h : l ≤ u) :
    0 ≤ (linearHullRelu eps s g u l).wu ∧ 0 ≤ (linearHullRelu eps s g u l).wl := by
  rcases le_or_gt 0 l with hl | hl
  · rw [hullRelu_linear s hl]; simp
  · rcases le_or_gt u 0 with hu | hu
    · rw [hullRelu_dead s hu hl]; simp
    · obtain ⟨h1, -, h3, -, -⟩ := hullRelu_active s he hg0 hg1 hu hl
      exact ⟨by rw [h1]; exact div_nonneg hu.le (lt_max_of_lt_left he).le, h3⟩

theorem hullRelu_lower {eps g u l z : α} (s : Slope) (he : 0 < eps) (hg0 : 0 ≤ g) (hg1 : g ≤ 1) (h1 : l ≤ z) (h2 : z ≤ u) :
    (linearHullRelu eps s g u l).wl * z + (linearHullRelu eps s g u l).bl ≤ relu z := by
  rcases le_or_gt 0 l with hl | hl
  · rw [hullRelu_linear s hl, relu_of_nonneg (hl.trans h1)]; simp
  · rcases le_or_gt u 0 with hu | hu
    · rw [hullRelu_dead s hu hl, relu_of_nonpos (h2.trans hu)]; simp
    · obtain ⟨-, -, h3, h4, h5⟩ := hullRelu_active s he hg0 hg1 hu hl
      rw [h5]
      unfold relu
      rcases le_total z 0 with hz | hz
      · rw [max_eq_right hz]; nlinarith
      · rw [max_eq_left hz]; nlinarith

theorem hullRelu_upper {eps g u l z : α} (s : Slope) (he : 0 < eps) (hg0 : 0 ≤ g) (hg1 : g ≤ 1) (h1 : l ≤ z) (h2 : z ≤ u)
    (hs : ¬ (l < 0 ∧ 0 < u ∧ u - l < eps)) :
    relu z ≤ (linearHullRelu eps s g u l).wu * z + (linearHullRelu eps s g u l).bu := by
  rcases le_or_gt 0 l with hl | hl
  · rw [hullRelu_linear s hl, relu_of_nonneg (hl.trans h1)]; simp
  · rcases le_or_gt u 0 with hu | hu
    · rw [hullRelu_dead s hu hl, relu_of_nonpos (h2.trans hu)]; simp
    · obtain ⟨h3, h4, -⟩ := hullRelu_active s he hg0 hg1 hu hl
      have hd : eps ≤ u - l := by by_contra hc; exact hs ⟨hl, hu, not_le.mp hc⟩
      rw [h3, h4, max_eq_right hd]
      have hpos : 0 < u - l := lt_of_lt_of_le he hd
      have e : u / (u - l) * z + -(u / (u - l)) * l = u * (z - l) / (u - l) := by ring
      rw [e, le_div_iff₀ hpos]
      unfold relu
      rcases le_total z 0 with hz | hz
      · rw [max_eq_right hz]; nlinarith
      · rw [max_eq_left hz]; nlinarith

/-- In all cases the upper side is wrong by less than `eps`. -/
theorem hullRelu_upper_slack {eps g u l z : α} (s : Slope) (he : 0 < eps) (hg0 : 0 ≤ g) (hg1 : g ≤ 1) (h1 : l ≤ z)
    (h2 : z ≤ u) : relu z < (linearHullRelu eps s g u l).wu * z + (linearHullRelu eps s g u l).bu + eps := by
  by_cases hs : (l < 0 ∧ 0 < u ∧ u - l < eps)
  · obtain ⟨hl, hu, hd⟩ := hs
    obtain ⟨h3, h4, -⟩ := hullRelu_active s he hg0 hg1 hu hl
    rw [h3, h4]
    have hm : 0 < max eps (u - l) := lt_max_of_lt_left he
    have e : u / max eps (u - l) * z + -(u / max eps (u - l)) * l = u / max eps (u - l) * (z - l) := by ring
    rw [e]
    have : 0 ≤ u / max eps (u - l) * (z - l) := mul_nonneg (div_nonneg hu.le hm.le) (by linarith)
    have : relu z ≤ u := by rw [← relu_of_nonneg hu.le]; exact relu_mono h2
    linarith
  · have := hullRelu_upper s he hg0 hg1 h1 h2 hs
    linarith

end

section Ops
variable {X ι κ α : Type*} [Fintype ι] [Field α] [LinearOrder α] [IsStrictOrderedRing α]

/-- Constant bounds available after `get_fullinputs` with the default flags, in every mode. -/
theorem tighten_const (D : PertDomain X ι α) (m : Mode) (dc : Bool) (f : Full X ι κ α) (S : Set (ι → α))
    (hD : D.Sound f.x S) (p : ι → α) (hp : p ∈ S) (y : κ → α) (hv : Valid m dc f p y) (k : κ) :
    (f.tighten D m true true).lc k ≤ y k ∧ y k ≤ (f.tighten D m true true).uc k := by
  have h := C04_tighten_valid D m dc true true f S hD p hp y hv
  cases m
  · exact h.1.const rfl k
  · exact h.2 rfl rfl k
  · exact h.1.const rfl k

omit [Field α] [IsStrictOrderedRing α] [Fintype ι] in
@[simp] theorem tighten_x (D : PertDomain X ι α) (m : Mode) (c t : Bool) (f : Full X ι κ α) :
    (f.tighten D m c t).x = f.x := by
  unfold Full.tighten; split <;> [split <;> rfl; rfl]

omit [Field α] [IsStrictOrderedRing α] [Fintype ι] in
@[simp] theorem tighten_wu (D : PertDomain X ι α) (m : Mode) (c t : Bool) (f : Full X ι κ α) :
    (f.tighten D m c t).wu = f.wu := by
  unfold Full.tighten; split <;> [split <;> rfl; rfl]

omit [Field α] [IsStrictOrderedRing α] [Fintype ι] in
@[simp] theorem tighten_wl (D : PertDomain X ι α) (m : Mode) (c t : Bool) (f : Full X ι κ α) :
    (f.tighten D m c t).wl = f.wl := by
  unfold Full.tighten; split <;> [split <;> rfl; rfl]

omit [Field α] [IsStrictOrderedRing α] [Fintype ι] in
@[simp] theorem tighten_bu (D : PertDomain X ι α) (m : Mode) (c t : Bool) (f : Full X ι κ α) :
    (f.tighten D m c t).bu = f.bu := by
  unfold Full.tighten; split <;> [split <;> rfl; rfl]

omit [Field α] [IsStrictOrderedRing α] [Fintype ι] in
@[simp] theorem tighten_bl (D : PertDomain X ι α) (m : Mode) (c t : Bool) (f : Full X ι κ α) :
    (f.tighten D m c t).bl = f.bl := by
  unfold Full.tighten; split <;> [split <;> rfl; rfl]

omit [Field α] [IsStrictOrderedRing α] [Fintype ι] in
@[simp] theorem tighten_h (D : PertDomain X ι α) (m : Mode) (c t : Bool) (f : Full X ι κ α) :
    (f.tighten D m c t).h = f.h := by
  unfold Full.tighten; split <;> [split <;> rfl; rfl]

omit [Field α] [IsStrictOrderedRing α] [Fintype ι] in
@[simp] theorem tighten_g (D : PertDomain X ι α) (m : Mode) (c t : Bool) (f : Full X ι κ α) :
    (f.tighten D m c t).g = f.g := by
  unfold Full.tighten; split <;> [split <;> rfl; rfl]

theorem valid_add (D : PertDomain X ι α) (m : Mode) (dc : Bool) (f0 f1 : Full X ι κ α) (S : Set (ι → α))
    (h0 : D.Sound f0.x S) (h1 : D.Sound f1.x S) (p : ι → α) (hp : p ∈ S) (y0 y1 : κ → α)
    (v0 : Valid m dc f0 p y0) (v1 : Valid m dc f1 p y1) :
    Valid m dc (addT D m f0 f1) p (fun k => y0 k + y1 k) := by
  obtain ⟨a0, -⟩ := C04_tighten_valid D m dc true true f0 S h0 p hp y0 v0
  obtain ⟨a1, -⟩ := C04_tighten_valid D m dc true true f1 S h1 p hp y1 v1
  refine ⟨fun hi k => ?_, fun ha k => ?_, fun hd k => ?_⟩
  · exact ⟨add_le_add (a0.const hi k).1 (a1.const hi k).1, add_le_add (a0.const hi k).2 (a1.const hi k).2⟩
  · simp only [addT, affEval_add]
    exact ⟨add_le_add (a0.aff ha k).1 (a1.aff ha k).1, add_le_add (a0.aff ha k).2 (a1.aff ha k).2⟩
  · have e0 := a0.dc hd k
    have e1 := a1.dc hd k
    simp only [addT]
    rw [← e0, ← e1]; ring

theorem valid_minus (D : PertDomain X ι α) (m : Mode) (dc : Bool) (f : Full X ι κ α) (p : ι → α) (y : κ → α)
    (v : Valid m dc f p y) : Valid m dc (minusT D m f) p (fun k => - y k) := by
  have e : f.tighten D m false false = f := by simp [Full.tighten]
  refine ⟨fun hi k => ?_, fun ha k => ?_, fun hd k => ?_⟩
  · simp only [minusT, e]
    exact ⟨neg_le_neg (v.const hi k).2, neg_le_neg (v.const hi k).1⟩
  · simp only [minusT, affEval_neg, e]
    exact ⟨neg_le_neg (v.aff ha k).2, neg_le_neg (v.aff ha k).1⟩
  · simp only [minusT, e]
    rw [← v.dc hd k]; ring

theorem valid_relu (D : PertDomain X ι α) (m : Mode) (dc : Bool) (eps : α) (he : 0 < eps) (s : Slope) (gamma : κ → α)
    (hg : ∀ k, 0 ≤ gamma k ∧ gamma k ≤ 1) (f : Full X ι κ α) (S : Set (ι → α)) (hD : D.Sound f.x S)
    (hs : getAffine m = true → ∀ k, ¬ ((f.tighten D m true true).lc k < 0 ∧ 0 < (f.tighten D m true true).uc k ∧
      (f.tighten D m true true).uc k - (f.tighten D m true true).lc k < eps))
    (p : ι → α) (hp : p ∈ S) (y : κ → α) (v : Valid m dc f p y) :
    Valid m dc (reluT D m dc eps s gamma f) p (fun k => relu (y k)) := by
  have hc := tighten_const D m dc f S hD p hp y v
  refine ⟨fun hi k => ?_, fun ha k => ?_, fun hd k => ?_⟩
  · simp only [reluT, hi, if_true]
    exact ⟨relu_mono (hc k).1, relu_mono (hc k).2⟩
  · simp only [reluT, ha, if_true]
    obtain ⟨c1, c2⟩ := hc k
    have hn := hullRelu_nonneg (eps := eps) s he (hg k).1 (hg k).2 (c1.trans c2)
    have a := v.aff ha k
    constructor
    · rw [affEval_add_const, affEval_smul, tighten_wl, tighten_bl]
      refine le_trans ?_ (hullRelu_lower s he (hg k).1 (hg k).2 c1 c2)
      gcongr
      · exact hn.2
      · exact a.1
    · rw [affEval_add_const, affEval_smul, tighten_wu, tighten_bu]
      refine le_trans (hullRelu_upper s he (hg k).1 (hg k).2 c1 c2 (hs ha k)) ?_
      gcongr
      · exact hn.1
      · exact a.2
  · have e := v.dc hd k
    obtain ⟨c1, c2⟩ := hc k
    simp only [reluT, hd, if_true, tighten_h, tighten_g]
    set l := (f.tighten D m true true).lc k
    set u := (f.tighten D m true true).uc k
    rcases le_or_gt 0 l with hl | hl
    · rw [indexLinear_of_nonneg hl, relu_of_nonneg (hl.trans c1), ← e]; ring
    · rw [indexLinear_of_neg hl]
      rcases le_or_gt u 0 with hu | hu
      · rw [indexDead_of_nonpos hu, relu_of_nonpos (c2.trans hu)]; ring
      · rw [indexDead_of_pos hu, ← e]
        have : max (f.h k) (- f.g k) + f.g k = relu (f.h k + f.g k) := by
          unfold relu
          rw [max_add]; simp
        rw [← this]; ring

end Ops

end Decomon
