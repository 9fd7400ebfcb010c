import Verif.SpecSlack
import Verif.Lemmas.Mono

/-! Helper lemmas for bounds that hold up to an error. -/

namespace Decomon

section Scalar
variable {α : Type*} [Field α] [LinearOrder α] [IsStrictOrderedRing α]

/-- The weights of the ReLU hull are in `[0,1]`, whatever the order of `l` and `u`. -/
theorem hullRelu_unit {eps g : α} (u l : α) (s : Slope) (he : 0 < eps) (hg0 : 0 ≤ g) (hg1 : g ≤ 1) :
    (0 ≤ (linearHullRelu eps s g u l).wu ∧ (linearHullRelu eps s g u l).wu ≤ 1) ∧
      0 ≤ (linearHullRelu eps s g u l).wl ∧ (linearHullRelu eps s g u l).wl ≤ 1 := by
  rcases le_or_gt 0 l with hl | hl
  · rw [hullRelu_linear s hl]; simp
  · rcases le_or_gt u 0 with hu | hu
    · rw [hullRelu_dead s hu hl]; simp
    · obtain ⟨h1, -, h3, h4, -⟩ := hullRelu_active s he hg0 hg1 hu hl
      refine ⟨⟨by rw [h1]; exact div_nonneg hu.le (lt_max_of_lt_left he).le, ?_⟩, h3, h4⟩
      rw [h1, div_le_one (lt_max_of_lt_left he)]
      exact le_max_of_le_right (by linarith)

/-- The lower side of the ReLU hull holds everywhere. -/
theorem hullRelu_lower_all {eps g u l : α} (s : Slope) (he : 0 < eps) (hg0 : 0 ≤ g) (hg1 : g ≤ 1) (z : α) :
    (linearHullRelu eps s g u l).wl * z + (linearHullRelu eps s g u l).bl ≤ relu z := by
  have hz : z ≤ relu z ∧ 0 ≤ relu z := ⟨le_max_left _ _, le_max_right _ _⟩
  rcases le_or_gt 0 l with hl | hl
  · rw [hullRelu_linear s hl]; simpa using hz.1
  · rcases le_or_gt u 0 with hu | hu
    · rw [hullRelu_dead s hu hl]; simpa using hz.2
    · obtain ⟨-, -, h3, h4, h5⟩ := hullRelu_active s he hg0 hg1 hu hl
      rw [h5]; nlinarith

/-- The upper side of the ReLU hull, for a value at distance at most `d` from the interval, is wrong by at most `d + eps / 4`. -/
theorem hullRelu_upper_near {eps g u l z d : α} (s : Slope) (he : 0 < eps) (hg0 : 0 ≤ g) (hg1 : g ≤ 1) (hd : 0 ≤ d)
    (h1 : l - d ≤ z) (h2 : z ≤ u + d) :
    relu z ≤ (linearHullRelu eps s g u l).wu * z + (linearHullRelu eps s g u l).bu + (d + eps / 4) := by
  rcases le_or_gt 0 l with hl | hl
  · rw [hullRelu_linear s hl]
    simp only [one_mul, add_zero]
    exact max_le (by linarith) (by linarith)
  · rcases le_or_gt u 0 with hu | hu
    · rw [hullRelu_dead s hu hl]
      simp only [zero_mul, zero_add]
      exact max_le (by linarith) (by linarith)
    · obtain ⟨h3, h4, -⟩ := hullRelu_active s he hg0 hg1 hu hl
      obtain ⟨⟨a0, a1⟩, -⟩ := hullRelu_unit u l s he hg0 hg1
      rw [h3] at a0 a1
      rw [h3, h4]
      set a := u / max eps (u - l) with ha
      have hm : 0 < max eps (u - l) := lt_max_of_lt_left he
      have hau : a * max eps (u - l) = u := by rw [ha]; field_simp
      -- on `[0,u]` the error is at most `eps / 4`
      have key : ∀ x, 0 ≤ x → x ≤ u → x ≤ a * (x - l) + eps / 4 := by
        intro x hx0 hxu
        rcases le_or_gt eps (u - l) with hc | hc
        · rw [max_eq_right hc] at hau
          nlinarith [mul_nonneg (sub_nonneg.mpr a1) (sub_nonneg.mpr hxu)]
        · rw [max_eq_left hc.le] at hau
          have e1 : x * (1 - a) ≤ u * (1 - a) := mul_le_mul_of_nonneg_right hxu (sub_nonneg.mpr a1)
          have e2 : u * (1 - a) ≤ eps / 4 := by
            rw [← hau]; nlinarith [mul_nonneg he.le (sq_nonneg (2 * a - 1))]
          nlinarith [mul_nonneg a0 (neg_nonneg.mpr hl.le)]
      have e : a * z + -a * l = a * (z - l) := by ring
      rw [e]
      refine max_le ?_ ?_
      · rcases le_total z 0 with hz | hz
        · nlinarith
        · rcases le_total z u with hzu | hzu
          · linarith [key z hz hzu]
          · have := key u hu.le le_rfl
            nlinarith [mul_nonneg a0 (sub_nonneg.mpr hzu)]
      · nlinarith [mul_nonneg a0 (by linarith : 0 ≤ z - l + d)]

theorem relu_near {y u d : α} (hd : 0 ≤ d) (h : y ≤ u + d) : relu y ≤ relu u + d := by
  unfold relu
  exact max_le (h.trans (add_le_add (le_max_left _ _) le_rfl)) (by linarith [le_max_right u 0])

theorem abs_posneg (c s : α) : max 0 c * s - min 0 c * s = |c| * s := by
  rcases le_total 0 c with h | h
  · rw [max_eq_right h, min_eq_left h, abs_of_nonneg h]; ring
  · rw [max_eq_left h, min_eq_right h, abs_of_nonpos h]; ring

end Scalar

section Taps
variable {T α : Type*} [Fintype T] [Field α] [LinearOrder α] [IsStrictOrderedRing α]

theorem taps_upper_near (c y l u s : T → α) (h : ∀ t, l t - s t ≤ y t ∧ y t ≤ u t + s t) :
    ∑ t, c t * y t ≤ ∑ t, max 0 (c t) * u t + ∑ t, min 0 (c t) * l t + ∑ t, |c t| * s t := by
  refine (taps_upper c y _ _ h).trans (le_of_eq ?_)
  simp only [← Finset.sum_add_distrib, ← abs_posneg]
  exact Finset.sum_congr rfl fun t _ => by ring

theorem taps_lower_near (c y l u s : T → α) (h : ∀ t, l t - s t ≤ y t ∧ y t ≤ u t + s t) :
    ∑ t, max 0 (c t) * l t + ∑ t, min 0 (c t) * u t - ∑ t, |c t| * s t ≤ ∑ t, c t * y t := by
  refine le_trans (le_of_eq ?_) (taps_lower c y _ _ h)
  simp only [← Finset.sum_add_distrib, ← Finset.sum_sub_distrib, ← abs_posneg]
  exact Finset.sum_congr rfl fun t _ => by ring

end Taps

section Ops
variable {X ι κ α : Type*} [Fintype ι] [Field α] [LinearOrder α] [IsStrictOrderedRing α]

omit [IsStrictOrderedRing α] in
theorem near_of_valid (m : Mode) (f : Full X ι κ α) (p : ι → α) (y : κ → α) [IsStrictOrderedRing α] (v : Valid m false f p y) :
    Near m f p y (fun _ => 0) :=
  ⟨fun hi k => by simpa using v.const hi k, fun ha k => by simpa using v.aff ha k⟩

omit [IsStrictOrderedRing α] in
theorem Near.congr {m : Mode} {f : Full X ι κ α} {p : ι → α} {y y' s s' : κ → α} (h : Near m f p y s) (hy : ∀ k, y' k = y k)
    (hs : ∀ k, s' k = s k) : Near m f p y' s' := by
  rwa [funext hy, funext hs]

theorem near_tighten (D : PertDomain X ι α) (m : Mode) (c t : Bool) (f : Full X ι κ α) (S : Set (ι → α))
    (hD : D.Sound f.x S) (p : ι → α) (hp : p ∈ S) (y s : κ → α) (hv : Near m f p y s) :
    Near m (f.tighten D m c t) p y s ∧
      (m = .affine → c = true → ∀ k, (f.tighten D m c t).lc k - s k ≤ y k ∧ y k ≤ (f.tighten D m c t).uc k + s k) := by
  have hu : ∀ k w b, y k ≤ affEval w b p + s k → y k - s k ≤ D.getUpper f.x w b := fun k w b h => by
    have := (hD p hp w b).2; linarith
  have hl : ∀ k w b, affEval w b p - s k ≤ y k → D.getLower f.x w b ≤ y k + s k := fun k w b h => by
    have := (hD p hp w b).1; linarith
  obtain ⟨h1, h2⟩ := hv
  refine ⟨⟨fun hi k => ?_, fun ha k => ?_⟩, fun hm hc k => ?_⟩
  · have a := h1 hi k
    rw [sub_le_iff_le_add, ← sub_le_iff_le_add (a := y k)]
    rw [sub_le_iff_le_add, ← sub_le_iff_le_add (a := y k)] at a
    cases m <;> cases c <;> cases t <;> simp [getIbp, getAffine, Full.tighten] at * <;> try exact a
    all_goals
      exact ⟨⟨a.1, by have := hl k _ _ (by have := (h2 k).1; linarith); linarith⟩, by linarith [a.2],
        by have := hu k _ _ (h2 k).2; linarith⟩
  · have a := h2 ha k
    cases m <;> cases c <;> cases t <;> simpa [Full.tighten] using a
  · subst hm hc
    simp only [getAffine, forall_const] at h2
    simp [Full.tighten]
    have := hl k _ _ (h2 k).1
    have := hu k _ _ (h2 k).2
    constructor <;> linarith

theorem near_tighten_const (D : PertDomain X ι α) (m : Mode) (f : Full X ι κ α) (S : Set (ι → α))
    (hD : D.Sound f.x S) (p : ι → α) (hp : p ∈ S) (y s : κ → α) (hv : Near m f p y s) (k : κ) :
    (f.tighten D m true true).lc k - s k ≤ y k ∧ y k ≤ (f.tighten D m true true).uc k + s k := by
  have h := near_tighten D m true true f S hD p hp y s hv
  cases m
  · exact h.1.const rfl k
  · exact h.2 rfl rfl k
  · exact h.1.const rfl k

theorem near_add (D : PertDomain X ι α) (m : Mode) (f0 f1 : Full X ι κ α) (S : Set (ι → α))
    (h0 : D.Sound f0.x S) (h1 : D.Sound f1.x S) (p : ι → α) (hp : p ∈ S) (y0 y1 s0 s1 : κ → α)
    (v0 : Near m f0 p y0 s0) (v1 : Near m f1 p y1 s1) :
    Near m (addT D m f0 f1) p (fun k => y0 k + y1 k) (fun k => s0 k + s1 k) := by
  obtain ⟨a0, -⟩ := near_tighten D m true true f0 S h0 p hp y0 s0 v0
  obtain ⟨a1, -⟩ := near_tighten D m true true f1 S h1 p hp y1 s1 v1
  refine ⟨fun hi k => ?_, fun ha k => ?_⟩
  · have := a0.const hi k
    have := a1.const hi k
    simp only [addT]
    constructor <;> linarith
  · have := a0.aff ha k
    have := a1.aff ha k
    simp only [addT, affEval_add]
    constructor <;> linarith

theorem near_minus (D : PertDomain X ι α) (m : Mode) (f : Full X ι κ α) (p : ι → α) (y s : κ → α)
    (v : Near m f p y s) : Near m (minusT D m f) p (fun k => - y k) s := by
  have e : f.tighten D m false false = f := by simp [Full.tighten]
  refine ⟨fun hi k => ?_, fun ha k => ?_⟩
  · have := v.const hi k
    simp only [minusT, e]
    constructor <;> linarith
  · have := v.aff ha k
    simp only [minusT, affEval_neg, e]
    constructor <;> linarith

theorem near_subtract (D : PertDomain X ι α) (m : Mode) (f0 f1 : Full X ι κ α) (S : Set (ι → α))
    (h0 : D.Sound f0.x S) (h1 : D.Sound f1.x S) (p : ι → α) (hp : p ∈ S) (y0 y1 s0 s1 : κ → α)
    (v0 : Near m f0 p y0 s0) (v1 : Near m f1 p y1 s1) :
    Near m (subtractT D m f0 f1) p (fun k => y0 k - y1 k) (fun k => s0 k + s1 k) := by
  simp only [sub_eq_add_neg]
  exact near_add D m f0 _ S h0 (by simpa [minusT] using h1) p hp _ _ _ _ v0 (near_minus D m f1 p y1 s1 v1)

theorem near_relu (D : PertDomain X ι α) (m : Mode) (dc : Bool) (eps : α) (he : 0 < eps) (s : Slope) (gamma : κ → α)
    (hg : ∀ k, 0 ≤ gamma k ∧ gamma k ≤ 1) (f : Full X ι κ α) (S : Set (ι → α)) (hD : D.Sound f.x S)
    (p : ι → α) (hp : p ∈ S) (y d : κ → α) (hd : ∀ k, 0 ≤ d k) (v : Near m f p y d) :
    Near m (reluT D m dc eps s gamma f) p (fun k => relu (y k)) (fun k => 2 * d k + eps / 4) := by
  have hc := near_tighten_const D m f S hD p hp y d v
  refine ⟨fun hi k => ?_, fun ha k => ?_⟩
  · simp only [reluT, hi, if_true]
    obtain ⟨c1, c2⟩ := hc k
    have := relu_near (hd k) c2
    have := relu_near (hd k) (show (f.tighten D m true true).lc k ≤ y k + d k by linarith)
    constructor <;> linarith [hd k]
  · simp only [reluT, ha, if_true]
    obtain ⟨c1, c2⟩ := hc k
    obtain ⟨⟨u0, u1⟩, l0, l1⟩ := hullRelu_unit (eps := eps) ((f.tighten D m true true).uc k) ((f.tighten D m true true).lc k) s he
      (hg k).1 (hg k).2
    have a := v.aff ha k
    have lo := hullRelu_lower_all (u := (f.tighten D m true true).uc k) (l := (f.tighten D m true true).lc k) s he
      (hg k).1 (hg k).2 (y k)
    have up := hullRelu_upper_near s he (hg k).1 (hg k).2 (hd k) c1 c2
    constructor
    · rw [affEval_add_const, affEval_smul, tighten_wl, tighten_bl]
      have e := mul_le_mul_of_nonneg_left a.1 l0
      rw [mul_sub] at e
      have := mul_le_mul_of_nonneg_right l1 (hd k)
      linarith [hd k]
    · rw [affEval_add_const, affEval_smul, tighten_wu, tighten_bu]
      have e := mul_le_mul_of_nonneg_left a.2 u0
      rw [mul_add] at e
      have := mul_le_mul_of_nonneg_right u1 (hd k)
      linarith [hd k]

theorem near_linear {Q' O T Q : Type*} [Fintype T] (D : PertDomain X ι α) (m : Mode) (L : LinIndex Q' O T Q)
    (kernel : Q → α) (bias : O → α) (f : Full X ι Q' α) (R : Set (ι → α)) (hD : D.Sound f.x R)
    (p : ι → α) (hp : p ∈ R) (y s : Q' → α) (v : Near m f p y s) :
    Near m (linearLayerT D m false L kernel bias f) p (fun o => L.apply kernel y o + bias o)
      (fun o => ∑ t, |kernel (L.kidx o t)| * (L.src o t).elim 0 s) := by
  obtain ⟨a, -⟩ := near_tighten D m false true f R hD p hp y s v
  refine ⟨fun hi o => ?_, fun ha o => ?_⟩
  · simp only [linearLayerT, hi, if_true, LinIndex.apply]
    have h : ∀ t, (L.src o t).elim 0 (f.tighten D m false true).lc - (L.src o t).elim 0 s ≤ (L.src o t).elim 0 y ∧
        (L.src o t).elim 0 y ≤ (L.src o t).elim 0 (f.tighten D m false true).uc + (L.src o t).elim 0 s := by
      intro t
      cases L.src o t with
      | none => simp
      | some s => exact a.const hi s
    have h1 := taps_lower_near (fun t => kernel (L.kidx o t)) _ _ _ _ h
    have h2 := taps_upper_near (fun t => kernel (L.kidx o t)) _ _ _ _ h
    constructor <;> linarith
  · simp only [linearLayerT, ha, if_true, LinIndex.apply]
    have h : ∀ t, (L.src o t).elim 0 (fun s => affEval (fun i => f.wl i s) (f.bl s) p) - (L.src o t).elim 0 s ≤ (L.src o t).elim 0 y ∧
        (L.src o t).elim 0 y ≤ (L.src o t).elim 0 (fun s => affEval (fun i => f.wu i s) (f.bu s) p) + (L.src o t).elim 0 s := by
      intro t
      cases L.src o t with
      | none => simp
      | some s => exact v.aff ha s
    rw [taps_aff, taps_aff]
    simp only [affEval_elim, tighten_wu, tighten_bu, tighten_wl, tighten_bl]
    have h1 := taps_lower_near (fun t => kernel (L.kidx o t)) _ _ _ _ h
    have h2 := taps_upper_near (fun t => kernel (L.kidx o t)) _ _ _ _ h
    constructor <;> linarith

theorem near_dense {n μ : Type*} [Fintype n] (D : PertDomain X ι α) (m : Mode)
    (kernel : n → μ → α) (bias : μ → α) (f : Full X ι n α) (R : Set (ι → α)) (hD : D.Sound f.x R)
    (p : ι → α) (hp : p ∈ R) (y s : n → α) (v : Near m f p y s) :
    Near m (denseT D m false kernel bias f) p (fun o => (∑ t, kernel t o * y t) + bias o) (fun o => ∑ t, |kernel t o| * s t) := by
  obtain ⟨a, -⟩ := near_tighten D m false true f R hD p hp y s v
  refine ⟨fun hi o => ?_, fun ha o => ?_⟩
  · simp only [denseT, hi, if_true]
    have h1 := taps_lower_near (fun t => kernel t o) _ _ _ _ (a.const hi)
    have h2 := taps_upper_near (fun t => kernel t o) _ _ _ _ (a.const hi)
    constructor <;> linarith
  · simp only [denseT, ha, if_true]
    rw [taps_aff, taps_aff]
    simp only [tighten_wu, tighten_bu, tighten_wl, tighten_bl]
    have h1 := taps_lower_near (fun t => kernel t o) _ _ _ _ (v.aff ha)
    have h2 := taps_upper_near (fun t => kernel t o) _ _ _ _ (v.aff ha)
    constructor <;> linarith

theorem near_batchNorm (D : PertDomain X ι α) (m : Mode) (gamma beta mean sd : κ → α) (hsd : ∀ k, 0 < sd k)
    (f : Full X ι κ α) (R : Set (ι → α)) (hD : D.Sound f.x R)
    (p : ι → α) (hp : p ∈ R) (y s : κ → α) (v : Near m f p y s) :
    Near m (batchNormT D m gamma beta mean sd f) p (fun k => gamma k * ((y k - mean k) / sd k) + beta k)
      (fun k => |gamma k| / sd k * s k) := by
  obtain ⟨a, -⟩ := near_tighten D m false true f R hD p hp y s v
  have mono : ∀ k {s t : α}, s ≤ t → (s - mean k) / sd k ≤ (t - mean k) / sd k := fun k s t h =>
    div_le_div_of_nonneg_right (by linarith) (hsd k).le
  have aff : ∀ k (c d : α) (w w' : ι → α) (b b' : α),
      affEval (fun i => c * (w i / sd k) + d * (w' i / sd k))
        (c * ((b - mean k) / sd k) + d * ((b' - mean k) / sd k) + beta k) p =
      c * ((affEval w b p - mean k) / sd k) + d * ((affEval w' b' p - mean k) / sd k) + beta k := by
    intro k c d w w' b b'
    rw [affEval_add_const, affEval_add, affEval_smul, affEval_smul]
    have : ∀ (w : ι → α) (b : α), affEval (fun i => w i / sd k) ((b - mean k) / sd k) p = (affEval w b p - mean k) / sd k := by
      intro w b
      rw [affEval_div, sub_eq_add_neg, affEval_add_const, sub_eq_add_neg]
    rw [this, this]
  have main : ∀ k lo hi, lo - s k ≤ y k ∧ y k ≤ hi + s k →
      max 0 (gamma k) * ((lo - mean k) / sd k) + min 0 (gamma k) * ((hi - mean k) / sd k) + beta k - |gamma k| / sd k * s k
        ≤ gamma k * ((y k - mean k) / sd k) + beta k ∧
      gamma k * ((y k - mean k) / sd k) + beta k ≤
        max 0 (gamma k) * ((hi - mean k) / sd k) + min 0 (gamma k) * ((lo - mean k) / sd k) + beta k + |gamma k| / sd k * s k := by
    intro k lo hi h
    have e1 := posneg_le_mul (w := gamma k) (mono k h.1) (mono k h.2)
    have e2 := mul_le_posneg (w := gamma k) (mono k h.1) (mono k h.2)
    have es : |gamma k| / sd k * s k = max (gamma k) 0 * (s k / sd k) - min (gamma k) 0 * (s k / sd k) := by
      rw [max_comm, min_comm, abs_posneg]; ring
    have f1 : (lo - s k - mean k) / sd k = (lo - mean k) / sd k - s k / sd k := by ring
    have f2 : (hi + s k - mean k) / sd k = (hi - mean k) / sd k + s k / sd k := by ring
    rw [f1, f2] at e1 e2
    rw [es, max_comm 0, min_comm 0]
    constructor
    · nlinarith
    · nlinarith
  refine ⟨fun hi k => ?_, fun ha k => ?_⟩
  · simp only [batchNormT, hi, if_true]
    exact main k _ _ (a.const hi k)
  · simp only [batchNormT, ha, if_true, tighten_wu, tighten_bu, tighten_wl, tighten_bl]
    rw [aff, aff]
    exact main k _ _ (v.aff ha k)

theorem near_reindex {κ' : Type*} (D : PertDomain X ι α) (m : Mode) (e : κ' → κ)
    (f : Full X ι κ α) (R : Set (ι → α)) (hD : D.Sound f.x R)
    (p : ι → α) (hp : p ∈ R) (y s : κ → α) (v : Near m f p y s) :
    Near m (reindexT D m false e f) p (fun k => y (e k)) (fun k => s (e k)) := by
  obtain ⟨a, -⟩ := near_tighten D m false true f R hD p hp y s v
  refine ⟨fun hi k => ?_, fun ha k => ?_⟩
  · simp only [reindexT, hi, if_true]; exact a.const hi (e k)
  · simp only [reindexT, ha, if_true]; exact a.aff ha (e k)

theorem near_maximum (D : PertDomain X ι α) (m : Mode) (eps : α) (he : 0 < eps) (f0 f1 : Full X ι κ α) (S : Set (ι → α))
    (h0 : D.Sound f0.x S) (h1 : D.Sound f1.x S) (p : ι → α) (hp : p ∈ S) (y0 y1 s0 s1 : κ → α) (hs0 : ∀ k, 0 ≤ s0 k)
    (hs1 : ∀ k, 0 ≤ s1 k) (v0 : Near m f0 p y0 s0) (v1 : Near m f1 p y1 s1) :
    Near m (maximumT D m false eps (fun _ => 1) f0 f1) p (fun k => max (y0 k) (y1 k))
      (fun k => 2 * (s0 k + s1 k) + eps / 4 + s0 k) := by
  have hx : D.Sound (subtractT D m f1 f0).x S := by simpa [subtractT, addT] using h1
  have v := near_relu D m false eps he .vSlope (fun _ => (1 : α)) (fun _ => ⟨zero_le_one, le_rfl⟩) _ S hx p hp _ _
    (fun k => add_nonneg (hs1 k) (hs0 k)) (near_subtract D m f1 f0 S h1 h0 p hp y1 y0 s1 s0 v1 v0)
  have w := near_add D m _ f0 S (by simpa [reluT] using hx) h0 p hp _ _ _ _ v v0
  have ey : (fun k => relu (y1 k - y0 k) + y0 k) = fun k => max (y0 k) (y1 k) := by
    funext k
    rw [relu, max_comm, max_add]
    simp
  have es : (fun k => 2 * (s1 k + s0 k) + eps / 4 + s0 k) = fun k => 2 * (s0 k + s1 k) + eps / 4 + s0 k := by
    funext k; ring
  rw [ey, es] at w
  exact w

end Ops

section Net
variable {X ι κ κ' α : Type} [Fintype ι] [Field α] [LinearOrder α] [IsStrictOrderedRing α]

theorem Lay.gain_nonneg [Fintype κ] (l : Lay α κ κ') (hl : l.WF) (s : κ → α) (hs : ∀ k, 0 ≤ s k) (k : κ') : 0 ≤ l.gain s k := by
  cases l with
  | dense kernel bias => exact Finset.sum_nonneg fun t _ => mul_nonneg (abs_nonneg _) (hs t)
  | linear L kernel bias =>
    refine Finset.sum_nonneg fun t _ => mul_nonneg (abs_nonneg _) ?_
    cases L.src k t with
    | none => simp
    | some q => exact hs q
  | relu gf gb => simp only [Lay.gain]; linarith [hs k]
  | batchNorm gamma beta mean sd => exact mul_nonneg (div_nonneg (abs_nonneg _) (hl k).le) (hs k)
  | reshape e => exact hs (e k)
  | skip => exact hs k

theorem Net.gain_nonneg {κ : Type} (n : Net α ι κ) (hn : n.WF) (k : κ) : 0 ≤ n.gain k := by
  induction n with
  | input => exact le_rfl
  | layer n l ih => exact l.gain_nonneg hn.2 _ (ih hn.1) k
  | merge op n0 n1 ih0 ih1 =>
    have h0 := ih0 hn.1 k
    have h1 := ih1 hn.2 k
    cases op <;> simp only [Net.gain, MergeOp.gain] <;> linarith

theorem Lay.forward_near [Fintype κ] (D : PertDomain X ι α) (m : Mode) (eps : α) (he : 0 < eps) (slope : Slope)
    (l : Lay α κ κ') (hl : l.WF) (f : Full X ι κ α) (S : Set (ι → α)) (hD : D.Sound f.x S)
    (p : ι → α) (hp : p ∈ S) (y s : κ → α) (hs : ∀ k, 0 ≤ s k) (v : Near m f p y (fun k => eps * s k)) :
    Near m (l.forward D m eps slope f) p (l.eval y) (fun k => eps * l.gain s k) := by
  cases l with
  | dense kernel bias =>
    have := near_dense D m kernel bias f S hD p hp y _ v
    refine this.congr (fun _ => rfl) fun k => ?_
    simp only [Lay.gain, Finset.mul_sum]; exact Finset.sum_congr rfl fun t _ => by ring
  | linear L kernel bias =>
    have := near_linear D m L kernel bias f S hD p hp y _ v
    refine this.congr (fun k => ?_) fun k => ?_
    · simp only [Lay.eval, LinIndex.apply]
      congr 1
      refine Finset.sum_congr rfl fun t _ => ?_
      cases L.src k t <;> rfl
    · simp only [Lay.gain, Finset.mul_sum]
      refine Finset.sum_congr rfl fun t _ => ?_
      cases L.src k t <;> simp; ring
  | relu gf gb =>
    have := near_relu D m false eps he slope gf (fun k => (hl k).1) f S hD p hp y _ (fun k => mul_nonneg he.le (hs k)) v
    refine this.congr (fun _ => rfl) fun k => ?_
    simp only [Lay.gain]; ring
  | batchNorm gamma beta mean sd =>
    have := near_batchNorm D m gamma beta mean sd hl f S hD p hp y _ v
    refine this.congr (fun _ => rfl) fun k => ?_
    simp only [Lay.gain]; ring
  | reshape e => exact near_reindex D m e f S hD p hp y _ v
  | skip => exact v

theorem MergeOp.forward_near (D : PertDomain X ι α) (m : Mode) (eps : α) (he : 0 < eps) (op : MergeOp) (ho : op ≠ .multiply)
    (f0 f1 : Full X ι κ α) (S : Set (ι → α)) (h0 : D.Sound f0.x S) (h1 : D.Sound f1.x S)
    (p : ι → α) (hp : p ∈ S) (y0 y1 s0 s1 : κ → α) (hs0 : ∀ k, 0 ≤ s0 k) (hs1 : ∀ k, 0 ≤ s1 k)
    (v0 : Near m f0 p y0 (fun k => eps * s0 k)) (v1 : Near m f1 p y1 (fun k => eps * s1 k)) :
    Near m (op.forward D m eps f0 f1) p (fun k => op.eval (y0 k) (y1 k)) (fun k => eps * op.gain (s0 k) (s1 k)) := by
  have n0 := fun k => mul_nonneg he.le (hs0 k)
  have n1 := fun k => mul_nonneg he.le (hs1 k)
  cases op with
  | add =>
    obtain ⟨a0, -⟩ := near_tighten D m false true f0 S h0 p hp y0 _ v0
    obtain ⟨a1, -⟩ := near_tighten D m false true f1 S h1 p hp y1 _ v1
    refine ⟨fun hi k => ?_, fun ha k => ?_⟩
    · have := a0.const hi k
      have := a1.const hi k
      simp only [MergeOp.forward, addLayerT, MergeOp.eval, MergeOp.gain, hi, if_true, List.map, List.sum_cons, List.sum_nil, add_zero]
      constructor <;> linarith
    · have := a0.aff ha k
      have := a1.aff ha k
      simp only [MergeOp.forward, addLayerT, MergeOp.eval, MergeOp.gain, ha, if_true, List.map, List.sum_cons, List.sum_nil, add_zero,
        affEval_add]
      constructor <;> linarith
  | average =>
    obtain ⟨a0, -⟩ := near_tighten D m false true f0 S h0 p hp y0 _ v0
    obtain ⟨a1, -⟩ := near_tighten D m false true f1 S h1 p hp y1 _ v1
    have e2 : ((([f0, f1] : List (Full X ι κ α)).length : ℕ) : α) = 2 := by norm_num
    refine ⟨fun hi k => ?_, fun ha k => ?_⟩
    · have := a0.const hi k
      have := a1.const hi k
      simp only [MergeOp.forward, averageLayerT, MergeOp.eval, MergeOp.gain, hi, if_true, List.map, List.sum_cons, List.sum_nil,
        add_zero, e2]
      constructor <;> linarith
    · have := a0.aff ha k
      have := a1.aff ha k
      simp only [MergeOp.forward, averageLayerT, MergeOp.eval, MergeOp.gain, ha, if_true, List.map, List.sum_cons, List.sum_nil,
        add_zero, e2, affEval_div, affEval_add]
      constructor <;> linarith
  | subtract =>
    have := near_subtract D m f0 f1 S h0 h1 p hp y0 y1 _ _ v0 v1
    refine this.congr (fun _ => rfl) fun k => ?_
    simp only [MergeOp.gain]; ring
  | maximum =>
    have := near_maximum D m eps he f0 f1 S h0 h1 p hp y0 y1 _ _ n0 n1 v0 v1
    refine this.congr (fun _ => rfl) fun k => ?_
    simp only [MergeOp.gain]; ring
  | minimum =>
    have hx : ∀ f : Full X ι κ α, (minusT D m f).x = f.x := fun f => by simp [minusT]
    have := near_minus D m _ p _ _ (near_maximum D m eps he (minusT D m f0) (minusT D m f1) S (by rw [hx]; exact h0)
      (by rw [hx]; exact h1) p hp _ _ _ _ n0 n1 (near_minus D m f0 p y0 _ v0) (near_minus D m f1 p y1 _ v1))
    refine this.congr (fun k => ?_) fun k => ?_
    · simp only [MergeOp.eval, max_neg_neg, neg_neg]
    · simp only [MergeOp.gain]; ring
  | multiply => exact absurd rfl ho

theorem Net.forward_near (D : PertDomain X ι α) (m : Mode) (eps : α) (he : 0 < eps) (slope : Slope) (inp : Full X ι ι α)
    (S : Set (ι → α)) (hD : D.Sound inp.x S) (p : ι → α) (hp : p ∈ S) (hi : Valid m false inp p p) {κ : Type} (n : Net α ι κ)
    (hn : n.WF) (hm : n.NoMultiply) : Near m (n.forward D m eps slope inp) p (n.eval p) (fun k => eps * n.gain k) := by
  induction n with
  | input =>
    have := near_of_valid m inp p p hi
    simpa [Net.gain, Net.forward, Net.eval] using this
  | layer n l ih =>
    exact l.forward_near D m eps he slope hn.2 _ S (by rw [Net.forward_x]; exact hD) p hp _ _ (n.gain_nonneg hn.1) (ih hn.1 hm)
  | merge op n0 n1 ih0 ih1 =>
    exact op.forward_near D m eps he hm.1 _ _ S (by rw [Net.forward_x]; exact hD) (by rw [Net.forward_x]; exact hD) p hp _ _ _ _
      (n0.gain_nonneg hn.1) (n1.gain_nonneg hn.2) (ih0 hn.1 hm.2.1) (ih1 hn.2 hm.2.2)

end Net

/-! ### Backward -/

section Back
variable {X ι κ κ' ν α : Type} [Field α] [LinearOrder α] [IsStrictOrderedRing α]

/-- Bounds enlarged by an error. -/
def Back.widen (b : Back κ ν α) (s : ν → α) : Back κ ν α := ⟨b.wu, fun n => b.bu n + s n, b.wl, fun n => b.bl n - s n⟩

theorem near_iff_widen [Fintype κ] (b : Back κ ν α) (y : κ → α) (t s : ν → α) : b.Near y t s ↔ (b.widen s).Holds y t := by
  unfold Back.Near Back.Holds Back.widen
  refine forall_congr' fun k => ?_
  simp only [sub_eq_add_neg, affEval_add_const]

theorem Back.Near.mono [Fintype κ] {b : Back κ ν α} {y : κ → α} {t s s' : ν → α} (h : b.Near y t s) (hs : ∀ n, s n ≤ s' n) :
    b.Near y t s' := fun n => ⟨by linarith [(h n).1, hs n], by linarith [(h n).2, hs n]⟩

/-- `A` bounds the weights of `b` in absolute value. -/
def Back.Bnd (b : Back κ ν α) (A : κ → ν → α) : Prop := ∀ i n, |b.wu i n| ≤ A i n ∧ |b.wl i n| ≤ A i n

theorem merge_bnd [Fintype κ] (prev : Back ι κ α) (b : Back κ ν α) (A : ι → κ → α) (B : κ → ν → α) (hA : prev.Bnd A) (hB : b.Bnd B) :
    (mergeWithPrevious prev b).Bnd (fun i n => ∑ k, A i k * B k n) := by
  have key : ∀ (x y c a bb : α), |x| ≤ a → |y| ≤ a → |c| ≤ bb → |x * max c 0 + y * min c 0| ≤ a * bb := by
    intro x y c a bb hx hy hc
    have ha : 0 ≤ a := (abs_nonneg x).trans hx
    rcases le_total 0 c with h | h
    · rw [max_eq_left h, min_eq_right h, mul_zero, add_zero, abs_mul]
      exact mul_le_mul hx hc (abs_nonneg _) ha
    · rw [max_eq_right h, min_eq_left h, mul_zero, zero_add, abs_mul]
      exact mul_le_mul hy hc (abs_nonneg _) ha
  intro i n
  simp only [mergeWithPrevious, ← Finset.sum_add_distrib]
  exact ⟨(Finset.abs_sum_le_sum_abs _ _).trans (Finset.sum_le_sum fun k _ => key _ _ _ _ _ (hA i k).1 (hA i k).2 (hB k n).1),
    (Finset.abs_sum_le_sum_abs _ _).trans (Finset.sum_le_sum fun k _ => key _ _ _ _ _ (hA i k).2 (hA i k).1 (hB k n).2)⟩

theorem near_merge [Fintype ι] [Fintype κ] (prev : Back ι κ α) (b : Back κ ν α) (x : ι → α) (y : κ → α) (t : ν → α) (s : κ → α)
    (sb : ν → α) (B : κ → ν → α) (hs : ∀ k, 0 ≤ s k) (hB : b.Bnd B) (h1 : prev.Near x y s) (h2 : b.Near y t sb) :
    (mergeWithPrevious prev b).Near x t (fun n => (∑ k, B k n * s k) + sb n) := by
  rw [near_iff_widen] at h1 h2
  have h := holds_merge _ _ x y t h1 h2
  have eu : ∀ n, (mergeWithPrevious (prev.widen s) (b.widen sb)).bu n =
      (mergeWithPrevious prev b).bu n + ((∑ k, |b.wu k n| * s k) + sb n) := by
    intro n
    simp only [mergeWithPrevious, Back.widen, ← abs_posneg, Finset.sum_sub_distrib, add_mul, sub_mul, Finset.sum_add_distrib,
      max_comm (0 : α), min_comm (0 : α), mul_comm (s _)]
    ring
  have el : ∀ n, (mergeWithPrevious (prev.widen s) (b.widen sb)).bl n =
      (mergeWithPrevious prev b).bl n + -((∑ k, |b.wl k n| * s k) + sb n) := by
    intro n
    simp only [mergeWithPrevious, Back.widen, ← abs_posneg, Finset.sum_sub_distrib, add_mul, sub_mul, Finset.sum_add_distrib,
      max_comm (0 : α), min_comm (0 : α), mul_comm (s _)]
    ring
  intro n
  obtain ⟨a1, a2⟩ := h n
  rw [el, affEval_add_const] at a1
  rw [eu, affEval_add_const] at a2
  have u1 : ∑ k, |b.wu k n| * s k ≤ ∑ k, B k n * s k := Finset.sum_le_sum fun k _ => mul_le_mul_of_nonneg_right (hB k n).1 (hs k)
  have u2 : ∑ k, |b.wl k n| * s k ≤ ∑ k, B k n * s k := Finset.sum_le_sum fun k _ => mul_le_mul_of_nonneg_right (hB k n).2 (hs k)
  have e1 : (mergeWithPrevious (prev.widen s) (b.widen sb)).wu = (mergeWithPrevious prev b).wu := rfl
  have e2 : (mergeWithPrevious (prev.widen s) (b.widen sb)).wl = (mergeWithPrevious prev b).wl := rfl
  rw [e2] at a1
  rw [e1] at a2
  constructor <;> linarith

omit [IsStrictOrderedRing α] in
theorem merge_widen [Fintype κ] (prev : Back ι κ α) (b : Back κ ν α) (s : ν → α) :
    mergeWithPrevious prev (b.widen s) = (mergeWithPrevious prev b).widen s := by
  unfold mergeWithPrevious Back.widen
  simp only [Back.mk.injEq, true_and]
  exact ⟨funext fun n => (add_assoc _ _ _).symm, funext fun n => by rw [sub_eq_add_neg, sub_eq_add_neg]; exact (add_assoc _ _ _).symm⟩

omit [IsStrictOrderedRing α] in
theorem fuse_widen [Fintype ι] (m : Mode) (inp : Full X ι ι α) (b : Back ι ν α) (s : ν → α) :
    fuse m inp (b.widen s) = (fuse m inp b).widen s := by
  unfold fuse
  split
  · exact merge_widen _ _ _
  · rfl

theorem convert2BackwardMode_near [Fintype ι] (D : PertDomain X ι α) (stack : (ι → α) → (ι → α) → X) (m : Mode)
    (inp : Full X ι ι α) (S : Set (ι → α)) (hD : m ≠ .ibp → D.Sound inp.x S)
    (hst : m = .ibp → D.Sound (stack inp.lc inp.uc) S) (p : ι → α) (hp : p ∈ S) (b : Back ι ν α) (t s : ν → α)
    (h : b.Near p t s) : Near m (convert2BackwardMode D stack m inp b) p t s := by
  have hx : D.Sound (if m = .ibp then stack inp.lc inp.uc else inp.x) S := by
    split
    · rename_i hm; exact hst hm
    · rename_i hm; exact hD hm
  refine ⟨fun hi k => ?_, fun ha k => ?_⟩
  · simp only [convert2BackwardMode, hi, if_true]
    exact ⟨(sub_le_sub_right (hx p hp _ _).1 _).trans (h k).1, (h k).2.trans (add_le_add_left (hx p hp _ _).2 _)⟩
  · simp only [convert2BackwardMode, ha, if_true]
    exact h k

/-- Bounds on the absolute values of the weights of a backward layer. -/
def Lay.absW [DecidableEq κ] : Lay α κ κ' → κ → κ' → α
  | .dense kernel _ => fun t o => |kernel t o|
  | @Lay.linear _ _ _ _ _ _ L kernel _ => toeplitz L (fun q => |kernel q|)
  | .relu _ _ => fun i k => if i = k then 1 else 0
  | .batchNorm gamma _ _ sd => fun i k => if i = k then |gamma k| / sd k else 0
  | .reshape e => fun i k => if i = e k then 1 else 0
  | .skip => fun i k => if i = k then 1 else 0

/-- The error made by the backward layer itself. -/
def Lay.ownErr : Lay α κ κ' → (κ → α) → κ' → α
  | .dense _ _, _ => fun _ => 0
  | @Lay.linear _ _ _ _ _ _ _ _ _, _ => fun _ => 0
  | .relu _ _, s => fun k => s k + 1 / 4
  | .batchNorm _ _ _ _, _ => fun _ => 0
  | .reshape _, _ => fun _ => 0
  | .skip, _ => fun _ => 0

theorem Lay.gain_split [Fintype κ] [DecidableEq κ] (l : Lay α κ κ') (s : κ → α) (k : κ') :
    l.ownErr s k + ∑ i, l.absW i k * s i = l.gain s k := by
  cases l with
  | dense kernel bias => simp [ownErr, absW, gain]
  | linear L kernel bias =>
    simp only [ownErr, absW, gain, zero_add]
    exact toeplitz_sum L (fun q => |kernel q|) s k
  | relu gf gb => simp [ownErr, absW, gain]; ring
  | batchNorm gamma beta mean sd => simp [ownErr, absW, gain]
  | reshape e => simp [ownErr, absW, gain]
  | skip => simp [ownErr, absW, gain]

theorem Lay.ownErr_nonneg (l : Lay α κ κ') (s : κ → α) (hs : ∀ k, 0 ≤ s k) (k : κ') : 0 ≤ l.ownErr s k := by
  cases l <;> simp only [ownErr, le_refl]
  linarith [hs k]

theorem Lay.backward_bnd [DecidableEq κ] (D : PertDomain X ι α) (m : Mode) (eps : α) (he : 0 < eps) (slope : Slope)
    (l : Lay α κ κ') (hl : l.WF) (f : Full X ι κ α) : (l.backward D m eps slope f).Bnd l.absW := by
  intro i k
  cases l with
  | dense kernel bias => exact ⟨le_rfl, le_rfl⟩
  | linear L kernel bias =>
    have : |toeplitz L kernel i k| ≤ toeplitz L (fun q => |kernel q|) i k := by
      refine (Finset.abs_sum_le_sum_abs _ _).trans (Finset.sum_le_sum fun t _ => ?_)
      cases L.src k t with
      | none => simp
      | some s =>
        simp only [Option.elim]
        split <;> simp
    exact ⟨this, this⟩
  | relu gf gb =>
    obtain ⟨⟨u0, u1⟩, l0, l1⟩ := hullRelu_unit (eps := eps) ((f.tighten D m true true).uc k) ((f.tighten D m true true).lc k) slope he
      (hl k).2.1 (hl k).2.2
    simp only [Lay.backward, backwardRelu, Back.ofDiag, diagLike, Lay.absW]
    split
    · rw [abs_of_nonneg u0, abs_of_nonneg l0]; exact ⟨u1, l1⟩
    · simp
  | batchNorm gamma beta mean sd =>
    simp only [Lay.backward, backwardBatchNorm, Lay.absW]
    split
    · rename_i h; subst h
      rw [one_mul, abs_div, abs_of_pos (hl i)]; exact ⟨le_rfl, le_rfl⟩
    · simp
  | reshape e =>
    simp only [Lay.backward, backwardReindex, Lay.absW]
    split <;> simp
  | skip =>
    simp only [Lay.backward, Back.identity, diagLike, Lay.absW]
    split <;> simp

theorem Lay.backward_near [Fintype ι] [Fintype κ] [DecidableEq κ] (D : PertDomain X ι α) (m : Mode) (eps : α) (he : 0 < eps)
    (slope : Slope) (l : Lay α κ κ') (hl : l.WF) (f : Full X ι κ α) (S : Set (ι → α)) (hD : D.Sound f.x S)
    (p : ι → α) (hp : p ∈ S) (y s : κ → α) (hs : ∀ k, 0 ≤ s k) (v : Near m f p y (fun k => eps * s k)) :
    (l.backward D m eps slope f).Near y (l.eval y) (fun k => eps * l.ownErr s k) := by
  have zero : ∀ {b : Back κ κ' α} {t : κ' → α}, b.Holds y t → b.Near y t (fun _ => eps * 0) := fun h k => by simpa using h k
  cases l with
  | dense kernel bias => exact zero (holds_dense kernel bias y)
  | linear L kernel bias => exact zero (holds_conv L kernel bias y)
  | relu gf gb =>
    intro k
    obtain ⟨c1, c2⟩ := near_tighten_const D m f S hD p hp y _ v k
    have lo := hullRelu_lower_all (u := (f.tighten D m true true).uc k) (l := (f.tighten D m true true).lc k) slope he
      (hl k).2.1 (hl k).2.2 (y k)
    have up := hullRelu_upper_near slope he (hl k).2.1 (hl k).2.2 (mul_nonneg he.le (hs k)) c1 c2
    have e : eps * (s k + 1 / 4) = eps * s k + eps / 4 := by ring
    simp only [Lay.backward, backwardRelu, Back.ofDiag, diagLike_sum, Lay.ownErr, Lay.eval, e]
    exact ⟨le_trans (by linarith [mul_nonneg he.le (hs k)]) lo, up⟩
  | batchNorm gamma beta mean sd => exact zero (holds_batchNorm gamma beta mean sd y)
  | reshape e => exact zero (holds_reindex e y)
  | skip => exact zero (holds_identity y)

theorem Net.noMultiply_of_chain {κ : Type} (n : Net α ι κ) (h : n.Chain) : n.NoMultiply := by
  induction n with
  | input => trivial
  | layer n l ih => exact ih h
  | merge op n0 n1 _ _ => exact absurd h (by simp [Net.Chain])

/-- Both entries of `crown_` on a chain succeed, with bounds whose error is known. -/
theorem CrownCfg.node_near [iF : Fintype ι] [DecidableEq ι] (c : CrownCfg X ι α) (he : 0 < c.eps) (S : Set (ι → α))
    (hD : c.D.Sound c.inp.x S)
    (hst : c.m = .ibp → c.D.Sound (c.stack c.inp.lc c.inp.uc) S) (p : ι → α) (hp : p ∈ S)
    (hi : Valid c.m false c.inp p p) {κ : Type} (n : Net α ι κ) (hc : n.Chain) (hn : n.WF) :
    (∃ b, (c.node n).first = .ok b ∧ b.Near p (n.eval p) (fun k => c.eps * n.gain k)) ∧
    ∀ [Fintype κ], ∀ (ν : Type) (b : Back κ ν α) (t sb : ν → α) (B : κ → ν → α), b.Bnd B → b.Near (n.eval p) t (fun k => c.eps * sb k) →
      ∃ b', (c.node n).next ν b = .ok b' ∧ b'.Near p t (fun k => c.eps * (sb k + ∑ q, B q k * n.gain q)) := by
  induction n with
  | input =>
    refine ⟨⟨_, rfl, ?_⟩, ?_⟩
    · have := fuse_holds c.m c.inp p hi _ _ (holds_identity p)
      intro k
      simpa [Net.gain, Net.eval] using this k
    · intro inst ν b t sb B _ h
      refine ⟨_, rfl, ?_⟩
      obtain rfl : iF = inst := Subsingleton.elim _ _
      have h' := h
      rw [near_iff_widen] at h'
      have := fuse_merge_holds c.m c.inp p hi _ t h'
      rw [merge_widen, fuse_widen, ← near_iff_widen] at this
      simp only [Net.gain, mul_zero, Finset.sum_const_zero, add_zero]
      exact this
  | merge op n0 n1 _ _ => exact absurd hc (by simp [Net.Chain])
  | @layer κ₁ κ₂ _ _ i3 n l ih =>
    obtain ⟨⟨b0, hb0, hh0⟩, hnext⟩ := ih hc hn.1
    have hchild : ∃ f, c.childInput n (c.node n) = .ok f ∧ c.D.Sound f.x S ∧ Decomon.Near c.m f p (n.eval p) (fun k => c.eps * n.gain k) := by
      unfold CrownCfg.childInput
      cases hu : c.useForward with
      | true =>
        refine ⟨_, if_pos rfl, by rw [Net.forward_x]; exact hD, ?_⟩
        exact Net.forward_near c.D c.m c.eps he c.slope c.inp S hD p hp hi n hn.1 (n.noMultiply_of_chain hc)
      | false =>
        refine ⟨convert2BackwardMode c.D c.stack c.m c.inp b0, by simp [hb0, Except.map], ?_, ?_⟩
        · simp only [convert2BackwardMode]; split <;> [exact hD; (rename_i hm; simpa [hm] using hD)]
        · exact convert2BackwardMode_near c.D c.stack c.m c.inp S (fun _ => hD) hst p hp b0 _ _ hh0
    obtain ⟨f, hf, hfx, hfv⟩ := hchild
    have hg := n.gain_nonneg hn.1
    have hl := l.backward_near c.D c.m c.eps he c.slope hn.2 f S hfx p hp _ _ hg hfv
    have hb := l.backward_bnd c.D c.m c.eps he c.slope hn.2 f
    constructor
    · obtain ⟨b', h1, h2⟩ := hnext κ₂ _ _ _ _ hb hl
      refine ⟨b', ?_, ?_⟩
      · simp only [CrownCfg.node, hf, Except.map, bind, Except.bind]
        exact h1
      · simp only [l.gain_split] at h2
        exact h2
    · intro inst ν b t sb B hB h
      obtain rfl : i3 = inst := Subsingleton.elim _ _
      have hm := near_merge _ b (n.eval p) (l.eval (n.eval p)) t _ _ B (fun k => mul_nonneg he.le (l.ownErr_nonneg _ hg k)) hB hl h
      have hmb := merge_bnd _ b _ B hb hB
      obtain ⟨b', h1, h2⟩ := hnext ν _ t (fun k => (∑ q, B q k * l.ownErr n.gain q) + sb k) _ hmb (hm.mono fun k => by
        rw [mul_add, Finset.mul_sum]
        refine le_of_eq (congrArg (· + _) (Finset.sum_congr rfl fun q _ => by ring)))
      refine ⟨b', ?_, h2.mono fun k => le_of_eq ?_⟩
      · simp only [CrownCfg.node, hf, Except.map, bind, Except.bind]
        exact h1
      · congr 1
        have e : ∑ i, (∑ q, l.absW i q * B q k) * n.gain i = ∑ q, B q k * ∑ i, l.absW i q * n.gain i := by
          simp only [Finset.sum_mul, Finset.mul_sum]
          rw [Finset.sum_comm]
          exact Finset.sum_congr rfl fun q _ => Finset.sum_congr rfl fun i _ => by ring
        rw [e, add_comm (∑ q, _) (sb k), add_assoc, ← Finset.sum_add_distrib]
        congr 1
        simp only [← mul_add, l.gain_split]
        rfl

end Back

end Decomon
