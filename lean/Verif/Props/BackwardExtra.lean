import Verif.Model.BackwardExtra
import Verif.Lemmas.Backward
import Verif.Lemmas.Core
import Verif.Props.BackAct

/-! Properties C135 (`backward_linear_prod`), C136 (`backward_sort`), C137 (`frac_pos_hull`) and C138
(`backward_softsign_`). -/

namespace Decomon

/-! ### C135 -/

section Prod
variable {X ι κ ν α : Type*} [Fintype ι] [Fintype κ] [Field α] [LinearOrder α] [IsStrictOrderedRing α]

theorem linearProd_masks (D : PertDomain X ι α) (x : X) (S : Set (ι → α)) (hD : D.Sound x S) (prev : Back ι κ α) (p : ι → α) (hp : p ∈ S)
    (k : κ) (y : α) (h1 : affEval (fun i => prev.wl i k) (prev.bl k) p ≤ y) (h2 : y ≤ affEval (fun i => prev.wu i k) (prev.bu k) p) :
    (linearProdMaskA D x prev k = 1 ∧ linearProdMaskB D x prev k = 0) ∨
      (linearProdMaskA D x prev k = 0 ∧ linearProdMaskB D x prev k = 1 ∧ affEval (fun i => prev.wl i k) (prev.bl k) p = y ∧
        affEval (fun i => prev.wu i k) (prev.bu k) p = y) := by
  have hg : affEval (fun i => prev.wu i k) (prev.bu k) p - affEval (fun i => prev.wl i k) (prev.bl k) p ≤ linearProdGap D x prev k := by
    have h := (hD p hp (fun i => prev.wu i k - prev.wl i k) (prev.bu k - prev.bl k)).2
    refine le_trans (le_of_eq ?_) h
    simp only [affEval, sub_mul, Finset.sum_sub_distrib]; ring
  have h0 : 0 ≤ linearProdGap D x prev k := by linarith
  rcases h0.lt_or_eq with h | h
  · left
    have e : ksign (linearProdGap D x prev k) = 1 := by rw [ksign, if_neg (not_lt.2 h.le), if_neg h.ne']
    simp [linearProdMaskA, linearProdMaskB, e]
  · right
    have e : ksign (linearProdGap D x prev k) = 0 := by rw [ksign, if_neg (not_lt.2 h.le), if_pos h.symm]
    refine ⟨by simp [linearProdMaskA, linearProdMaskB, e], by simp [linearProdMaskB, e], ?_, ?_⟩ <;> linarith

/-- C135, backward bounds with the axis of size one: if `bounds_x` are lower and upper lines of `y` at a point of the domain and the backward
bounds hold at `y`, then the result of `backward_linear_prod` holds at the point, whatever the signs of the weights and also where the two lines
of an entry meet.  Missing with respect to the full claim: backward bounds of the shape the backward layers return
(`C135_linear_prod_shape_refuted`). -/
theorem C135_linear_prod_partial (D : PertDomain X ι α) (x : X) (S : Set (ι → α)) (hD : D.Sound x S) (prev : Back ι κ α) (b : Back κ ν α)
    (p : ι → α) (hp : p ∈ S) (y : κ → α) (t : ν → α) (h1 : prev.Holds p y) (h2 : b.Holds y t) :
    (backwardLinearProd D x prev b).Holds p t := by
  set a := linearProdMaskA D x prev with ha
  set c := linearProdMaskB D x prev with hc
  have hm := fun k => linearProd_masks D x S hD prev p hp k (y k) (h1 k).1 (h1 k).2
  have eu : ∀ n, affEval (fun i => (backwardLinearProd D x prev b).wu i n) ((backwardLinearProd D x prev b).bu n) p =
      (∑ k, (a k * (max (b.wu k n) 0 * affEval (fun i => prev.wu i k) (prev.bu k) p +
        min (b.wu k n) 0 * affEval (fun i => prev.wl i k) (prev.bl k) p) +
        c k * (b.wu k n * affEval (fun i => prev.wu i k) (prev.bu k) p))) + b.bu n := by
    intro n
    simp only [backwardLinearProd]
    rw [affEval_add_const, affEval_add,
      affEval_sum Finset.univ (fun k i => a k * (max (b.wu k n) 0 * prev.wu i k + min (b.wu k n) 0 * prev.wl i k)),
      affEval_sum Finset.univ (fun k i => b.wu k n * c k * prev.wu i k), ← Finset.sum_add_distrib]
    congr 1
    refine Finset.sum_congr rfl fun k _ => ?_
    rw [affEval_smul, affEval_add, affEval_smul, affEval_smul, ← mul_assoc (c k), mul_comm (c k), affEval_smul, mul_assoc]
    ring
  have el : ∀ n, affEval (fun i => (backwardLinearProd D x prev b).wl i n) ((backwardLinearProd D x prev b).bl n) p =
      (∑ k, (a k * (max (b.wl k n) 0 * affEval (fun i => prev.wl i k) (prev.bl k) p +
        min (b.wl k n) 0 * affEval (fun i => prev.wu i k) (prev.bu k) p) +
        c k * (b.wl k n * affEval (fun i => prev.wl i k) (prev.bl k) p))) + b.bl n := by
    intro n
    simp only [backwardLinearProd]
    rw [affEval_add_const, affEval_add,
      affEval_sum Finset.univ (fun k i => a k * (max (b.wl k n) 0 * prev.wl i k + min (b.wl k n) 0 * prev.wu i k)),
      affEval_sum Finset.univ (fun k i => b.wl k n * c k * prev.wl i k), ← Finset.sum_add_distrib]
    congr 1
    refine Finset.sum_congr rfl fun k _ => ?_
    rw [affEval_smul, affEval_add, affEval_smul, affEval_smul, ← mul_assoc (c k), mul_comm (c k), affEval_smul, mul_assoc]
    ring
  intro n
  rw [eu, el]
  constructor
  · refine le_trans ?_ (h2 n).1
    conv_rhs => unfold affEval
    gcongr with k
    rcases hm k with ⟨e1, e2⟩ | ⟨e1, e2, e3, _⟩
    · rw [ha, hc, e1, e2, one_mul, zero_mul, add_zero]; exact posneg_le_mul (h1 k).1 (h1 k).2
    · rw [ha, hc, e1, e2, e3, one_mul, zero_mul, zero_add]
  · refine le_trans (h2 n).2 ?_
    conv_lhs => unfold affEval
    gcongr with k
    rcases hm k with ⟨e1, e2⟩ | ⟨e1, e2, _, e3⟩
    · rw [ha, hc, e1, e2, one_mul, zero_mul, add_zero]; exact mul_le_posneg (h1 k).1 (h1 k).2
    · rw [ha, hc, e1, e2, e3, one_mul, zero_mul, zero_add]

end Prod

/-- C135: with backward weights of the shape `(B, n, n_out)` the result is never of the shape `(B, d, n_out)`: the call raises, or the weights
have the batch axis twice. -/
theorem C135_linear_prod_shape_refuted (B d n nOut : ℕ) (hd : 0 < d) (hn : 0 < n) (hB : 0 < B) (ho : 0 < nOut) :
    (linearProdShape B d n nOut = .ok [B, B, max n d, nOut] ∧ (n = d ∨ n = 1 ∨ d = 1)) ∨
      (linearProdShape B d n nOut = .error .valueError ∧ ¬ (n = d ∨ n = 1 ∨ d = 1)) := by
  have e1 : max nOut 1 = nOut := max_eq_left ho
  have e2 : max 1 n = n := max_eq_right hn
  have e3 : max B 1 = B := max_eq_left hB
  by_cases h : n = d ∨ n = 1 ∨ d = 1
  · left
    simp [linearProdShape, broadcastRev, h, e1, e3, Except.map]
  · right
    simp [linearProdShape, broadcastRev, h, Except.map]

section ProdExample

/-- Bounds of `y = (p, p)` on the box [0, 1]: the first entry exact, the second between 0 and 1. -/
def meetingLines : Back Unit (Fin 2) ℚ where
  wu := fun _ k => ![1, 0] k
  bu := fun k => ![0, 1] k
  wl := fun _ k => ![1, 0] k
  bl := fun k => ![0, 0] k

/-- `t = y 1 - y 0`. -/
def differenceBack : Back (Fin 2) Unit ℚ where
  wu := fun k _ => ![-1, 1] k
  bu := fun _ => 0
  wl := fun k _ => ![-1, 1] k
  bl := fun _ => 0

/-- Non-vacuity of C135: one entry with lines that meet, one without; the result is `-p ≤ t ≤ 1 - p`. -/
example : (∀ p : Unit → ℚ, p ∈ Box (fun _ => 0) (fun _ => 1) →
      (backwardLinearProd boxDomain ⟨fun _ => 0, fun _ => 1⟩ meetingLines differenceBack).Holds p (fun _ => p () - p ())) ∧
    (backwardLinearProd boxDomain ⟨fun _ => 0, fun _ => 1⟩ meetingLines differenceBack).wu () () = -1 ∧
    (backwardLinearProd boxDomain ⟨fun _ => 0, fun _ => 1⟩ meetingLines differenceBack).bu () = 1 ∧
    (backwardLinearProd boxDomain ⟨fun _ => 0, fun _ => 1⟩ meetingLines differenceBack).bl () = 0 := by
  refine ⟨fun p hp => ?_, by decide +kernel, by decide +kernel, by decide +kernel⟩
  refine C135_linear_prod_partial boxDomain _ (Box (fun _ => 0) (fun _ => 1)) (boxDomain_sound _ _) meetingLines differenceBack p hp
    (fun _ => p ()) _ ?_ ?_
  · have h0 := (hp ()).1
    have h1 := (hp ()).2
    intro k
    fin_cases k <;> simp [meetingLines, affEval] <;> exact ⟨h0, h1⟩
  · intro k
    simp [differenceBack, affEval]

end ProdExample

/-! ### C136 -/

/-- C136: `backward_sort` raises `ValueError` on every batch whose size is not a multiple of the number of entries: on a batch of one sample it
never sorts two values. -/
theorem C136_sort_raises_refuted (B n : ℕ) (w : List ℕ) (hn : 0 < n) (h : ¬ n ∣ B) : backwardSortShape B n w = .error .valueError := by
  have : reshapeSquare (B * n) n = .error .valueError := by
    rw [reshapeSquare, if_pos]
    right
    intro h0
    exact h (Nat.dvd_of_mul_dvd_mul_right hn (Nat.dvd_of_mod_eq_zero h0))
  simp [backwardSortShape, this, bind, Except.bind]

/-- C136: with backward weights of the shape the comments of the function give, `(B, 1, n, n_out)`, at least two entries and at least one sample,
the call only returns when the batch has as many samples as there are entries. -/
theorem C136_sort_batch_refuted (B n nOut : ℕ) (hn : 2 ≤ n) (hB : 0 < B) (r : List ℕ × List ℕ)
    (h : backwardSortShape B n [nOut, n, 1, B] = .ok r) : B = n := by
  have hd : n ∣ B := by
    by_contra hd
    rw [C136_sort_raises_refuted B n _ (by omega) hd] at h
    cases h
  obtain ⟨q, rfl⟩ := hd
  have e : reshapeSquare (n * q * n) n = .ok q := by
    have h1 : n * q * n = n * n * q := by ring
    rw [reshapeSquare, if_neg, h1, Nat.mul_div_cancel_left _ (by positivity)]
    rw [h1, Nat.mul_mod_right]
    omega
  have hq : 0 < q := Nat.pos_of_mul_pos_left hB
  simp only [backwardSortShape, e, bind, Except.bind] at h
  by_cases hc : n * q = q ∨ n * q = 1 ∨ q = 1
  · rcases hc with hc | hc | hc
    · nlinarith
    · nlinarith
    · rw [hc, mul_one]
  · have hc' : ¬ (n * q = q ∨ n = 1 ∧ q = 1 ∨ q = 1) := fun h0 => hc (by
      rcases h0 with h0 | h0 | h0
      · exact Or.inl h0
      · omega
      · exact Or.inr (Or.inr h0))
    simp [broadcastRev, hc', Except.map] at h

/-- C136, one sample with one entry: the shapes fit and the result holds.  Missing with respect to the full claim: everything else
(`C136_sort_raises_refuted`, `C136_sort_batch_refuted`). -/
theorem C136_sort_one_partial {ν α : Type*} [Field α] [LinearOrder α] [IsStrictOrderedRing α] (uc lc : α) (b : Back Unit ν α)
    (y : Unit → α) (t : ν → α) (h1 : lc ≤ y ()) (h2 : y () ≤ uc) (h : b.Holds y t) (nOut : ℕ) (ho : 0 < nOut) :
    backwardSortShape 1 1 [nOut, 1, 1, 1] = .ok ([1, 1, nOut], [1, 1, nOut]) ∧ (backwardSortOne uc lc b).Holds y t := by
  constructor
  · have e1 : max nOut 1 = nOut := max_eq_left ho
    simp [backwardSortShape, reshapeSquare, broadcastRev, Except.map, bind, Except.bind, e1]
  · intro n
    have hn := h n
    simp only [affEval, Finset.univ_unique, Finset.sum_singleton] at hn
    simp only [backwardSortOne, affEval, mul_zero, add_zero, zero_mul, Finset.sum_const_zero, zero_add]
    have hu := mul_le_posneg (w := b.wu () n) h1 h2
    have hl := posneg_le_mul (w := b.wl () n) h1 h2
    exact ⟨by linarith [hn.1], by linarith [hn.2]⟩

example : (backwardSortOne (2 : ℚ) 1 ⟨fun _ _ : Unit => -1, fun _ => 0, fun _ _ => -1, fun _ => 0⟩).Holds (fun _ => 3 / 2) (fun _ => -(3 / 2)) :=
  (C136_sort_one_partial 2 1 _ (fun _ => 3 / 2) _ (by norm_num) (by norm_num) (fun n => by simp [affEval]) 1 one_pos).2

/-- Non-vacuity of C136: one value in [1, 2], `t = -y`. -/
example : (backwardSortOne (2 : ℚ) 1 ⟨fun _ _ : Unit => -1, fun _ => 0, fun _ _ => -1, fun _ => 0⟩).bu () = -1 ∧
    (backwardSortOne (2 : ℚ) 1 ⟨fun _ _ : Unit => -1, fun _ => 0, fun _ _ => -1, fun _ => 0⟩).bl () = -2 := by
  constructor <;> decide +kernel

/-- Non-vacuity of C136: one sample with two values; two samples with two values give weights of the wrong size. -/
example : backwardSortShape 1 2 [3, 2, 1] = .error .valueError ∧ backwardSortShape 1 2 [3, 2, 1, 1] = .error .valueError ∧
    backwardSortShape 2 2 [2, 2, 1, 2] = .ok ([2, 2, 2], [2, 2, 2]) ∧ backwardSortShape 4 2 [2, 2, 1, 4] = .error .valueError := by
  refine ⟨rfl, rfl, rfl, rfl⟩

/-! ### C137 -/

section Hull
variable {α : Type*} [Field α] [LinearOrder α] [IsStrictOrderedRing α]

/-- C137: with the functions of Keras `frac_pos_hull` raises `TypeError` on all inputs. -/
theorem C137_hull_raises_refuted (uc lc : α) : fracPosHull none uc lc = .error .typeError := rfl

/-- C137: if `K.power(z)` were the square, the lines would be bounds of `1/y` on `[l, u]` for every `1 ≤ l < u`, and the upper line would meet
`1/y` at both ends and the lower line at the middle.  Missing with respect to the full claim: the function raises (`C137_hull_raises_refuted`);
lower bounds below one (`C137_hull_clip_refuted`). -/
theorem C137_hull_square_partial (u l y : α) (hl : 1 ≤ l) (hlu : l < u) (h1 : l ≤ y) (h2 : y ≤ u) :
    ∃ wu bu wl bl, fracPosHull (some fun z => z * z) u l = .ok (wu, bu, wl, bl) ∧ wl * y + bl ≤ 1 / y ∧ 1 / y ≤ wu * y + bu ∧
      wu * l + bu = 1 / l ∧ wu * u + bu = 1 / u ∧ wl * ((u + l) / 2) + bl = 1 / ((u + l) / 2) := by
  refine ⟨_, _, _, _, rfl, ?_⟩
  have hl0 : 0 < l := by linarith
  have hu0 : 0 < u := by linarith
  have hy0 : 0 < y := by linarith
  have hd : 0 < u - l := by linarith
  set z := (u + l) / 2 with hz
  have hz0 : 0 < z := by rw [hz]; linarith
  have ew : (1 / u - 1 / l) / (u - l) = -1 / (u * l) := by field_simp; ring
  simp only [max_eq_left hl, ← hz]
  refine ⟨?_, ?_, ?_, ?_, ?_⟩
  · have : 1 / y - (-1 / (z * z) * y + 2 / z) = (z - y) ^ 2 / (y * (z * z)) := by field_simp; ring
    have h0 : 0 ≤ (z - y) ^ 2 / (y * (z * z)) := by positivity
    linarith
  · rw [ew]
    have : -1 / (u * l) * y + (1 / u - -1 / (u * l) * u) - 1 / y = (u - y) * (y - l) / (u * l * y) := by field_simp; ring
    have h0 : 0 ≤ (u - y) * (y - l) / (u * l * y) := div_nonneg (mul_nonneg (by linarith) (by linarith)) (by positivity)
    linarith
  · rw [ew]; field_simp; ring
  · ring
  · field_simp; ring

example : ∃ wu bu wl bl, fracPosHull (some fun z : ℚ => z * z) 3 1 = .ok (wu, bu, wl, bl) ∧ wl * (3 / 2) + bl ≤ 1 / (3 / 2) ∧ 1 / (3 / 2) ≤ wu * (3 / 2) + bu := by
  obtain ⟨a, b, c, d, h, h1, h2, -⟩ := C137_hull_square_partial (3 : ℚ) 1 (3 / 2) le_rfl (by norm_num) (by norm_num) (by norm_num)
  exact ⟨a, b, c, d, h, h1, h2⟩

/-- C137: below one the clip of line 943 makes the upper line false, even if `K.power(z)` were the square: for every `0 < l < 1 < u` and every
`y` in `[l, 1)`, `1/y` is above the line. -/
theorem C137_hull_clip_refuted (u l y : α) (hl : 0 < l) (hl1 : l < 1) (hu : 1 < u) (h1 : l ≤ y) (h2 : y < 1) :
    ∃ wu bu wl bl, fracPosHull (some fun z => z * z) u l = .ok (wu, bu, wl, bl) ∧ wu * y + bu < 1 / y := by
  refine ⟨_, _, _, _, rfl, ?_⟩
  have hu0 : 0 < u := by linarith
  have hy0 : 0 < y := by linarith
  have hd : 0 < u - 1 := by linarith
  simp only [max_eq_right hl1.le]
  have ew : (1 / u - 1 / 1) / (u - 1) = -1 / u := by field_simp; ring
  rw [ew]
  have : 1 / y - (-1 / u * y + (1 / u - -1 / u * u)) = (u - y) * (1 - y) / (u * y) := by field_simp; ring
  have h0 : 0 < (u - y) * (1 - y) / (u * y) := div_pos (mul_pos (by linarith) (by linarith)) (by positivity)
  linarith

/-- Example for C137: the lines on [1, 3] and, wrongly, on [1/2, 3]. -/
example : fracPosHull (some fun z : ℚ => z * z) 3 1 = .ok (-1 / 3, 4 / 3, -1 / 4, 1) ∧
    fracPosHull (some fun z : ℚ => z * z) 3 (1 / 2) = .ok (-1 / 3, 4 / 3, -1 / 4, 1) ∧ (-1 / 3 : ℚ) * (1 / 2) + 4 / 3 < 1 / (1 / 2) := by
  refine ⟨by decide +kernel, by decide +kernel, by decide +kernel⟩

end Hull

/-! ### C138 -/

section Softsign
variable {X ι κ ν α : Type*} [Fintype κ] [Field α] [LinearOrder α] [IsStrictOrderedRing α]

theorem softsignBackW_eq (up lo w : α) : softsignBackW up lo w = max w 0 * up + min w 0 * lo := by
  rw [softsignBackW, max_comm, min_comm]

/-- C138, one sample and backward weights of shape `(1, 1, n, n_out)`: where the lines of softsign hold at every entry, backward bounds of the
output of the activation become backward bounds of its input.  Missing with respect to the full claim: backward weights with three axes
(`C138_softsign_axis_refuted`), several samples (`C138_softsign_batch_refuted`), and entries at which the lines do not hold (C18). -/
theorem C138_softsign_partial (D : PertDomain X ι α) (m : Mode) (eps : α) (inp : Full X ι κ α) (b : Back κ ν α) (y : κ → α) (t : ν → α)
    (hl : ∀ k, (softsignLines D m eps inp k).wl * y k + (softsignLines D m eps inp k).bl ≤ softsign (y k) ∧
      softsign (y k) ≤ (softsignLines D m eps inp k).wu * y k + (softsignLines D m eps inp k).bu)
    (h : b.Holds (fun k => softsign (y k)) t) : (backwardSoftsignOld D m eps inp b).Holds y t := by
  intro n
  have hn := h n
  constructor
  · refine le_trans ?_ hn.1
    simp only [backwardSoftsignOld, affEval, softsignBackW_eq]
    rw [← add_assoc, ← Finset.sum_add_distrib]
    gcongr with k
    have := posneg_le_mul (w := b.wl k n) (hl k).1 (hl k).2
    linarith
  · refine le_trans hn.2 ?_
    simp only [backwardSoftsignOld, affEval, softsignBackW_eq]
    rw [← add_assoc, ← Finset.sum_add_distrib]
    gcongr with k
    have := mul_le_posneg (w := b.wu k n) (hl k).1 (hl k).2
    linarith

/-- Non-vacuity of C138: one entry in `[1, 3]`, `t = -softsign y`. -/
example : (backwardSoftsignOld boxDomain .ibp (1 / 10) (oneInput 1 3) ⟨fun _ (_ : Unit) => -1, fun _ => 0, fun _ _ => -1, fun _ => 0⟩).Holds
    (fun _ => (2 : ℚ)) (fun _ => -softsign 2) := by
  refine C138_softsign_partial _ _ _ _ _ _ _ (fun k => ?_) (fun k => ?_)
  · have hk : k = 0 := Subsingleton.elim _ _
    subst hk
    constructor <;> decide +kernel
  · simp [affEval]

end Softsign

/-- C138 from the bounds of the input: the result holds at every point of the region where each interval is a point, or is at least epsilon wide
and does not meet zero (for the others see C18).  Missing: as above. -/
theorem C138_softsign_sound_partial {X ι κ ν : Type} [Fintype κ] (D : PertDomain X ι ℝ) (m : Mode) (eps : ℝ) (he : 0 < eps) (inp : Full X ι κ ℝ)
    [Fintype ι] (S : Set (ι → ℝ)) (hD : D.Sound inp.x S) (p : ι → ℝ) (hp : p ∈ S) (y : κ → ℝ) (hv : Valid m false inp p y)
    (hs : ∀ k, OneSided eps ((inp.tighten D m true true).lc k) ((inp.tighten D m true true).uc k)) (b : Back κ ν ℝ) (t : ν → ℝ)
    (h : b.Holds (fun k => softsign (y k)) t) : (backwardSoftsignOld D m eps inp b).Holds y t := by
  have hc := tighten_const D m false inp S hD p hp _ hv
  refine C138_softsign_partial D m eps inp b y t (fun k => ?_) h
  refine (C18_iff sshaped_softsign eps he _ _ ((hc k).1.trans (hc k).2) ?_).2 (hs k) _ (hc k).1 (hc k).2
  rcases hs k with h | ⟨h1, h | h⟩
  · exact .inl h
  · exact .inr ⟨h.ne', by linarith⟩
  · exact .inr ⟨by linarith, h.ne⟩

/-- Non-vacuity: one input between 1 and 3, in affine mode. -/
example (b : Back (Fin 1) (Fin 1) ℝ) (t : Fin 1 → ℝ) (h : b.Holds (fun _ => softsign 2) t) :
    (backwardSoftsignOld boxDomain .affine (1 / 10) (inputTensorsBox .affine (fun _ => (1 : ℝ)) (fun _ => 3)) b).Holds (fun _ => 2) t := by
  have hp : (fun _ : Fin 1 => (2 : ℝ)) ∈ Box (fun _ => 1) (fun _ => 3) := fun _ => by norm_num
  refine C138_softsign_sound_partial _ _ _ (by norm_num) _ (Box (fun _ => 1) (fun _ => 3)) (boxDomain_sound _ _) (fun _ => 2) hp _
    (C27_input_box .affine _ _ _ hp) (fun k => ?_) b t h
  obtain rfl : k = 0 := Subsingleton.elim _ _
  right
  simp [Full.tighten, inputTensorsBox, boxDomain, getLowerBox, getUpperBox, getAffine]
  norm_num

/-- Two entries, both between 1 and 3. -/
def twoOneThree : Full ((Fin 2 → ℚ) × (Fin 2 → ℚ)) (Fin 2) (Fin 2) ℚ where
  x := (fun _ => 1, fun _ => 3)
  uc := fun _ => 3
  lc := fun _ => 1
  wu := fun _ _ => 0
  bu := fun _ => 0
  wl := fun _ _ => 0
  bl := fun _ => 0
  h := fun _ => 0
  g := fun _ => 0

/-- Output 0 is the sum of the two entries, output 1 is zero. -/
def sumAndZero : Back (Fin 2) (Fin 2) ℚ where
  wu := fun _ n => ![1, 0] n
  bu := fun _ => 0
  wl := fun _ n => ![1, 0] n
  bl := fun _ => 0

/-- C138: with backward weights of the shape of the backward layers, `(batch, n, n_out)`, the biases of the lines are summed over the outputs
instead of the entries: an upper bound and a lower bound are false although the lines of softsign and the backward bounds hold. -/
theorem C138_softsign_axis_refuted : ∃ (y t : Fin 2 → ℚ),
    (∀ k, (softsignLines boxDomain .ibp (1 / 10) twoOneThree k).wl * y k + (softsignLines boxDomain .ibp (1 / 10) twoOneThree k).bl ≤ softsign (y k) ∧
      softsign (y k) ≤ (softsignLines boxDomain .ibp (1 / 10) twoOneThree k).wu * y k + (softsignLines boxDomain .ibp (1 / 10) twoOneThree k).bu) ∧
    sumAndZero.Holds (fun k => softsign (y k)) t ∧
    affEval (fun i => (backwardSoftsignOld3 boxDomain .ibp (1 / 10) twoOneThree sumAndZero).wu i 0)
      ((backwardSoftsignOld3 boxDomain .ibp (1 / 10) twoOneThree sumAndZero).bu 0) y < t 0 ∧
    t 1 < affEval (fun i => (backwardSoftsignOld3 boxDomain .ibp (1 / 10) twoOneThree sumAndZero).wl i 1)
      ((backwardSoftsignOld3 boxDomain .ibp (1 / 10) twoOneThree sumAndZero).bl 1) y := by
  refine ⟨fun _ => 1, ![1, 0], fun k => ?_, fun k => ?_, ?_, ?_⟩
  · fin_cases k <;> decide +kernel
  · fin_cases k <;> decide +kernel
  · decide +kernel
  · decide +kernel

/-- C138: with several samples and backward weights of shape `(B, 1, n, n_out)` the result has the batch axis twice, in the weights and in the
biases; with three axes and a number of outputs different from the number of entries (none of the two being one) the call raises. -/
theorem C138_softsign_batch_refuted (B n nOut : ℕ) (hB : 2 ≤ B) (hn : 0 < n) (ho : 0 < nOut) :
    softsignOldShape B n [nOut, n, 1, B] [nOut, 1, B] = .ok ([B, B, n, nOut], [B, B, nOut]) ∧
    (n ≠ nOut → n ≠ 1 → nOut ≠ 1 → softsignOldShape B n [nOut, n, B] [nOut, B] = .error .valueError) := by
  have e1 : max nOut 1 = nOut := max_eq_left ho
  have e2 : max 1 B = B := max_eq_right (by omega)
  have e3 : max B 1 = B := max_eq_left (by omega)
  constructor
  · simp [softsignOldShape, broadcastRev, Except.map, bind, Except.bind, e1, e2, e3]
  · intro h1 h2 h3
    simp [softsignOldShape, broadcastRev, Except.map, bind, Except.bind, e1, h1, h2, h3]

/-- Example for C138: two samples. -/
example : softsignOldShape 2 3 [4, 3, 1, 2] [4, 1, 2] = .ok ([2, 2, 3, 4], [2, 2, 4]) ∧ softsignOldShape 1 3 [4, 3, 1, 1] [4, 1, 1] = .ok ([1, 1, 3, 4], [1, 1, 4]) ∧
    softsignOldShape 2 3 [4, 3, 2] [4, 2] = .error .valueError := by
  refine ⟨rfl, rfl, rfl⟩

end Decomon
