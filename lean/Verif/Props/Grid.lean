import Verif.Lemmas.Grid
import Mathlib.Tactic.NormNum

/-!
C106: the search over a grid of the box.
-/

namespace Decomon

section
variable {α : Type*} [Field α] [LinearOrder α] [IsStrictOrderedRing α]

/-- The points of the grid with `n` steps per coordinate of the box. -/
def GridPoint {d : ℕ} (xmin xmax : Fin d → α) (n : ℕ) (p : Fin d → α) : Prop :=
  ∃ j : Fin d → ℕ, (∀ i, j i ≤ n) ∧ ∀ i, p i = xmin i + j i * ((xmax i - xmin i) / n)

/-- The values of `W x + b` on the grid are those of the subset-sum problem. -/
theorem grid_values {d : ℕ} (xmin xmax W : Fin d → α) (b : α) (n : ℕ) (hn : 0 < n) (v : α) :
    (∃ p, GridPoint xmin xmax n p ∧ affEval W b p = v) ↔
      ∃ s, Reach n (convertLowerSearch xmin xmax W b n).1 s ∧ v = s + (convertLowerSearch xmin xmax W b n).2 := by
  have hn' : (n : α) ≠ 0 := by exact_mod_cast hn.ne'
  -- value of one coordinate
  have key : ∀ (i : Fin d) (j : ℕ), j ≤ n → W i * (xmin i + j * ((xmax i - xmin i) / n)) =
      ((if 0 ≤ W i then j else n - j : ℕ) : α) * (|W i| * ((xmax i - xmin i) / n)) + (max (W i) 0 * xmin i + min (W i) 0 * xmax i) := by
    intro i j hj
    split_ifs with h
    · rw [abs_of_nonneg h, max_eq_left h, min_eq_right h]; ring
    · have h' := (not_le.mp h).le
      rw [abs_of_nonpos h', max_eq_right h', min_eq_left h', Nat.cast_sub hj]
      field_simp
      ring
  have val : ∀ (p : Fin d → α) (j : Fin d → ℕ), (∀ i, j i ≤ n) → (∀ i, p i = xmin i + j i * ((xmax i - xmin i) / n)) →
      affEval W b p = (∑ i, ((if 0 ≤ W i then j i else n - j i : ℕ) : α) * (|W i| * ((xmax i - xmin i) / n))) +
        (convertLowerSearch xmin xmax W b n).2 := by
    intro p j hj hp
    simp only [affEval, convertLowerSearch, boxDomain, getLowerBox]
    rw [← add_assoc, ← Finset.sum_add_distrib]
    congr 1
    exact Finset.sum_congr rfl fun i _ => by rw [hp i, key i (j i) (hj i)]
  constructor
  · rintro ⟨p, ⟨j, hj, hp⟩, rfl⟩
    refine ⟨_, (reach_ofFn n _ _).mpr ⟨fun i => if 0 ≤ W i then j i else n - j i, fun i => ?_, rfl⟩, val p j hj hp⟩
    dsimp only
    split_ifs
    · exact hj i
    · exact Nat.sub_le _ _
  · rintro ⟨s, hs, rfl⟩
    obtain ⟨j, hj, rfl⟩ := (reach_ofFn n _ _).mp hs
    have hj' : ∀ i, (if 0 ≤ W i then j i else n - j i) ≤ n := fun i => by
      split_ifs
      · exact hj i
      · exact Nat.sub_le _ _
    refine ⟨fun i => xmin i + ((if 0 ≤ W i then j i else n - j i : ℕ) : α) * ((xmax i - xmin i) / n),
      ⟨_, hj', fun i => rfl⟩, ?_⟩
    rw [val _ _ hj' fun i => rfl]
    congr 1
    refine Finset.sum_congr rfl fun i _ => ?_
    congr 2
    split_ifs
    · rfl
    · exact Nat.sub_sub_self (hj i)

theorem step_nonneg {d : ℕ} (xmin xmax W : Fin d → α) (b : α) (n : ℕ) (hb : ∀ i, xmin i ≤ xmax i) :
    ∀ w ∈ (convertLowerSearch xmin xmax W b n).1, 0 ≤ w := by
  intro w hw
  obtain ⟨i, rfl⟩ := (List.mem_ofFn' _ _).mp hw
  exact mul_nonneg (abs_nonneg _) (div_nonneg (sub_nonneg.mpr (hb i)) (Nat.cast_nonneg n))

/-- C106: when `W x + b` is not positive everywhere on the box, `get_lower_bound_grid` returns a value of `W x + b` at a point of the
grid, and this value is not positive. -/
theorem C106_attained {d : ℕ} (xmin xmax W : Fin d → α) (b : α) (n : ℕ) (hn : 0 < n) (hb : ∀ i, xmin i ≤ xmax i)
    (h0 : ∃ p ∈ Box xmin xmax, affEval W b p ≤ 0) :
    (∃ p, GridPoint xmin xmax n p ∧ affEval W b p = getLowerBoundGrid xmin xmax W b n) ∧ getLowerBoundGrid xmin xmax W b n ≤ 0 := by
  obtain ⟨p, hp, h0⟩ := h0
  have hc : (convertLowerSearch xmin xmax W b n).2 ≤ 0 := (boxDomain_sound xmin xmax p hp W b).1.trans h0
  obtain ⟨k, -, h1, h2, -⟩ := subsetSumLower_spec _ _ n (step_nonneg xmin xmax W b n hb) hc
  refine ⟨(grid_values xmin xmax W b n hn _).mpr ⟨_, ?_, h1⟩, h2⟩
  exact reach_perm n (List.perm_insertionSort _ _) _ (reach_take n _ k)

/-- C106: otherwise it returns 0, which is below every value. -/
theorem C106_positive {d : ℕ} (xmin xmax W : Fin d → α) (b : α) (n : ℕ) (hb : ∀ i, xmin i ≤ xmax i)
    (h0 : ∀ p ∈ Box xmin xmax, 0 < affEval W b p) : getLowerBoundGrid xmin xmax W b n = 0 := by
  refine subsetSumLower_pos _ _ n (step_nonneg xmin xmax W b n hb) ?_
  have : ∃ p ∈ Box xmin xmax, affEval W b p = (convertLowerSearch xmin xmax W b n).2 := by
    refine ⟨fun i => if 0 ≤ W i then xmin i else xmax i, fun i => by dsimp only; split_ifs <;> simp [hb i], ?_⟩
    simp only [affEval, convertLowerSearch, boxDomain, getLowerBox]
    congr 1
    refine Finset.sum_congr rfl fun i _ => ?_
    split_ifs with h
    · simp [h]
    · simp [(not_le.mp h).le]
  obtain ⟨p, hp, e⟩ := this
  rw [← e]
  exact h0 p hp

/-- C106: the value is within one step of the best one: no point of the grid with a value that is not positive is better by the
largest step `|W i| (xmax i - xmin i) / n` or more.  Missing with respect to the full claim (the maximum over the grid of the values
that are not positive): the maximum itself, refuted below. -/
theorem C106_one_step_partial {d : ℕ} (xmin xmax W : Fin d → α) (b : α) (n : ℕ) (hn : 0 < n) (hb : ∀ i, xmin i ≤ xmax i)
    (p : Fin d → α) (hp : GridPoint xmin xmax n p) (h0 : affEval W b p ≤ 0) :
    affEval W b p ≤ getLowerBoundGrid xmin xmax W b n ∨
      ∃ i, affEval W b p < getLowerBoundGrid xmin xmax W b n + |W i| * ((xmax i - xmin i) / n) := by
  have hpos := step_nonneg xmin xmax W b n hb
  obtain ⟨s, hs, e⟩ := (grid_values xmin xmax W b n hn _).mp ⟨p, hp, rfl⟩
  obtain ⟨j, hj, rfl⟩ := (reach_ofFn n _ s).mp hs
  have hw : ∀ i, 0 ≤ |W i| * ((xmax i - xmin i) / n) := fun i => hpos _ ((List.mem_ofFn' _ _).mpr ⟨i, rfl⟩)
  have hs0 : 0 ≤ ∑ i, (j i : α) * (|W i| * ((xmax i - xmin i) / n)) :=
    Finset.sum_nonneg fun i _ => mul_nonneg (Nat.cast_nonneg _) (hw i)
  have hc : (convertLowerSearch xmin xmax W b n).2 ≤ 0 := by linarith
  obtain ⟨k, hk, h1, h2, h3⟩ := subsetSumLower_spec _ _ n hpos hc
  rcases h3 with h3 | ⟨w, hw', h3⟩
  · left
    have : getLowerBoundGrid xmin xmax W b n = n * (convertLowerSearch xmin xmax W b n).1.sum + (convertLowerSearch xmin xmax W b n).2 := by
      unfold getLowerBoundGrid
      dsimp only
      rw [h1, h3, List.take_length, flatMap_replicate_sum, (List.perm_insertionSort _ _).sum_eq]
    rw [this, e]
    simp only [convertLowerSearch, List.sum_ofFn, Finset.mul_sum]
    gcongr with i
    · exact hw i
    · exact hj i
  · right
    obtain ⟨i, rfl⟩ := (List.mem_ofFn' _ _).mp hw'
    exact ⟨i, lt_of_le_of_lt h0 h3⟩

/-- C106: when all the steps are equal the value is the maximum over the grid of the values that are not positive. -/
theorem C106_equal_steps_exact {d : ℕ} (xmin xmax W : Fin d → α) (b c : α) (n : ℕ) (hn : 0 < n) (hb : ∀ i, xmin i ≤ xmax i)
    (hc : ∀ i, |W i| * ((xmax i - xmin i) / n) = c) (p : Fin d → α) (hp : GridPoint xmin xmax n p) (h0 : affEval W b p ≤ 0) :
    affEval W b p ≤ getLowerBoundGrid xmin xmax W b n := by
  have hpos := step_nonneg xmin xmax W b n hb
  rcases C106_one_step_partial xmin xmax W b n hn hb p hp h0 with h | ⟨i, h⟩
  · exact h
  obtain ⟨s, hs, e⟩ := (grid_values xmin xmax W b n hn _).mp ⟨p, hp, rfl⟩
  obtain ⟨j, hj, rfl⟩ := (reach_ofFn n _ s).mp hs
  rw [hc i] at h
  simp only [hc] at e
  have c0 : 0 ≤ c := by rw [← hc i]; exact hpos _ ((List.mem_ofFn' _ _).mpr ⟨i, rfl⟩)
  have hs0 : (0 : α) ≤ ∑ i, (j i : α) * c := Finset.sum_nonneg fun i _ => mul_nonneg (Nat.cast_nonneg _) c0
  obtain ⟨k, hk, h1, -, -⟩ := subsetSumLower_spec _ _ n hpos (show (convertLowerSearch xmin xmax W b n).2 ≤ 0 by linarith)
  have hall : ∀ w ∈ ((convertLowerSearch xmin xmax W b n).1.insertionSort (· ≤ ·)), w = c := by
    intro w hw
    obtain ⟨i, rfl⟩ := (List.mem_ofFn' _ _).mp ((List.mem_insertionSort _).mp hw)
    exact hc i
  rw [flatMap_replicate_const n c _ hall] at h1 hk
  rw [List.take_replicate, List.sum_replicate, List.length_replicate] at *
  have g : getLowerBoundGrid xmin xmax W b n = (min k _ : ℕ) • c + (convertLowerSearch xmin xmax W b n).2 := h1
  rw [min_eq_left hk, nsmul_eq_mul] at g
  rw [g, e] at h ⊢
  rw [← Finset.sum_mul, ← Nat.cast_sum] at h ⊢
  have h' : ((∑ i, j i : ℕ) : α) * c < ((k + 1 : ℕ) : α) * c := by push_cast; push_cast at h; linarith
  have hlt : (∑ i, j i) < k + 1 := by
    have := lt_of_mul_lt_mul_right h' c0
    exact_mod_cast this
  have : ((∑ i, j i : ℕ) : α) ≤ (k : α) := by exact_mod_cast Nat.lt_succ_iff.mp hlt
  have := mul_le_mul_of_nonneg_right this c0
  linarith

/-- C106: `get_upper_bound_grid` is the mirror image: not negative, and the value at a point of the grid when `W x + b` is not
negative everywhere. -/
theorem C106_upper {d : ℕ} (xmin xmax W : Fin d → α) (b : α) (n : ℕ) (hn : 0 < n) (hb : ∀ i, xmin i ≤ xmax i)
    (h0 : ∃ p ∈ Box xmin xmax, 0 ≤ affEval W b p) :
    (∃ p, GridPoint xmin xmax n p ∧ affEval W b p = getUpperBoundGrid xmin xmax W b n) ∧ 0 ≤ getUpperBoundGrid xmin xmax W b n := by
  obtain ⟨q, hq, h0⟩ := h0
  obtain ⟨⟨p, hp, h1⟩, h2⟩ := C106_attained xmin xmax (fun i => -W i) (-b) n hn hb ⟨q, hq, by rw [affEval_neg]; linarith⟩
  refine ⟨⟨p, hp, ?_⟩, ?_⟩
  · rw [affEval_neg] at h1
    unfold getUpperBoundGrid
    linarith
  · unfold getUpperBoundGrid
    linarith

/-- C106: the pair of `get_bound_grid`: the first number is a value of the upper form, the second one a value of the lower form. -/
theorem C106_pair {d : ℕ} (xmin xmax Wu : Fin d → α) (bu : α) (Wl : Fin d → α) (bl : α) (n : ℕ) (hn : 0 < n) (hb : ∀ i, xmin i ≤ xmax i)
    (hu : ∃ p ∈ Box xmin xmax, 0 ≤ affEval Wu bu p) (hl : ∃ p ∈ Box xmin xmax, affEval Wl bl p ≤ 0) :
    (∃ p, GridPoint xmin xmax n p ∧ affEval Wu bu p = (getBoundGrid xmin xmax Wu bu Wl bl n).1) ∧
    (∃ p, GridPoint xmin xmax n p ∧ affEval Wl bl p = (getBoundGrid xmin xmax Wu bu Wl bl n).2) ∧
    (getBoundGrid xmin xmax Wu bu Wl bl n).2 ≤ 0 ∧ 0 ≤ (getBoundGrid xmin xmax Wu bu Wl bl n).1 := by
  have h1 := C106_upper xmin xmax Wu bu n hn hb hu
  have h2 := C106_attained xmin xmax Wl bl n hn hb hl
  exact ⟨h1.1, h2.1, h2.2, h1.2⟩

end

/-- C106: the value is not the maximum: `x + 3 y - 3` on `[0,1]²` with one step per coordinate takes the value 0 at `(0,1)`, the
search returns -2, the value at `(1,0)`. -/
theorem C106_maximum_refuted : ∃ (xmin xmax W : Fin 2 → ℚ) (b : ℚ), (∀ i, xmin i ≤ xmax i) ∧
    ∃ p, GridPoint xmin xmax 1 p ∧ affEval W b p = 0 ∧ getLowerBoundGrid xmin xmax W b 1 = -2 := by
  refine ⟨fun _ => 0, fun _ => 1, ![1, 3], -3, fun _ => by norm_num, ![0, 1], ⟨![0, 1], by decide, by decide +kernel⟩,
    by decide +kernel, by decide +kernel⟩

/-- C106: the two numbers of `get_bound_grid` are not bounds of `W x + b`: on `[0,1]` the function `x - 3` has the values `-3` to `-2`,
the pair is `(0, -2)`. -/
theorem C106_bounds_refuted : ∃ (xmin xmax W : Fin 1 → ℚ) (b : ℚ), (∀ i, xmin i ≤ xmax i) ∧
    ∃ p ∈ Box xmin xmax, affEval W b p < (getBoundGrid xmin xmax W b W b 2).2 := by
  refine ⟨fun _ => 0, fun _ => 1, fun _ => 1, -3, fun _ => by norm_num, fun _ => 0, fun _ => by norm_num, by decide +kernel⟩

/-- The theorems of C106 for `2 x - 1` on `[0, 1]` with three steps. -/
example :
    (∃ p, GridPoint (fun _ : Fin 1 => (0 : ℚ)) (fun _ => 1) 3 p ∧ affEval (fun _ => 2) (-1) p = -1 / 3) ∧
    (∃ p, GridPoint (fun _ : Fin 1 => (0 : ℚ)) (fun _ => 1) 3 p ∧ affEval (fun _ => 2) (-1) p = 1 / 3) ∧
    (∀ p, GridPoint (fun _ : Fin 1 => (0 : ℚ)) (fun _ => 1) 3 p → affEval (fun _ => 2) (-1) p ≤ 0 → affEval (fun _ => 2) (-1) p ≤ -1 / 3) ∧
    getLowerBoundGrid (fun _ : Fin 1 => (0 : ℚ)) (fun _ => 1) (fun _ => 2) 1 3 = 0 := by
  have hb : ∀ i : Fin 1, (0 : ℚ) ≤ 1 := fun _ => zero_le_one
  have e1 : getLowerBoundGrid (fun _ : Fin 1 => (0 : ℚ)) (fun _ => 1) (fun _ => 2) (-1) 3 = -1 / 3 := by decide +kernel
  have e2 : getUpperBoundGrid (fun _ : Fin 1 => (0 : ℚ)) (fun _ => 1) (fun _ => 2) (-1) 3 = 1 / 3 := by decide +kernel
  refine ⟨?_, ?_, fun p hp h0 => ?_, C106_positive _ _ _ _ _ hb fun p hp => ?_⟩
  · rw [← e1]
    exact (C106_attained _ _ _ _ 3 (by norm_num) hb ⟨fun _ => 0, fun _ => by norm_num, by norm_num [affEval]⟩).1
  · rw [← e2]
    exact (C106_upper _ _ _ _ 3 (by norm_num) hb ⟨fun _ => 1, fun _ => by norm_num, by norm_num [affEval]⟩).1
  · rw [← e1]
    exact C106_equal_steps_exact _ _ _ _ (2 / 3) 3 (by norm_num) hb (fun _ => by norm_num) p hp h0
  · have := (hp 0).1
    simp [affEval]; linarith

/-- With unequal steps: `x0 + 2 x1 - 2` on `[0, 1]²`. -/
example (p : Fin 2 → ℚ) (hp : GridPoint (fun _ => 0) (fun _ => 1) 2 p) (h0 : affEval ![1, 2] (-2) p ≤ 0) :
    affEval ![1, 2] (-2) p ≤ getLowerBoundGrid (fun _ => 0) (fun _ => 1) ![1, 2] (-2) 2 ∨
      ∃ i, affEval ![1, 2] (-2) p < getLowerBoundGrid (fun _ => 0) (fun _ => 1) ![1, 2] (-2) 2 + |(![1, 2] : Fin 2 → ℚ) i| * ((1 - 0) / (2 : ℕ)) :=
  C106_one_step_partial (fun _ => 0) (fun _ => 1) ![1, 2] (-2) 2 (by norm_num) (fun _ => zero_le_one) p hp h0

example : (getBoundGrid (fun _ : Fin 1 => (0 : ℚ)) (fun _ => 1) (fun _ => 2) (-1) (fun _ => 2) (-1) 3).2 ≤ 0 :=
  (C106_pair (fun _ : Fin 1 => (0 : ℚ)) (fun _ => 1) (fun _ => 2) (-1) (fun _ => 2) (-1) 3 (by norm_num) (fun _ => zero_le_one)
    ⟨fun _ => 1, fun _ => by norm_num, by norm_num [affEval]⟩ ⟨fun _ => 0, fun _ => by norm_num, by norm_num [affEval]⟩).2.2.1

/-- Non-vacuity of C106: `2 x - 1` on `[0,1]` with 4 steps takes the value 0 on the grid, found by the search; with 3 steps the best value
is `-1/3`. -/
example : getLowerBoundGrid (fun _ : Fin 1 => (0 : ℚ)) (fun _ => 1) (fun _ => 2) (-1) 4 = 0 ∧
    getLowerBoundGrid (fun _ : Fin 1 => (0 : ℚ)) (fun _ => 1) (fun _ => 2) (-1) 3 = -1 / 3 ∧
    getUpperBoundGrid (fun _ : Fin 1 => (0 : ℚ)) (fun _ => 1) (fun _ => 2) (-1) 3 = 1 / 3 := by decide +kernel

end Decomon
