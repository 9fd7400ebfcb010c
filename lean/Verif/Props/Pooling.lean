import Verif.Lemmas.Pooling
import Mathlib.Tactic.NormNum
import Mathlib.Tactic.IntervalCases

/-! Properties C16, C17, C25, C63. -/

namespace Decomon

/-! ### C16: filters -/

/-- C16: the filters exist and give each window element its own channel exactly for square windows and windows of height
one.  The claim "for every pool_size" is therefore false (next theorems); this is the part that holds. -/
theorem C16_filters_ok_iff_partial (p0 p1 : ℕ) (h0 : 0 < p0) (h1 : 0 < p1) :
    ((∀ i < p0, ∀ j < p1, filterChannel p0 i j < p0 * p1) ∧
      ∀ i < p0, ∀ j < p1, ∀ i' < p0, ∀ j' < p1, filterChannel p0 i j = filterChannel p0 i' j' → i = i' ∧ j = j') ↔
    (p0 = p1 ∨ p0 = 1) := by
  unfold filterChannel
  constructor
  · rintro ⟨hr, hi⟩
    by_contra hc
    push Not at hc
    rcases lt_or_gt_of_ne hc.1 with h | h
    · have := hi 0 h0 p0 h 1 (by omega) 0 h1 (by simp)
      omega
    · have := hr (p0 - 1) (by omega) 0 h1
      have h2 : p0 * p1 ≤ p0 * (p0 - 1) := Nat.mul_le_mul_left _ (by omega)
      rw [mul_comm p0 (p0 - 1)] at h2
      omega
  · rintro (rfl | rfl)
    · refine ⟨fun i hi j hj => ?_, fun i hi j hj i' hi' j' hj' h => ?_⟩
      · calc i * p0 + j < i * p0 + p0 := by omega
          _ = (i + 1) * p0 := by ring
          _ ≤ p0 * p0 := Nat.mul_le_mul_right _ hi
      · have e1 : (i * p0 + j) / p0 = i := by
          rw [mul_comm, Nat.mul_add_div h0, Nat.div_eq_of_lt hj, add_zero]
        have e2 : (i' * p0 + j') / p0 = i' := by
          rw [mul_comm, Nat.mul_add_div h0, Nat.div_eq_of_lt hj', add_zero]
        have : i = i' := by rw [← e1, ← e2, h]
        subst this
        exact ⟨rfl, by omega⟩
    · exact ⟨fun i hi j hj => by omega, fun i hi j hj i' hi' j' hj' h => by omega⟩

/-- C16: a window higher than wide makes the constructor raise `IndexError`. -/
theorem C16_index_error_refuted (p0 p1 : ℕ) (h1 : 0 < p1) (h : p1 < p0) : poolFilters p0 p1 = .error .indexError := by
  unfold poolFilters
  rw [if_neg]
  intro hr
  have := hr (p0 - 1) (by omega) 0 h1
  have h2 : p0 * p1 ≤ p0 * (p0 - 1) := Nat.mul_le_mul_left _ (by omega)
  rw [mul_comm p0 (p0 - 1)] at h2
  unfold filterChannel at this
  omega

/-- C16: a window wider than high (and at least two rows) sends the two elements `(0, p0)` and `(1, 0)` to the same channel. -/
theorem C16_collision_refuted (p0 p1 : ℕ) (h0 : 2 ≤ p0) (h : p0 < p1) :
    ∃ f, poolFilters p0 p1 = .ok f ∧ f 0 p0 p0 = true ∧ f 1 0 p0 = true := by
  have hr : ∀ i < p0, ∀ j < p1, filterChannel p0 i j < p0 * p1 := by
    intro i hi j hj
    unfold filterChannel
    obtain ⟨q, rfl⟩ : ∃ q, p0 = q + 1 := ⟨p0 - 1, by omega⟩
    have h1 : i * (q + 1) ≤ q * (q + 1) := Nat.mul_le_mul_right _ (by omega)
    have h2 : q * (q + 1) ≤ q * p1 := Nat.mul_le_mul_left _ h.le
    have h3 : (q + 1) * p1 = q * p1 + p1 := by ring
    omega
  refine ⟨_, if_pos hr, ?_, ?_⟩
  · simp [filterChannel]; omega
  · simp [filterChannel]; omega

/-- C16: for square windows channel `i * p + j` is exactly the window element `(i, j)`. -/
theorem C16_square_channel {α : Type*} [Field α] (p : ℕ) (x : ℕ → ℕ → α) (i j : ℕ) (hi : i < p) (hj : j < p) :
    ∃ f, poolFilters p p = .ok f ∧ poolChannel p p f x (i * p + j) = x i j := by
  have h := (C16_filters_ok_iff_partial p p (by omega) (by omega)).mpr (Or.inl rfl)
  refine ⟨_, if_pos h.1, ?_⟩
  unfold poolChannel
  rw [Finset.sum_eq_single i, Finset.sum_eq_single j]
  · simp [hi, hj, filterChannel]
  · intro b hb hne
    rw [if_neg, zero_mul]
    simp only [hi, Finset.mem_range.mp hb, decide_true, Bool.and_true, decide_eq_true_eq, Bool.true_and]
    intro he
    exact hne (h.2 i hi j hj i hi b (Finset.mem_range.mp hb) he).2.symm
  · intro hn; exact absurd (Finset.mem_range.mpr hj) hn
  · intro b hb hne
    refine Finset.sum_eq_zero fun c hc => ?_
    rw [if_neg, zero_mul]
    simp only [Finset.mem_range.mp hb, Finset.mem_range.mp hc, decide_true, Bool.and_true, decide_eq_true_eq, Bool.true_and]
    intro he
    exact hne (h.2 i hi j hj b (Finset.mem_range.mp hb) c (Finset.mem_range.mp hc) he).1.symm
  · intro hn; exact absurd (Finset.mem_range.mpr hi) hn

/-- C16: a `2×3` window full of ones: the maximum is 1 but channel 2 holds 2. -/
theorem C16_sum_refuted : ∃ f, poolFilters 2 3 = .ok f ∧ poolChannel 2 3 f (fun _ _ => (1 : ℚ)) 2 = 2 := by
  obtain ⟨f, h, -⟩ := C16_collision_refuted 2 3 le_rfl (by norm_num)
  refine ⟨f, h, ?_⟩
  unfold poolFilters at h
  rw [if_pos] at h
  · rw [← Except.ok.inj h]; decide +kernel
  · decide

/-- C16: with `padding="same"` the window is completed with zeros (not `-inf`), so the maximum over the channels is not the
maximum over the window: window `1×2` whose only real entry is `-1`. -/
theorem C16_same_padding_refuted :
    ∃ f, poolFilters 1 2 = .ok f ∧
      (∃ c < 2, poolChannel 1 2 f (fun _ j => if j = 0 then (-1 : ℚ) else 0) c = 0) := by
  refine ⟨fun i j c => decide (i < 1) && decide (j < 2) && decide (c = filterChannel 1 i j), ?_, 1, by norm_num, ?_⟩
  · unfold poolFilters; rw [if_pos (by decide)]
  · decide +kernel

/-- Non-vacuity: a `3×3` window. -/
example : ∃ f, poolFilters 3 3 = .ok f ∧ poolChannel 3 3 f (fun i j => (10 * i + j : ℚ)) 5 = 12 := by
  obtain ⟨f, h, e⟩ := C16_square_channel 3 (fun i j => (10 * i + j : ℚ)) 1 2 (by norm_num) (by norm_num)
  exact ⟨f, h, by norm_num at e; exact e⟩

/-! ### C17: hull of max -/

section
variable {n α : Type*} [Fintype n] [DecidableEq n] [Nonempty n] [Field α] [LinearOrder α] [IsStrictOrderedRing α]

theorem indexCollapse_pos {u l : n → α} {j : n} (h : l j ≤ u j) : 0 < u j + indexCollapse u l j - l j ∧
    0 < indexCollapse u l j := by
  unfold indexCollapse
  rcases h.lt_or_eq with h | h
  · rw [ksign_neg (by linarith)]; constructor <;> linarith
  · rw [h]; simp [ksign_zero]

/-- The weights found by the solver. -/
theorem upperHull_weights (u l w : n → α) (b : α) (hlu : ∀ j, l j ≤ u j) (h : IsUpperHullMax u l w b) :
    (∀ i, (u i + indexCollapse u l i - l i) * w i = maxOver u - cornerPred u l (some i)) ∧
      ∑ j, (u j + indexCollapse u l j) * w j + b = maxOver u := by
  have h0 := h none
  have e0 : cornerPred u l none = maxOver u := by
    unfold cornerPred; congr 1
  rw [e0] at h0
  have h0' : ∑ j, (u j + indexCollapse u l j) * w j + b = maxOver u := by
    rw [← h0]; simp [cornerCollapse]
  refine ⟨fun i => ?_, h0'⟩
  rw [← h (some i), ← h0']
  have e : ∀ j, cornerCollapse u l (some i) j * w j = (u j + indexCollapse u l j) * w j
      - if j = i then (u i + indexCollapse u l i - l i) * w i else 0 := by
    intro j
    unfold cornerCollapse
    by_cases hj : j = i
    · subst hj; simp; ring
    · have : ¬ (some i = some j) := fun hc => hj (Option.some.inj hc).symm
      simp [hj, this]
  rw [Finset.sum_congr rfl fun j _ => e j, Finset.sum_sub_distrib]
  simp

/-- C17: the upper hull is wrong for every box in which one coordinate has the strictly largest upper end and is not collapsed:
at the corner `u` its value is below `max u`. -/
theorem C17_upper_refuted (u l w : n → α) (b : α) (hlu : ∀ j, l j ≤ u j) (h : IsUpperHullMax u l w b)
    (i : n) (hi : ∀ j, j ≠ i → u j < u i) (hc : l i < u i) :
    ∑ j, w j * u j + b < maxOver u := by
  obtain ⟨h1, h2⟩ := upperHull_weights u l w b hlu h
  have hmax : maxOver u = u i := by
    apply le_antisymm (maxOver_le fun j => ?_) (le_maxOver u i)
    by_cases hj : j = i
    · rw [hj]
    · exact (hi j hj).le
  have hwi : 0 < w i := by
    have := h1 i
    have hlt : cornerPred u l (some i) < u i := by
      obtain ⟨k, hk⟩ := exists_maxOver (corner u l (some i))
      unfold cornerPred
      rw [hk]; unfold corner
      by_cases hki : k = i
      · subst hki; simpa using hc
      · have : ¬ (some i = some k) := fun hc => hki (Option.some.inj hc).symm
        rw [if_neg this]; exact hi k hki
    have hpos := (indexCollapse_pos (hlu i)).1
    by_contra hneg
    rw [not_lt] at hneg
    have := mul_nonpos_of_nonneg_of_nonpos hpos.le hneg
    rw [h1 i, hmax] at this
    linarith
  have hw : ∀ j, 0 ≤ indexCollapse u l j * w j := by
    intro j
    refine mul_nonneg (indexCollapse_pos (hlu j)).2.le ?_
    have hpos := (indexCollapse_pos (hlu j)).1
    by_contra hneg
    rw [not_le] at hneg
    have := mul_neg_of_pos_of_neg hpos hneg
    rw [h1 j] at this
    have hle : cornerPred u l (some j) ≤ maxOver u := by
      refine maxOver_le fun k => ?_
      unfold corner
      split
      · exact (hlu k).trans (le_maxOver u k)
      · exact le_maxOver u k
    linarith
  have hs : 0 < ∑ j, indexCollapse u l j * w j :=
    Finset.sum_pos' (fun j _ => hw j) ⟨i, Finset.mem_univ i, mul_pos (indexCollapse_pos (hlu i)).2 hwi⟩
  have e : ∑ j, (u j + indexCollapse u l j) * w j = ∑ j, w j * u j + ∑ j, indexCollapse u l j * w j := by
    rw [← Finset.sum_add_distrib]; exact Finset.sum_congr rfl fun j _ => by ring
  rw [e] at h2
  linarith

/-- C17: in the remaining boxes (the largest upper end is shared, or collapsed) the upper hull is the constant `max u`, hence
valid.  Missing with respect to the full claim: all other boxes, where it is false. -/
theorem C17_upper_hull_partial (u l w : n → α) (b : α) (hlu : ∀ j, l j ≤ u j) (h : IsUpperHullMax u l w b)
    (hs : ∀ i, (∀ j, j ≠ i → u j < u i) → l i = u i) (y : n → α) (hy : ∀ j, l j ≤ y j ∧ y j ≤ u j) :
    maxOver y ≤ ∑ j, w j * y j + b := by
  obtain ⟨h1, h2⟩ := upperHull_weights u l w b hlu h
  have hw : ∀ i, w i = 0 := by
    intro i
    have hpred : cornerPred u l (some i) = maxOver u := by
      apply le_antisymm
      · refine maxOver_le fun k => ?_
        unfold corner
        split
        · exact (hlu k).trans (le_maxOver u k)
        · exact le_maxOver u k
      · obtain ⟨k, hk⟩ := exists_maxOver u
        unfold cornerPred
        by_cases hki : k = i
        · subst hki
          by_cases hex : ∀ j, j ≠ k → u j < u k
          · have := hs k hex
            rw [hk]
            refine le_trans (le_of_eq ?_) (le_maxOver _ k)
            simp [corner, this]
          · push Not at hex
            obtain ⟨j, hj, hle⟩ := hex
            rw [hk]
            refine le_trans hle (le_trans (le_of_eq ?_) (le_maxOver _ j))
            have : ¬ (some k = some j) := fun hc => hj (Option.some.inj hc).symm
            simp [corner, this]
        · rw [hk]
          refine le_trans (le_of_eq ?_) (le_maxOver _ k)
          have : ¬ (some i = some k) := fun hc => hki (Option.some.inj hc).symm
          simp [corner, this]
    have := h1 i
    rw [hpred, sub_self] at this
    exact (mul_eq_zero.mp this).resolve_left (indexCollapse_pos (hlu i)).1.ne'
  have hb : b = maxOver u := by rw [← h2]; simp [hw]
  simp only [hw, zero_mul, Finset.sum_const_zero, zero_add]
  rw [hb]
  exact maxOver_le fun j => (hy j).2.trans (le_maxOver u j)

end

section
variable {n : ℕ} {α : Type*} [Field α] [LinearOrder α] [IsStrictOrderedRing α]

theorem argminList_lt (l : List α) (h : l ≠ []) : argminList l < l.length := by
  unfold argminList
  rw [List.idxOf_lt_length_iff]
  obtain ⟨a, t, rfl⟩ := List.exists_cons_of_ne_nil h
  rcases (foldl_min_spec (a :: t) a).1 with h | h
  · simp only [List.headD_cons]; rw [h]; simp
  · exact h

theorem argmaxList_lt (l : List α) (h : l ≠ []) : argmaxList l < l.length := by
  unfold argmaxList
  rw [List.idxOf_lt_length_iff]
  obtain ⟨a, t, rfl⟩ := List.exists_cons_of_ne_nil h
  rcases (foldl_max_spec (a :: t) a).1 with h | h
  · simp only [List.headD_cons]; rw [h]; simp
  · exact h

/-- C17: the lower hull, without finetuning or with the same finetuning parameter for all entries of the axis, is below the
maximum, everywhere. -/
theorem C17_lower_valid (u l : Fin (n + 1) → α) (ft : Option α) (hft : ∀ a ∈ ft, 0 ≤ a ∧ a ≤ 1) (y : Fin (n + 1) → α) :
    ∑ j, lowerHullMax u l (ft.map fun a _ => a) j * y j ≤ maxOver y := by
  have hlt := argminList_lt (List.ofFn (lowerHullScore u l)) (by simp)
  rw [List.length_ofFn] at hlt
  have one : ∀ k : ℕ, (hk : k < n + 1) → ∑ j : Fin (n + 1), (if j.val = k then (1 : α) else 0) * y j = y ⟨k, hk⟩ := by
    intro k hk
    rw [Finset.sum_eq_single ⟨k, hk⟩]
    · simp
    · intro b _ hb
      have : b.val ≠ k := fun h => hb (Fin.ext h)
      simp [this]
    · simp
  cases ft with
  | none =>
    simp only [Option.map_none, lowerHullMax]
    rw [one _ hlt]
    exact le_maxOver y _
  | some a =>
    obtain ⟨h0, h1⟩ := hft a rfl
    simp only [Option.map_some, lowerHullMax]
    have hlt2 := argmaxList_lt (List.ofFn fun k => a * u k + (1 - a) * l k) (by simp)
    rw [List.length_ofFn] at hlt2
    simp only [add_mul, Finset.sum_add_distrib, mul_assoc, ← Finset.mul_sum]
    rw [one _ hlt, one _ hlt2]
    have e1 := mul_le_mul_of_nonneg_left (le_maxOver y ⟨_, hlt⟩) (sub_nonneg.mpr h1)
    have e2 := mul_le_mul_of_nonneg_left (le_maxOver y ⟨_, hlt2⟩) h0
    linarith

end

/-- C17: with a finetuning tensor that varies along the axis (all values in `[0,1]`) the lower hull is wrong:
`u = (3,2)`, `l = (1,2)`, `alpha = (0,1)`: weights `(1,1)`, at `(1,2)` value `3 > 2`. -/
theorem C17_lower_finetune_refuted :
    let u : Fin 2 → ℚ := ![3, 2]
    let l : Fin 2 → ℚ := ![1, 2]
    let a : Fin 2 → ℚ := ![0, 1]
    let y : Fin 2 → ℚ := ![1, 2]
    (∀ j, l j ≤ y j ∧ y j ≤ u j) ∧ maxOver y < ∑ j, lowerHullMax u l (some a) j * y j := by
  decide +kernel

/-- Non-vacuity of C17 (refutation): the box `[0,1]×[0,0]`; the only solution is `x₀/3`. -/
example : IsUpperHullMax (![1, 0] : Fin 2 → ℚ) ![0, 0] ![1 / 3, 0] 0 := by
  intro i
  fin_cases i <;> decide +kernel

/-- Non-vacuity of C17 (valid case): the box `[0,1]×[0,1]`; the solution is the constant 1. -/
example : IsUpperHullMax (![1, 1] : Fin 2 → ℚ) ![0, 0] ![0, 0] 1 := by
  intro i
  fin_cases i <;> decide +kernel

/-! ### C25: sorting -/

/-- C25: the exchange network of `sort` sorts every vector of every length: the result is an increasing permutation. -/
theorem C25_network_sorts {α : Type*} [LinearOrder α] (n : ℕ) (s : ℕ → α) :
    (∀ a b, a < b → b < n → sortNet max min n s a ≤ sortNet max min n s b) ∧
    (∃ σ : Equiv.Perm ℕ, (∀ k, n ≤ k → σ k = k) ∧ sortNet max min n s = s ∘ σ) :=
  sortNet_spec n s

section
variable {X ι κ α : Type*} [Fintype ι] [Field α] [LinearOrder α] [IsStrictOrderedRing α]

/-- C25: in ibp mode the bounds returned at position `i` bound the `i`-th smallest value: `z` is any increasing rearrangement
of the values. -/
theorem C25_sort_valid_ibp (D : PertDomain X ι α) (eps : α) (he : 0 < eps) (n : ℕ) (fs : ℕ → Full X ι κ α)
    (R : Set (ι → α)) (hD : ∀ i, D.Sound (fs i).x R) (p : ι → α) (hp : p ∈ R) (y : ℕ → κ → α)
    (v : ∀ i, Valid .ibp false (fs i) p (y i)) :
    ∃ z : ℕ → κ → α, (∀ i, Valid .ibp false (sortT D .ibp eps n fs i) p (z i)) ∧
      (∀ k a b, a < b → b < n → z a k ≤ z b k) ∧
      (∀ k, ∃ σ : Equiv.Perm ℕ, (∀ j, n ≤ j → σ j = j) ∧ ∀ i, z i k = y (σ i) k) := by
  have e : ∀ f : Full X ι κ α, f.tighten D .ibp true true = f := fun f => by
    simp [Full.tighten]
  have h1 := sortNet_rel (R := fun (f : Full X ι κ α) (y : κ → α) => D.Sound f.x R ∧ Valid .ibp false f p y)
    (mx := fun a b => (maximumT D .ibp false eps (fun _ => 1) a b).tighten D .ibp true true)
    (mn := fun a b => (minimumT D .ibp false eps (fun _ => 1) a b).tighten D .ibp true true)
    (mx' := fun a b k => max (a k) (b k)) (mn' := fun a b k => min (a k) (b k))
    (fun a a' b b' ha hb => by
      rw [e]
      refine ⟨by rw [maximumT_x]; exact hb.1, ?_⟩
      exact (C08_maximum_minimum_ibp D false eps he (fun _ => 1) (fun _ => ⟨zero_le_one, le_rfl⟩) a a' R ha.1 hb.1 p hp b b'
        ha.2 hb.2).1)
    (fun a a' b b' ha hb => by
      rw [e]
      refine ⟨by simpa [minimumT, minusT, maximumT_x] using hb.1, ?_⟩
      exact (C08_maximum_minimum_ibp D false eps he (fun _ => 1) (fun _ => ⟨zero_le_one, le_rfl⟩) a a' R ha.1 hb.1 p hp b b'
        ha.2 hb.2).2)
    n fs y (fun i => ⟨hD i, v i⟩)
  have h2 := fun k => sortNet_rel (R := fun (y : κ → α) (c : α) => y k = c)
    (mx := fun a b k => max (a k) (b k)) (mn := fun a b k => min (a k) (b k)) (mx' := max) (mn' := min)
    (fun a a' b b' ha hb => by simp [ha, hb]) (fun a a' b b' ha hb => by simp [ha, hb]) n y (fun i => y i k) (fun i => rfl)
  refine ⟨sortNet (fun a b k => max (a k) (b k)) (fun a b k => min (a k) (b k)) n y, fun i => (h1 i).2, fun k a b hab hb => ?_,
    fun k => ?_⟩
  · rw [h2 k a, h2 k b]; exact (sortNet_spec n _).1 a b hab hb
  · obtain ⟨σ, s1, s2⟩ := (sortNet_spec n (fun i => y i k)).2
    exact ⟨σ, s1, fun i => by rw [h2 k i, s2]; rfl⟩

end

/-- Non-vacuity of C25: three values. -/
example : let s : ℕ → ℤ := fun i => if i = 0 then 5 else if i = 1 then 9 else 2
    (List.range 3).map (sortNet max min 3 s) = [2, 5, 9] := by decide +kernel

/-! ### C63: reductions -/

section
variable {X ι κ σ α : Type*} [Fintype ι] [Field α] [LinearOrder α] [IsStrictOrderedRing α] {n : ℕ}

/-- C63: maximum along an axis.  Missing with respect to the full claim: partial maxima in the sliver of the ReLU hull
(affine and hybrid modes). -/
theorem C63_max_valid_partial (D : PertDomain X ι α) (m : Mode) (dc : Bool) (eps : α) (he : 0 < eps)
    (e : κ → Fin (n + 1) → σ) (f : Full X ι σ α) (R : Set (ι → α)) (hD : D.Sound f.x R) (p : ι → α) (hp : p ∈ R)
    (y : σ → α) (v : Valid m dc f p y)
    (hs : FoldSliverFree D m eps (f.reindex fun k => e k 0) (List.ofFn fun i : Fin n => f.reindex fun k => e k i.succ)) :
    Valid m dc (maxReduceT D m dc eps e f) p (fun k => maxOver fun i => y (e k i)) := by
  have v' : Valid m false f p y := ⟨v.const, v.aff, by simp⟩
  unfold maxReduceT
  split
  · next h =>
    obtain ⟨rfl, rfl⟩ := h
    refine ⟨fun _ k => ⟨?_, ?_⟩, by simp [getAffine], by simp⟩
    · exact maxOver_le fun i => (v.const rfl _).1.trans (le_maxOver (fun i => y (e k i)) i)
    · exact maxOver_le fun i => (v.const rfl _).2.trans (le_maxOver (fun i => f.uc (e k i)) i)
  · have h2 : List.Forall₂ (fun f y => D.Sound f.x R ∧ Valid m false f p y)
        (List.ofFn fun i : Fin n => f.reindex fun k => e k i.succ) (List.ofFn fun (i : Fin n) k => y (e k i.succ)) := by
      rw [List.forall₂_iff_get]
      refine ⟨by simp, fun i hi hi' => ?_⟩
      simp only [List.get_ofFn]
      exact ⟨hD, valid_reindex_raw m false _ f p y v'⟩
    have a := valid_maximumLayer D m eps he R p hp (f.reindex fun k => e k 0) _ (fun k => y (e k 0)) _ hD
      (valid_reindex_raw m false _ f p y v') h2 hs
    have ex : ∀ (fs : List (Full X ι κ α)) (f0 : Full X ι κ α), D.Sound f0.x R → (∀ f ∈ fs, D.Sound f.x R) →
        D.Sound (maximumLayerT D m eps f0 fs).x R := by
      intro fs
      induction fs with
      | nil => intro f0 h _; exact h
      | cons b t ih =>
        intro f0 h hb
        exact ih _ (by rw [maximumT_x]; exact hb b (by simp)) fun f hf => hb f (by simp [hf])
    have hx := ex (List.ofFn fun i : Fin n => f.reindex fun k => e k i.succ) (f.reindex fun k => e k 0) hD (by
      intro g hg
      rw [List.mem_ofFn] at hg
      obtain ⟨i, rfl⟩ := hg
      exact hD)
    have b := (C04_tighten_valid D m false true (m != .affine) _ R hx p hp _ a).1
    have ez : (fun k => ((List.ofFn fun (i : Fin n) k => y (e k i.succ)).map fun y => y k).foldl max (y (e k 0))) =
        fun k => maxOver fun i => y (e k i) := by
      funext k
      rw [List.map_ofFn]
      exact foldl_max_ofFn fun i => y (e k i)
    rw [ez] at b
    refine ⟨b.const, b.aff, fun hd k => ?_⟩
    simp only [hd, if_true]
    rw [sub_add_cancel]
    congr 1
    funext i
    exact v.dc hd _

/-- C63: minimum along an axis. Missing: as for the maximum. -/
theorem C63_min_valid_partial (D : PertDomain X ι α) (m : Mode) (eps : α) (he : 0 < eps)
    (e : κ → Fin (n + 1) → σ) (f : Full X ι σ α) (R : Set (ι → α)) (hD : D.Sound f.x R) (p : ι → α) (hp : p ∈ R)
    (y : σ → α) (v : Valid m false f p y)
    (hs : FoldSliverFree D m eps ((minusT D m f).reindex fun k => e k 0)
      (List.ofFn fun i : Fin n => (minusT D m f).reindex fun k => e k i.succ)) :
    Valid m false (minReduceT D m eps e f) p (fun k => minOver fun i => y (e k i)) := by
  have a := C63_max_valid_partial D m false eps he e (minusT D m f) R (by simpa [minusT] using hD) p hp _
    (valid_minus D m false f p y v) hs
  have b := valid_minus D m false _ p _ a
  have ez : (fun k => - maxOver fun i => - y (e k i)) = fun k => minOver fun i => y (e k i) := by
    funext k
    apply le_antisymm
    · refine le_minOver fun i => ?_
      have := le_maxOver (fun i => - y (e k i)) i
      linarith
    · obtain ⟨i, hi⟩ := exists_maxOver fun i => - y (e k i)
      rw [hi, neg_neg]
      exact minOver_le (fun i => y (e k i)) i
  rw [ez] at b
  exact b

/-- C63: in ibp mode there is no restriction, and the bounds are the maxima of the bounds. -/
theorem C63_max_ibp_exact (D : PertDomain X ι α) (eps : α) (e : κ → Fin (n + 1) → σ) (f : Full X ι σ α) (k : κ) :
    (∃ i, (maxReduceT D .ibp false eps e f).uc k = f.uc (e k i)) ∧ (∀ i, f.uc (e k i) ≤ (maxReduceT D .ibp false eps e f).uc k) ∧
    (∃ i, (maxReduceT D .ibp false eps e f).lc k = f.lc (e k i)) ∧
      (∀ i, f.lc (e k i) ≤ (maxReduceT D .ibp false eps e f).lc k) := by
  simp only [maxReduceT, and_self, if_true]
  exact ⟨exists_maxOver fun i => f.uc (e k i), fun i => le_maxOver (fun i => f.uc (e k i)) i,
    exists_maxOver fun i => f.lc (e k i), fun i => le_maxOver (fun i => f.lc (e k i)) i⟩

end

/-- Non-vacuity of C63: three entries `(x, x, x)` of the model input `x ∈ [-1,1]`, ibp mode with a difference-of-convex decomposition. -/
example (p : Fin 1 → ℚ) (hp : p ∈ Box (fun _ : Fin 1 => (-1 : ℚ)) (fun _ => 1)) :
    Valid .ibp true (maxReduceT boxDomain .ibp true (1 / 10) (fun (_ : Fin 1) (_ : Fin 3) => (0 : Fin 1))
      { oneInput (-1) 1 with h := p, g := fun _ => 0 }) p (fun _ => maxOver fun _ : Fin 3 => p 0) := by
  have v := oneInput_valid .ibp (-1) 1 p hp
  refine C63_max_valid_partial boxDomain .ibp true (1 / 10) (by norm_num) _ _ (Box (fun _ => -1) (fun _ => 1))
    (boxDomain_sound _ _) p hp p ⟨v.const, v.aff, fun _ k => ?_⟩ ?_
  · simp
  · simp [FoldSliverFree, SliverFree, getAffine]

/-- C63: a concrete value, `max ((1,5),(2,3))` along the second axis. -/
example : let f : Full Unit (Fin 0) (Fin 2 × Fin 2) ℚ :=
      ⟨(), fun k => if k = (0, 0) then 1 else if k = (0, 1) then 5 else if k = (1, 0) then 2 else 3, fun _ _ => 0, fun _ => 0,
        fun _ => 0, fun _ _ => 0, fun _ => 0, fun _ => 0, fun _ => 0⟩
    (maxReduceT ⟨fun _ _ b => b, fun _ _ b => b⟩ .ibp false 1 (fun k i => (k, i)) f).uc = ![5, 3] := by
  decide +kernel

end Decomon
