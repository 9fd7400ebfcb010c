import Verif.Lemmas.Core
import Mathlib.Tactic.FinCases
import Mathlib.Algebra.BigOperators.Fin

/-! Properties C01 - C04. -/

namespace Decomon

/-! ### C01 -/

section
variable {ι α : Type*} [Fintype ι] [Field α] [LinearOrder α] [IsStrictOrderedRing α]

/-- C01: `BoxDomain.get_upper` / `get_lower` bound `w·p + b` on the box, and the bounds are reached at corners. -/
theorem C01_box_sound_and_exact (xmin xmax w : ι → α) (b : α) :
    (∀ p ∈ Box xmin xmax, (boxDomain : PertDomain _ ι α).getLower (xmin, xmax) w b ≤ affEval w b p ∧
        affEval w b p ≤ (boxDomain : PertDomain _ ι α).getUpper (xmin, xmax) w b) ∧
    ((∀ i, xmin i ≤ xmax i) →
      (∃ p ∈ Box xmin xmax, (∀ i, p i = xmin i ∨ p i = xmax i) ∧
        affEval w b p = (boxDomain : PertDomain _ ι α).getUpper (xmin, xmax) w b) ∧
      (∃ p ∈ Box xmin xmax, (∀ i, p i = xmin i ∨ p i = xmax i) ∧
        affEval w b p = (boxDomain : PertDomain _ ι α).getLower (xmin, xmax) w b)) := by
  refine ⟨fun p hp => boxDomain_sound xmin xmax p hp w b, fun h => ⟨?_, ?_⟩⟩
  · refine ⟨fun i => if 0 ≤ w i then xmax i else xmin i, fun i => ?_, fun i => ?_, ?_⟩
    · dsimp only; split_ifs <;> simp [h i]
    · dsimp only; split_ifs <;> simp
    · simp only [affEval, boxDomain, getUpperBox]
      congr 1
      refine Finset.sum_congr rfl fun i _ => ?_
      split_ifs with hw
      · simp [hw]
      · simp [(not_le.mp hw).le]
  · refine ⟨fun i => if 0 ≤ w i then xmin i else xmax i, fun i => ?_, fun i => ?_, ?_⟩
    · dsimp only; split_ifs <;> simp [h i]
    · dsimp only; split_ifs <;> simp
    · simp only [affEval, boxDomain, getLowerBox]
      congr 1
      refine Finset.sum_congr rfl fun i _ => ?_
      split_ifs with hw
      · simp [hw]
      · simp [(not_le.mp hw).le]

/-- A case of C01: `2 x - y + 1` on `[-1, 2] × [0, 3]` reaches 5 at a corner and exceeds it nowhere. -/
example : (∃ p ∈ Box ![-1, 0] ![2, 3], affEval (![2, -1] : Fin 2 → ℚ) 1 p = 5) ∧
    ∀ p ∈ Box ![-1, 0] ![2, 3], affEval (![2, -1] : Fin 2 → ℚ) 1 p ≤ 5 := by
  have e : (boxDomain : PertDomain _ (Fin 2) ℚ).getUpper (![-1, 0], ![2, 3]) ![2, -1] 1 = 5 := by decide +kernel
  have h := C01_box_sound_and_exact (![-1, 0] : Fin 2 → ℚ) ![2, 3] ![2, -1] 1
  rw [e] at h
  obtain ⟨p, hp, _, hv⟩ := (h.2 (by decide +kernel)).1
  exact ⟨⟨p, hp, hv⟩, fun p hp => (h.1 p hp).2⟩

/-- C01, shortcut of the code for `w` of the same rank as `b`: right exactly when the affine map is the identity. -/
theorem C01_box_identity_shortcut [DecidableEq ι] (xmin xmax : ι → α) (h : ∀ i, xmin i ≤ xmax i) (k : ι) :
    getUpperBoxDiag xmin xmax (fun _ => 1) (fun _ => 0) k =
        (boxDomain : PertDomain _ ι α).getUpper (xmin, xmax) (fun i => if i = k then 1 else 0) 0 ∧
    getLowerBoxDiag xmin xmax (fun _ => 1) (fun _ => 0) k =
        (boxDomain : PertDomain _ ι α).getLower (xmin, xmax) (fun i => if i = k then 1 else 0) 0 := by
  constructor
  · simp only [getUpperBoxDiag, boxDomain, getUpperBox]
    rw [Finset.sum_eq_single k]
    · simp
    · intro i _ hi; simp [hi]
    · simp
  · simp only [getLowerBoxDiag, boxDomain, getLowerBox]
    rw [Finset.sum_eq_single k]
    · simp
    · intro i _ hi; simp [hi]
    · simp

/-- A case of the shortcut: the second coordinate of `[-1, 2] × [0, 3]` has upper bound 3. -/
example : (boxDomain : PertDomain _ (Fin 2) ℚ).getUpper (![-1, 0], ![2, 3]) (fun i => if i = 1 then 1 else 0) 0 = 3 := by
  rw [← (C01_box_identity_shortcut (![-1, 0] : Fin 2 → ℚ) ![2, 3] (by decide +kernel) 1).1]
  decide +kernel

end

/-- Non-vacuity of C01: on `[-1,2] × [0,3]` the form `2 x₀ - x₁ + 1` has upper bound `5` and lower bound `-4`. -/
example : (boxDomain : PertDomain _ (Fin 2) ℚ).getUpper (![-1, 0], ![2, 3]) ![2, -1] 1 = 5 ∧
    (boxDomain : PertDomain _ (Fin 2) ℚ).getLower (![-1, 0], ![2, 3]) ![2, -1] 1 = -4 ∧
    (![1, 1] : Fin 2 → ℚ) ∈ Box ![-1, 0] ![2, 3] := by
  refine ⟨?_, ?_, ?_⟩
  · simp [boxDomain, getUpperBox, Fin.sum_univ_two]; norm_num
  · simp [boxDomain, getLowerBox, Fin.sum_univ_two]; norm_num
  · intro i; fin_cases i <;> norm_num

/-! ### C02 -/

section
variable {ι : Type*} [Fintype ι]

open Classical in
/-- C02: the constructor accepts exactly `inf` and the positive integers. -/
theorem C02_constructor (p : PVal) :
    ballDomainInit p = (if p = .inf ∨ ∃ n : ℕ, 0 < n ∧ p = .fin n then Except.ok p else Except.error PyErr.valueError) := by
  cases p with
  | inf => simp [ballDomainInit]
  | other => simp [ballDomainInit]
  | fin q =>
    simp only [ballDomainInit, ne_eq, reduceCtorEq, PVal.fin.injEq, false_or]
    by_cases h : ((⌊q⌋ : ℤ) : ℚ) ≠ q ∨ q ≤ 0
    · rw [if_pos h, if_neg]
      rintro ⟨n, hn, rfl⟩
      rcases h with h | h
      · simp at h
      · have : (0 : ℚ) < n := by exact_mod_cast hn
        linarith
    · rw [if_neg h, if_pos]
      push Not at h
      have h0 : 0 < ⌊q⌋ := by
        have : (0 : ℚ) < (⌊q⌋ : ℤ) := by rw [h.1]; exact h.2
        exact_mod_cast this
      refine ⟨⌊q⌋.toNat, by omega, ?_⟩
      rw [← h.1]
      have : ((⌊q⌋.toNat : ℤ)) = ⌊q⌋ := Int.toNat_of_nonneg h0.le
      exact_mod_cast this.symm

/-- `p = 3` is accepted by the constructor, `p = 0` is not. -/
example : ballDomainInit (.fin 3) = .ok (.fin 3) ∧ ballDomainInit (.fin 0) = .error .valueError := by
  rw [C02_constructor, C02_constructor, if_pos (.inr ⟨3, by norm_num, by norm_num⟩), if_neg]
  · exact ⟨rfl, rfl⟩
  · rintro (h | ⟨n, hn, h⟩)
    · cases h
    · have := PVal.fin.inj h; norm_cast at this; omega

/-- C02: for any `p` other than `1`, `2`, `inf` both methods raise `NotImplementedError`. -/
theorem C02_other_p_raises [Nonempty ι] (x0 w : ι → ℝ) (eps b : ℝ) (p : PVal) :
    (p ≠ .inf ∧ p ≠ .fin 1 ∧ p ≠ .fin 2) ↔
      (getUpperBall x0 eps p w b = .error .notImplemented ∧ getLowerBall x0 eps p w b = .error .notImplemented) := by
  constructor
  · rintro ⟨h1, h2, h3⟩
    simp [getUpperBall, getLowerBall, getLqNorm, h1, h2, h3, bind, Except.bind]
  · rintro ⟨h, -⟩
    refine ⟨?_, ?_, ?_⟩ <;> rintro rfl <;>
      simp [getUpperBall, getLqNorm, bind, Except.bind, pure, Except.pure] at h

/-- `p = 3` is accepted by the constructor but no bound can be computed. -/
example : getUpperBall (![1, 2] : Fin 2 → ℝ) 1 (.fin 3) ![3, 4] 0 = .error .notImplemented :=
  ((C02_other_p_raises (![1, 2] : Fin 2 → ℝ) ![3, 4] 1 0 (.fin 3)).mp (by simp)).1

theorem lpBall_sound [Nonempty ι] (x0 w : ι → ℝ) (eps b : ℝ) (p : PVal) {z : ι → ℝ} (hz : z ∈ LpBall x0 eps p) :
    ∃ u l, getUpperBall x0 eps p w b = .ok u ∧ getLowerBall x0 eps p w b = .ok l ∧
      l ≤ affEval w b z ∧ affEval w b z ≤ u := by
  rcases hz with ⟨rfl, hz⟩ | ⟨rfl, hz⟩ | ⟨rfl, he, hz⟩
  · refine ⟨_, _, by simp [getUpperBall]; rfl, by simp [getLowerBall]; rfl, ?_, ?_⟩
    · exact getLowerBox_sound (fun i => by have := abs_le.mp (hz i); constructor <;> linarith) w b
    · exact getUpperBox_sound (fun i => by have := abs_le.mp (hz i); constructor <;> linarith) w b
  · refine ⟨_, _, by simp [getUpperBall, getLqNorm, bind, Except.bind, pure, Except.pure]; rfl,
      by simp [getLowerBall, getLqNorm, bind, Except.bind, pure, Except.pure]; rfl, ?_⟩
    have h1 := abs_dot_le_l1 w (fun i => z i - x0 i)
    have h0 : 0 ≤ maxOver (fun i => |w i|) :=
      le_trans (abs_nonneg (w (Classical.arbitrary ι))) (le_maxOver (fun i => |w i|) _)
    rw [affEval_sub_center w b z x0]
    have h2 := abs_le.mp h1
    have h3 := mul_le_mul_of_nonneg_left hz h0
    constructor <;> nlinarith [h2.1, h2.2]
  · refine ⟨_, _, by simp [getUpperBall, getLqNorm, bind, Except.bind, pure, Except.pure]; rfl,
      by simp [getLowerBall, getLqNorm, bind, Except.bind, pure, Except.pure]; rfl, ?_⟩
    have h2 := abs_le.mp (abs_dot_le_l2 w (fun i => z i - x0 i) he hz)
    rw [affEval_sub_center w b z x0]
    constructor <;> linarith [h2.1, h2.2]

/-- A direction of `Lp` norm at most `eps` along which `w` grows by exactly the dual norm times `eps`. -/
theorem lpBall_dir [Nonempty ι] (x0 w : ι → ℝ) (eps b : ℝ) (he : 0 ≤ eps) (p : PVal)
    (hp : p = .inf ∨ p = .fin 1 ∨ p = .fin 2) :
    ∃ d : ι → ℝ, (fun i => x0 i + d i) ∈ LpBall x0 eps p ∧ (fun i => x0 i - d i) ∈ LpBall x0 eps p ∧
      getUpperBall x0 eps p w b = .ok (affEval w b fun i => x0 i + d i) ∧
      getLowerBall x0 eps p w b = .ok (affEval w b fun i => x0 i - d i) := by
  classical
  rcases hp with rfl | rfl | rfl
  · refine ⟨fun i => if 0 ≤ w i then eps else -eps, ?_, ?_, ?_, ?_⟩
    · left; refine ⟨rfl, fun i => ?_⟩
      dsimp only; split_ifs <;> simp [abs_of_nonneg he]
    · left; refine ⟨rfl, fun i => ?_⟩
      dsimp only; split_ifs <;> simp [abs_of_nonneg he]
    · simp only [getUpperBall, if_true, getUpperBox, affEval]
      congr 2
      refine Finset.sum_congr rfl fun i _ => ?_
      split_ifs with hw
      · simp [hw]
      · simp [(not_le.mp hw).le]; left; ring
    · simp only [getLowerBall, if_true, getLowerBox, affEval]
      congr 2
      refine Finset.sum_congr rfl fun i _ => ?_
      split_ifs with hw
      · simp [hw]
      · simp [(not_le.mp hw).le]
  · obtain ⟨j, hj⟩ := exists_maxOver (fun i => |w i|)
    have hsum : ∀ c : ℝ, |c| = eps → ∑ i, |if i = j then c else 0| ≤ eps := by
      intro c hc
      rw [Finset.sum_eq_single j]
      · simp [hc]
      · intro i _ hi; simp [hi]
      · simp
    have hdot : ∀ c : ℝ, ∑ i, w i * (if i = j then c else 0) = w j * c := by intro c; simp
    refine ⟨fun i => if i = j then (if 0 ≤ w j then eps else -eps) else 0, ?_, ?_, ?_, ?_⟩
    · right; left; refine ⟨rfl, ?_⟩
      simp only [add_sub_cancel_left]
      exact hsum _ (by split_ifs <;> simp [abs_of_nonneg he])
    · right; left; refine ⟨rfl, ?_⟩
      simp only [sub_sub_cancel_left, abs_neg]
      exact hsum _ (by split_ifs <;> simp [abs_of_nonneg he])
    · rw [affEval_sub_center w b _ x0]
      simp only [getUpperBall, getLqNorm, bind, Except.bind, pure, Except.pure, reduceCtorEq, if_false, if_true, hj,
        add_sub_cancel_left, hdot]
      congr 1
      split_ifs with hw
      · rw [abs_of_nonneg hw]; ring
      · rw [abs_of_neg (not_le.mp hw)]; ring
    · rw [affEval_sub_center w b _ x0]
      simp only [getLowerBall, getLqNorm, bind, Except.bind, pure, Except.pure, reduceCtorEq, if_false, if_true, hj,
        sub_sub_cancel_left, mul_neg, Finset.sum_neg_distrib, hdot]
      congr 1
      split_ifs with hw
      · rw [abs_of_nonneg hw]; ring
      · rw [abs_of_neg (not_le.mp hw)]; ring
  · set n := Real.sqrt (∑ i, w i ^ 2) with hn
    have hw0 : 0 ≤ ∑ i, w i ^ 2 := Finset.sum_nonneg fun i _ => sq_nonneg _
    have hnn : n ^ 2 = ∑ i, w i ^ 2 := Real.sq_sqrt hw0
    have h21 : (PVal.fin 2 = PVal.fin 1) = False := by simp
    have hdot : ∑ i, w i * (eps / n * w i) = eps * n := by
      have : ∑ i, w i * (eps / n * w i) = eps / n * n ^ 2 := by
        rw [hnn, Finset.mul_sum]; exact Finset.sum_congr rfl fun i _ => by ring
      rw [this]
      by_cases h0 : n = 0
      · simp [h0]
      · field_simp
    have hsq : ∑ i, (eps / n * w i) ^ 2 ≤ eps ^ 2 := by
      have : ∑ i, (eps / n * w i) ^ 2 = (eps / n) ^ 2 * n ^ 2 := by
        rw [hnn, Finset.mul_sum]; exact Finset.sum_congr rfl fun i _ => by ring
      rw [this]
      by_cases h0 : n = 0
      · simp [h0]; positivity
      · rw [div_pow, div_mul_cancel₀]; positivity
    refine ⟨fun i => eps / n * w i, ?_, ?_, ?_, ?_⟩
    · right; right; refine ⟨rfl, he, ?_⟩; simpa using hsq
    · right; right; refine ⟨rfl, he, ?_⟩; simpa using hsq
    · rw [affEval_sub_center w b _ x0]
      simp only [getUpperBall, getLqNorm, bind, Except.bind, pure, Except.pure, reduceCtorEq, if_false, if_true,
        add_sub_cancel_left, hdot, h21]
      congr 1; rw [← hn]; ring
    · rw [affEval_sub_center w b _ x0]
      simp only [getLowerBall, getLqNorm, bind, Except.bind, pure, Except.pure, reduceCtorEq, if_false, if_true,
        sub_sub_cancel_left, mul_neg, Finset.sum_neg_distrib, hdot, h21]
      congr 1; rw [← hn]; ring

/-- C02: on the `Lp` ball (`p = 1, 2, inf`) `get_upper` and `get_lower` do not raise, bound `w·z + b` for every point `z` of
the ball, and are reached in the ball. -/
theorem C02_ball_sound_and_exact [Nonempty ι] (x0 w : ι → ℝ) (eps b : ℝ) (he : 0 ≤ eps) (p : PVal)
    (hp : p = .inf ∨ p = .fin 1 ∨ p = .fin 2) :
    ∃ u l, getUpperBall x0 eps p w b = .ok u ∧ getLowerBall x0 eps p w b = .ok l ∧
      (∀ z ∈ LpBall x0 eps p, l ≤ affEval w b z ∧ affEval w b z ≤ u) ∧
      (∃ z ∈ LpBall x0 eps p, affEval w b z = u) ∧ (∃ z ∈ LpBall x0 eps p, affEval w b z = l) := by
  obtain ⟨d, h1, h2, hu, hl⟩ := lpBall_dir x0 w eps b he p hp
  refine ⟨_, _, hu, hl, fun z hz => ?_, ⟨_, h1, rfl⟩, ⟨_, h2, rfl⟩⟩
  obtain ⟨u, l, hu', hl', h⟩ := lpBall_sound x0 w eps b p hz
  rw [hu] at hu'; rw [hl] at hl'
  cases hu'; cases hl'
  exact h

/-- A case of C02: `3 x + 4 y` on the ball of radius 2 around `(1, 1)`, in the three norms. -/
example (p : PVal) (hp : p ∈ [PVal.inf, .fin 1, .fin 2]) :
    ∃ u, getUpperBall (![1, 1] : Fin 2 → ℝ) 2 p ![3, 4] 0 = .ok u ∧ ∃ z ∈ LpBall ![1, 1] 2 p, affEval ![3, 4] 0 z = u := by
  obtain ⟨u, _, hu, _, _, h, _⟩ := C02_ball_sound_and_exact (![1, 1] : Fin 2 → ℝ) ![3, 4] 2 0 (by norm_num) p (by simpa using hp)
  exact ⟨u, hu, h⟩

/-- C02 in the form used by the layers: the ball domain is a sound perturbation domain. -/
theorem C02_ballDomain_sound [Nonempty ι] (x0 : ι → ℝ) (eps : ℝ) (p : PVal) :
    (ballDomain eps p).Sound x0 (LpBall x0 eps p) := by
  intro z hz w b
  obtain ⟨u, l, hu, hl, h1, h2⟩ := lpBall_sound x0 w eps b p hz
  simp only [ballDomain, hu, hl]
  exact ⟨h1, h2⟩

end

/-- Non-vacuity of C02: the Euclidean ball of radius 1 around the origin of the plane and the form `3 x₀ + 4 x₁`, whose
bounds are `5` and `-5`; the point `(3/5, 4/5)` is in the ball. -/
example : getUpperBall (![0, 0] : Fin 2 → ℝ) 1 (.fin 2) ![3, 4] 0 = .ok 5 ∧
    (![3/5, 4/5] : Fin 2 → ℝ) ∈ LpBall ![0, 0] 1 (.fin 2) := by
  constructor
  · have : Real.sqrt (3 ^ 2 + 4 ^ 2) = 5 := by
      rw [show (3 : ℝ) ^ 2 + 4 ^ 2 = 5 ^ 2 by norm_num]; exact Real.sqrt_sq (by norm_num)
    simp [getUpperBall, getLqNorm, bind, Except.bind, pure, Except.pure, Fin.sum_univ_two, this]
  · right; right
    refine ⟨rfl, by norm_num, ?_⟩
    simp [Fin.sum_univ_two]; norm_num

/-! ### C03 -/

/-- C03: the mode is determined by its two flags, and the flags of a requested mode are the requested ones, except that
"neither" gives the affine mode. -/
theorem C03_mode_roundtrip (m : Mode) : getMode (getIbp m) (getAffine m) = m := by cases m <;> rfl

/-- C03: other direction. -/
theorem C03_flags_roundtrip (i a : Bool) (h : i = true ∨ a = true) :
    getIbp (getMode i a) = i ∧ getAffine (getMode i a) = a := by
  revert i a; decide

example : getIbp (getMode true false) = true ∧ getAffine (getMode true false) = false := C03_flags_roundtrip true false (.inl rfl)

section
variable {τ : Type*}

/-- C03: number of tensors of a mode. -/
theorem C03_length (m : Mode) (dc : Bool) (t : Nine τ) : (extractForMode m dc t).length = nbTensors m dc := by
  cases m <;> cases dc <;> rfl

/-- C03: extracting and rebuilding keeps every component that the mode carries and blanks the others; trailing elements of
the list do not matter. -/
theorem C03_extract_then_full (m : Mode) (dc : Bool) (e : τ) (t : Nine τ) (rest : List τ) :
    fullInputsList m dc e (extractForMode m dc t ++ rest) = .ok
      { x := if getAffine m then t.x else e
        uc := if getIbp m then t.uc else e
        wu := if getAffine m then t.wu else e
        bu := if getAffine m then t.bu else e
        lc := if getIbp m then t.lc else e
        wl := if getAffine m then t.wl else e
        bl := if getAffine m then t.bl else e
        h := if dc then t.h else e
        g := if dc then t.g else e } := by
  cases m <;> cases dc <;> rfl

/-- C03: rebuilding then extracting gives the list back; a list of another length raises `ValueError` if too short. -/
theorem C03_full_then_extract (m : Mode) (dc : Bool) (e : τ) (l : List τ) :
    (l.length = nbTensors m dc → ∃ t, fullInputsList m dc e l = .ok t ∧ extractForMode m dc t = l) ∧
    (l.length < nbTensors m dc → fullInputsList m dc e l = .error .valueError) := by
  constructor
  · intro h
    cases m <;> cases dc <;> simp only [nbTensors] at h <;>
    · repeat (rcases l with _ | ⟨_, l⟩ <;> simp at h)
      exact ⟨_, rfl, rfl⟩
  · intro h
    cases m <;> cases dc <;> simp only [nbTensors] at h <;>
    · repeat (rcases l with _ | ⟨_, l⟩ <;> try rfl)
      all_goals (simp at h; try omega)

/-- Seven tensors in hybrid mode, and one too few. -/
example : (∃ t, fullInputsList .hybrid false 0 [1, 2, 3, 4, 5, 6, 7] = .ok t ∧ extractForMode .hybrid false t = [1, 2, 3, 4, 5, 6, 7]) ∧
    fullInputsList .hybrid false 0 [1, 2, 3, 4, 5, 6] = .error .valueError :=
  ⟨(C03_full_then_extract .hybrid false 0 [1, 2, 3, 4, 5, 6, 7]).1 rfl, (C03_full_then_extract .hybrid false 0 [1, 2, 3, 4, 5, 6]).2 (by decide)⟩

theorem pySlice_flatten (nb : ℕ) (ls : List (List τ)) (hl : ∀ l ∈ ls, l.length = nb) (i : ℕ) (hi : i < ls.length) :
    pySlice (nb * i) (nb * (i + 1)) ls.flatten = ls[i] := by
  induction ls generalizing i with
  | nil => simp at hi
  | cons a t ih =>
    have ha : a.length = nb := hl a (by simp)
    cases i with
    | zero => simp [pySlice, ← ha]
    | succ j =>
      have := ih (fun l h => hl l (by simp [h])) j (by simpa using hi)
      simp only [pySlice, List.flatten_cons, List.getElem_cons_succ] at this ⊢
      rw [← this, show nb * (j + 1 + 1) = a.length + nb * (j + 1) by rw [ha]; ring, List.take_length_add_append,
        show nb * (j + 1) = a.length + nb * j by rw [ha]; ring, List.drop_length_add_append, ha]

/-- C03: splitting a merge input gives back the lists that were concatenated. -/
theorem C03_split_concat (m : Mode) (dc : Bool) (ls : List (List τ)) (hl : ∀ l ∈ ls, l.length = nbTensors m dc) :
    splitToMerge m dc ls.flatten = ls := by
  have hnb : 0 < nbTensors m dc := by cases m <;> cases dc <;> decide
  have hlen : ls.flatten.length = ls.length * nbTensors m dc := by
    rw [List.length_flatten]
    have : ls.map List.length = List.replicate ls.length (nbTensors m dc) := by
      rw [List.eq_replicate_iff]; simpa using hl
    rw [this]; simp
  unfold splitToMerge
  rw [hlen, Nat.mul_div_cancel _ hnb]
  apply List.ext_getElem
  · simp
  · intro i h1 h2
    simp only [List.getElem_map, List.getElem_range]
    exact pySlice_flatten _ ls hl i h2

example : splitToMerge .affine false [1, 2, 3, 4, 5, 6, 7, 8, 9, 10] = [[1, 2, 3, 4, 5], [6, 7, 8, 9, 10]] :=
  C03_split_concat .affine false [[1, 2, 3, 4, 5], [6, 7, 8, 9, 10]] (by decide)

theorem everyNth_cons_of_length (n : ℕ) (a : τ) (l r : List τ) (h : (a :: l).length = n) :
    everyNth n (a :: l ++ r) = a :: everyNth n r := by
  rw [List.cons_append, everyNth]
  congr 1
  have : n - 1 = l.length := by simp at h; omega
  rw [this]
  simp

theorem pyStride_flatten (nb k : ℕ) (hk : k < nb) (ls : List (List τ)) (hl : ∀ l ∈ ls, l.length = nb) :
    pyStride k nb ls.flatten = ls.filterMap (fun l => l[k]?) := by
  induction ls with
  | nil => simp [pyStride, everyNth]
  | cons a t ih =>
    have ha : a.length = nb := hl a (by simp)
    have ih := ih fun l h => hl l (by simp [h])
    have hka : k < a.length := by omega
    simp only [pyStride, List.flatten_cons] at ih ⊢
    rw [List.drop_append_of_le_length hka.le, List.drop_eq_getElem_cons hka, List.cons_append, everyNth]
    simp only [List.filterMap_cons, List.getElem?_eq_getElem hka]
    congr 1
    rw [← ih]
    congr 1
    rw [List.drop_append, List.drop_drop]
    have h1 : a.drop (k + 1 + (nb - 1)) = [] := List.drop_eq_nil_of_le (by omega)
    rw [h1, List.nil_append, List.length_drop]
    congr 1
    omega

/-- C03: the by-type view of a merge input lists, for each component carried by the mode, that component of every input in
order. -/
theorem C03_by_type (m : Mode) (dc : Bool) (e : τ) (ts : List (Nine τ)) :
    let r := fullInputsByType m dc e (ts.map (extractForMode m dc)).flatten
    (getAffine m = true → r.x = ts.map (·.x) ∧ r.wu = ts.map (·.wu) ∧ r.bu = ts.map (·.bu) ∧ r.wl = ts.map (·.wl) ∧
      r.bl = ts.map (·.bl)) ∧
    (getIbp m = true → r.uc = ts.map (·.uc) ∧ r.lc = ts.map (·.lc)) ∧
    (dc = true → r.h = ts.map (·.h) ∧ r.g = ts.map (·.g)) := by
  have hl : ∀ l ∈ ts.map (extractForMode m dc), l.length = nbTensors m dc := by
    intro l h
    obtain ⟨t, -, rfl⟩ := List.mem_map.mp h
    exact C03_length m dc t
  have key : ∀ (k : ℕ) (f : Nine τ → τ), k < nbTensors m dc → (∀ t, (extractForMode m dc t)[k]? = some (f t)) →
      pyStride k (nbTensors m dc) (ts.map (extractForMode m dc)).flatten = ts.map f := by
    intro k f hk hf
    rw [pyStride_flatten _ k hk _ hl, List.filterMap_map]
    have : ((fun l : List τ => l[k]?) ∘ extractForMode m dc) = fun t => some (f t) := funext hf
    rw [this]
    induction ts with
    | nil => rfl
    | cons a t ih => simp
  cases m <;> cases dc <;> simp only [fullInputsByType, getAffine, getIbp] <;>
    refine ⟨?_, ?_, ?_⟩ <;> intro h <;> first
      | (exact absurd h (by decide))
      | (refine ⟨?_, ?_, ?_, ?_, ?_⟩ <;> exact key _ _ (by decide) fun _ => rfl)
      | (refine ⟨?_, ?_⟩ <;> exact key _ _ (by decide) fun _ => rfl)

end

/-- Non-vacuity of C03: two merged ibp inputs with dc_decomp. -/
example : splitToMerge Mode.ibp true [1, 2, 3, 4, 5, 6, 7, 8] = [[1, 2, 3, 4], [5, 6, 7, 8]] := by decide

/-! ### C04 -/

section
variable {X ι κ α : Type*} [Fintype ι] [Field α] [LinearOrder α]

/-- C04: after tightening the bounds are still valid, and in addition in affine mode the constant bounds become valid. -/
theorem C04_tighten_valid (D : PertDomain X ι α) (m : Mode) (dc c t : Bool) (f : Full X ι κ α) (S : Set (ι → α))
    (hD : D.Sound f.x S) (p : ι → α) (hp : p ∈ S) (y : κ → α) (hv : Valid m dc f p y) :
    Valid m dc (f.tighten D m c t) p y ∧
      (m = .affine → c = true → ∀ k, (f.tighten D m c t).lc k ≤ y k ∧ y k ≤ (f.tighten D m c t).uc k) := by
  have hu : ∀ k w b, y k ≤ affEval w b p → y k ≤ D.getUpper f.x w b := fun k w b h => h.trans (hD p hp w b).2
  have hl : ∀ k w b, affEval w b p ≤ y k → D.getLower f.x w b ≤ y k := fun k w b h => (hD p hp w b).1.trans h
  obtain ⟨h1, h2, h3⟩ := hv
  refine ⟨⟨fun hi k => ?_, fun ha k => ?_, fun hd k => ?_⟩, fun hm hc k => ?_⟩
  · have a := h1 hi k
    cases m <;> cases c <;> cases t <;> simp [getIbp, getAffine, Full.tighten] at * <;> try exact a
    all_goals
      exact ⟨⟨a.1, hl k _ _ (h2 k).1⟩, a.2, hu k _ _ (h2 k).2⟩
  · have a := h2 ha k
    cases m <;> cases c <;> cases t <;> simpa [Full.tighten] using a
  · have a := h3 hd k
    cases m <;> cases c <;> cases t <;> simpa [Full.tighten] using a
  · subst hm hc
    simp only [getAffine, forall_const] at h2
    simp [Full.tighten]
    exact ⟨hl k _ _ (h2 k).1, hu k _ _ (h2 k).2⟩

/-- A case of C04: `x` on `[-1, 1]` with the loose constant bounds `[-3, 3]`. -/
example (p : Fin 1 → ℚ) (hp : p ∈ Box (fun _ => -1) fun _ => 1) :
    Valid .hybrid false ((⟨(fun _ => -1, fun _ => 1), fun _ => 3, fun _ _ => 1, fun _ => 0, fun _ => -3, fun _ _ => 1, fun _ => 0, fun _ => 0,
      fun _ => 0⟩ : Full ((Fin 1 → ℚ) × (Fin 1 → ℚ)) (Fin 1) (Fin 1) ℚ).tighten boxDomain .hybrid true true) p p := by
  refine (C04_tighten_valid boxDomain .hybrid false true true _ (Box (fun _ => -1) fun _ => 1)
    (fun q hq w b => (C01_box_sound_and_exact _ _ w b).1 q hq) p hp p ⟨fun _ k => ?_, fun _ k => ?_, by simp⟩).1
  · exact ⟨by linarith [(hp k).1], by linarith [(hp k).2]⟩
  · rw [Subsingleton.elim k 0]; simp [affEval]

/-- C04: tightening never loosens constant bounds (hybrid and ibp mode), and leaves the affine ones alone. -/
theorem C04_tighten_never_looser (D : PertDomain X ι α) (m : Mode) (hm : getIbp m = true) (c t : Bool)
    (f : Full X ι κ α) (k : κ) :
    f.lc k ≤ (f.tighten D m c t).lc k ∧ (f.tighten D m c t).uc k ≤ f.uc k ∧
      (f.tighten D m c t).wu = f.wu ∧ (f.tighten D m c t).wl = f.wl ∧ (f.tighten D m c t).bu = f.bu ∧
      (f.tighten D m c t).bl = f.bl := by
  cases m <;> cases c <;> cases t <;> simp [Full.tighten, getIbp] at *

/-- A case where the affine bounds are worse than the constant ones: these stay. -/
example : ((⟨(fun _ => -1, fun _ => 1), fun _ => 1, fun _ _ => 5, fun _ => 0, fun _ => -1, fun _ _ => 5, fun _ => 0, fun _ => 0,
      fun _ => 0⟩ : Full ((Fin 1 → ℚ) × (Fin 1 → ℚ)) (Fin 1) (Fin 1) ℚ).tighten boxDomain .hybrid true true).uc 0 ≤ 1 :=
  (C04_tighten_never_looser boxDomain .hybrid rfl true true _ 0).2.1

/-- C04: with `tight=True` in hybrid mode the constant bounds are also inside the concretisation of the affine ones. -/
theorem C04_tighten_uses_affine (D : PertDomain X ι α) (c : Bool) (f : Full X ι κ α) (k : κ) :
    (f.tighten D .hybrid c true).uc k ≤ D.getUpper f.x (fun i => f.wu i k) (f.bu k) ∧
    D.getLower f.x (fun i => f.wl i k) (f.bl k) ≤ (f.tighten D .hybrid c true).lc k := by
  cases c <;> simp [Full.tighten]

end

/-- Non-vacuity of C04: one input in `[-1,1]`, value `y = x`, constant bounds `[-3,3]` and exact affine bounds; the
tightened constant bounds are `[-1,1]`. -/
example :
    let f : Full ((Fin 1 → ℚ) × (Fin 1 → ℚ)) (Fin 1) (Fin 1) ℚ :=
      ⟨(fun _ => -1, fun _ => 1), fun _ => 3, fun _ _ => 1, fun _ => 0, fun _ => -3, fun _ _ => 1, fun _ => 0,
        fun _ => 0, fun _ => 0⟩
    (∀ p ∈ Box (fun _ : Fin 1 => (-1 : ℚ)) (fun _ => 1), Valid .hybrid false f p p) ∧
      (f.tighten boxDomain .hybrid true true).uc 0 = 1 ∧ (f.tighten boxDomain .hybrid true true).lc 0 = -1 := by
  intro f
  refine ⟨fun p hp => ⟨fun _ k => ?_, fun _ k => ?_, by simp⟩, ?_, ?_⟩
  · have := hp k; exact ⟨by simp only [f]; linarith [this.1], by simp only [f]; linarith [this.2]⟩
  · have : k = 0 := Subsingleton.elim _ _
    subst this
    simp [f, affEval]
  · simp [f, Full.tighten, boxDomain, getUpperBox]
  · simp [f, Full.tighten, boxDomain, getLowerBox]

end Decomon
