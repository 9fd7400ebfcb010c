import Verif.Model.RoundReal
import Verif.Props.Rounded
import Verif.Lemmas.FloatSplit
import Verif.SpecFloatSplit

/-!
The rounding of real numbers to nearest: its error, that it is monotone and keeps the numbers of the format (the proofs of `Props/Rounded.lean`, over the reals).
-/

namespace Decomon.RealFormat

theorem ulp_bounds {x : ℝ} (hx : 0 < x) : (2 : ℝ) ^ Int.log 2 x ≤ x ∧ x < (2 : ℝ) ^ (Int.log 2 x + 1) := by
  have h1 := Int.zpow_log_le_self (b := 2) (by norm_num) hx
  have h2 := Int.lt_zpow_succ_log_self (b := 2) (by norm_num) x
  exact ⟨by exact_mod_cast h1, by exact_mod_cast h2⟩

theorem roundPos_error (p : ℕ) {x : ℝ} (hx : 0 < x) : |roundPos p x - x| ≤ (1 / 2) ^ p * x := by
  unfold roundPos
  set u : ℝ := (2 : ℝ) ^ (Int.log 2 x + 1 - p) with hu
  have hu0 : 0 < u := zpow_pos (by norm_num) _
  have h1 := abs_sub_round (x / u)
  have h2 : round (x / u) * u - x = (round (x / u) - x / u) * u := by field_simp
  rw [h2, abs_mul, abs_of_pos hu0, abs_sub_comm]
  have h3 : 1 / 2 * u = (1 / 2) ^ p * (2 : ℝ) ^ Int.log 2 x := by
    rw [hu, show Int.log 2 x + 1 - p = Int.log 2 x + (1 - p : ℤ) by ring, zpow_add₀ two_ne_zero, zpow_sub₀ two_ne_zero, zpow_natCast, one_div, inv_pow,
      zpow_one]
    field_simp
  calc |x / u - round (x / u)| * u ≤ 1 / 2 * u := mul_le_mul_of_nonneg_right h1 hu0.le
    _ = (1 / 2) ^ p * (2 : ℝ) ^ Int.log 2 x := h3
    _ ≤ (1 / 2) ^ p * x := mul_le_mul_of_nonneg_left (ulp_bounds hx).1 (by positivity)


theorem nearest_error (p : ℕ) : RelError (roundNearest p) ((1 / 2) ^ p) := by
  intro x
  unfold roundNearest
  split_ifs with h1 h2
  · rw [abs_of_pos h1]; exact roundPos_error p h1
  · have := roundPos_error p (neg_pos.mpr h2)
    rw [abs_of_neg h2, show -roundPos p (-x) - x = -(roundPos p (-x) - -x) by ring, abs_neg]
    exact this
  · rw [show x = 0 by linarith [not_lt.mp h1, not_lt.mp h2]]; simp

theorem round_mono' {x y : ℝ} (h : x ≤ y) : round x ≤ round y := by
  rw [round_eq, round_eq]; exact Int.floor_mono (by linarith)

theorem log_eq {x : ℝ} {e : ℤ} (h1 : (2 : ℝ) ^ e ≤ x) (h2 : x < (2 : ℝ) ^ (e + 1)) : Int.log 2 x = e := by
  have hx : 0 < x := lt_of_lt_of_le (zpow_pos (by norm_num) _) h1
  have a := (Int.zpow_le_iff_le_log (b := 2) (by norm_num) (x := e) hx).mp (by exact_mod_cast h1)
  have b := (Int.lt_zpow_iff_log_lt (b := 2) (by norm_num) (x := e + 1) hx).mp (by exact_mod_cast h2)
  omega

/-- A number of the format is kept. -/
theorem roundPos_fix (q : ℕ) (n : ℤ) (k : ℤ) (h1 : 2 ^ q ≤ n) (h2 : n < 2 ^ (q + 1)) : roundPos (q + 1) (n * (2 : ℝ) ^ k) = n * (2 : ℝ) ^ k := by
  have hk : (0 : ℝ) < (2 : ℝ) ^ k := zpow_pos (by norm_num) _
  have e : Int.log 2 ((n : ℝ) * (2 : ℝ) ^ k) = k + q := by
    apply log_eq
    · rw [zpow_add₀ two_ne_zero, zpow_natCast, mul_comm]
      exact mul_le_mul_of_nonneg_right (by exact_mod_cast h1) hk.le
    · rw [show k + (q : ℤ) + 1 = k + ((q + 1 : ℕ) : ℤ) by push_cast; ring, zpow_add₀ two_ne_zero, zpow_natCast, mul_comm ((2 : ℝ) ^ k)]
      exact mul_lt_mul_of_pos_right (by exact_mod_cast h2) hk
  unfold roundPos
  rw [e, show k + (q : ℤ) + 1 - ((q + 1 : ℕ) : ℤ) = k by push_cast; ring, mul_div_assoc, div_self hk.ne', mul_one, round_intCast]

/-- The result of a rounding: `n` units, with at most one digit too many. -/
theorem roundPos_form (q : ℕ) {x : ℝ} (hx : 0 < x) :
    ∃ n : ℤ, roundPos (q + 1) x = n * (2 : ℝ) ^ (Int.log 2 x - q) ∧ 2 ^ q ≤ n ∧ n ≤ 2 ^ (q + 1) := by
  obtain ⟨h1, h2⟩ := ulp_bounds hx
  have hu : (0 : ℝ) < (2 : ℝ) ^ (Int.log 2 x - q) := zpow_pos (by norm_num) _
  have e : Int.log 2 x + 1 - ((q + 1 : ℕ) : ℤ) = Int.log 2 x - q := by push_cast; ring
  refine ⟨round (x / (2 : ℝ) ^ (Int.log 2 x - q)), by unfold roundPos; rw [e], ?_, ?_⟩
  · have : ((2 ^ q : ℤ) : ℝ) ≤ x / (2 : ℝ) ^ (Int.log 2 x - q) := by
      rw [le_div_iff₀ hu]
      push_cast
      rw [← zpow_natCast, ← zpow_add₀ two_ne_zero, show (q : ℤ) + (Int.log 2 x - q) = Int.log 2 x by ring]
      exact h1
    have := round_mono' this
    rwa [round_intCast] at this
  · have : x / (2 : ℝ) ^ (Int.log 2 x - q) ≤ ((2 ^ (q + 1) : ℤ) : ℝ) := by
      rw [div_le_iff₀ hu]
      push_cast
      rw [← zpow_natCast, ← zpow_add₀ two_ne_zero, show ((q + 1 : ℕ) : ℤ) + (Int.log 2 x - q) = Int.log 2 x + 1 by push_cast; ring]
      exact h2.le
    have := round_mono' this
    rwa [round_intCast] at this

theorem roundPos_range (q : ℕ) {x : ℝ} (hx : 0 < x) :
    (2 : ℝ) ^ Int.log 2 x ≤ roundPos (q + 1) x ∧ roundPos (q + 1) x ≤ (2 : ℝ) ^ (Int.log 2 x + 1) := by
  obtain ⟨n, e, h1, h2⟩ := roundPos_form q hx
  have hu : (0 : ℝ) < (2 : ℝ) ^ (Int.log 2 x - q) := zpow_pos (by norm_num) _
  have h1' : ((2 : ℝ) ^ q) ≤ n := by exact_mod_cast h1
  have h2' : (n : ℝ) ≤ (2 : ℝ) ^ (q + 1) := by exact_mod_cast h2
  rw [e]
  constructor
  · calc (2 : ℝ) ^ Int.log 2 x = (2 : ℝ) ^ q * (2 : ℝ) ^ (Int.log 2 x - q) := by
          rw [← zpow_natCast, ← zpow_add₀ two_ne_zero]; congr 1; ring
      _ ≤ _ := mul_le_mul_of_nonneg_right h1' hu.le
  · calc _ ≤ (2 : ℝ) ^ (q + 1) * (2 : ℝ) ^ (Int.log 2 x - q) := mul_le_mul_of_nonneg_right h2' hu.le
      _ = (2 : ℝ) ^ (Int.log 2 x + 1) := by
          rw [← zpow_natCast, ← zpow_add₀ two_ne_zero]; congr 1; push_cast; ring

theorem roundPos_pos (q : ℕ) {x : ℝ} (hx : 0 < x) : 0 < roundPos (q + 1) x :=
  lt_of_lt_of_le (zpow_pos (by norm_num) _) (roundPos_range q hx).1

theorem roundPos_mono (q : ℕ) {x y : ℝ} (hx : 0 < x) (h : x ≤ y) : roundPos (q + 1) x ≤ roundPos (q + 1) y := by
  rcases (Int.log_mono_right (b := 2) hx h).eq_or_lt with e | e
  · unfold roundPos
    rw [e]
    have hu : (0 : ℝ) < (2 : ℝ) ^ (Int.log 2 y + 1 - ((q + 1 : ℕ) : ℤ)) := zpow_pos (by norm_num) _
    refine mul_le_mul_of_nonneg_right ?_ hu.le
    exact_mod_cast round_mono' (div_le_div_of_nonneg_right h hu.le)
  · calc roundPos (q + 1) x ≤ (2 : ℝ) ^ (Int.log 2 x + 1) := (roundPos_range q hx).2
      _ ≤ (2 : ℝ) ^ Int.log 2 y := zpow_le_zpow_right₀ (by norm_num) (by omega)
      _ ≤ _ := (roundPos_range q (hx.trans_le h)).1

theorem roundPos_idem (q : ℕ) {x : ℝ} (hx : 0 < x) : roundPos (q + 1) (roundPos (q + 1) x) = roundPos (q + 1) x := by
  obtain ⟨n, e, h1, h2⟩ := roundPos_form q hx
  rw [e]
  rcases h2.lt_or_eq with h2 | rfl
  · exact roundPos_fix q n _ h1 h2
  · have hpos : (0 : ℤ) < 2 ^ q := by positivity
    have := roundPos_fix q (2 ^ q) (Int.log 2 x - q + 1) le_rfl (by rw [pow_succ]; omega)
    rw [show ((2 ^ q : ℤ) : ℝ) * (2 : ℝ) ^ (Int.log 2 x - q + 1) = ((2 ^ (q + 1) : ℤ) : ℝ) * (2 : ℝ) ^ (Int.log 2 x - q) by
      rw [zpow_add_one₀ two_ne_zero]; push_cast; ring] at this
    exact this

/-- rounding to nearest is monotone, keeps zero and keeps the numbers of the format, as `C118_one_sign_partial` and `C118_cast` ask. -/
theorem nearest_mono (p : ℕ) (hp : 0 < p) :
    Monotone (roundNearest p) ∧ roundNearest p 0 = 0 ∧ ∀ x, roundNearest p (roundNearest p x) = roundNearest p x := by
  obtain ⟨q, rfl⟩ : ∃ q, p = q + 1 := ⟨p - 1, by omega⟩
  refine ⟨fun x y h => ?_, by simp [roundNearest], fun x => ?_⟩
  · unfold roundNearest
    split_ifs with h1 h2 h3 h4 h5 h6 h7
    · exact roundPos_mono q h1 h
    · linarith
    · linarith
    · linarith [roundPos_pos q (neg_pos.mpr h4), roundPos_pos q h5]
    · exact neg_le_neg (roundPos_mono q (neg_pos.mpr h6) (by linarith))
    · linarith [roundPos_pos q (neg_pos.mpr h4)]
    · exact (roundPos_pos q h7).le
    · linarith
    · exact le_rfl
  · rcases lt_trichotomy x 0 with h | h | h
    · have hp := roundPos_pos q (neg_pos.mpr h)
      have e : roundNearest (q + 1) x = - roundPos (q + 1) (-x) := by rw [roundNearest, if_neg (by linarith), if_pos h]
      rw [e, roundNearest, if_neg (by linarith), if_pos (by linarith), neg_neg, roundPos_idem q (neg_pos.mpr h)]
    · simp [roundNearest, h]
    · have hp := roundPos_pos q h
      have e : roundNearest (q + 1) x = roundPos (q + 1) x := by rw [roundNearest, if_pos h]
      rw [e, roundNearest, if_pos hp, roundPos_idem q h]
theorem roundPos_double (p : ℕ) {x : ℝ} (hx : 0 < x) : roundPos p (2 * x) = 2 * roundPos p x := by
  have e : Int.log 2 (2 * x) = Int.log 2 x + 1 := by
    have h := ulp_bounds hx
    refine log_eq ?_ ?_
    · rw [zpow_add_one₀ two_ne_zero]; linarith [h.1]
    · rw [zpow_add_one₀ two_ne_zero]; linarith [h.2]
  unfold roundPos
  rw [e, show Int.log 2 x + 1 + 1 - (p : ℤ) = Int.log 2 x + 1 - p + 1 by ring, zpow_add_one₀ two_ne_zero]
  have hu : (2 : ℝ) ^ (Int.log 2 x + 1 - (p : ℤ)) ≠ 0 := zpow_ne_zero _ two_ne_zero
  rw [show 2 * x / ((2 : ℝ) ^ (Int.log 2 x + 1 - (p : ℤ)) * 2) = x / (2 : ℝ) ^ (Int.log 2 x + 1 - (p : ℤ)) by field_simp]
  ring

theorem nearest_format (p : ℕ) (hp : 0 < p) : Binary (roundNearest p) ∧ Conversion (roundNearest p) ((1 / 2) ^ p) := by
  obtain ⟨h1, -, h3⟩ := nearest_mono p hp
  refine ⟨⟨h1, h3, fun x hx => ?_⟩, ⟨h1, nearest_error p⟩⟩
  have d : roundNearest p (2 * x) = 2 * roundNearest p x := by
    unfold roundNearest
    rcases lt_trichotomy x 0 with h | h | h
    · rw [if_neg (by linarith), if_pos (by linarith), if_neg (by linarith), if_pos h, show -(2 * x) = 2 * -x by ring, roundPos_double p (neg_pos.2 h)]
      ring
    · simp [h]
    · rw [if_pos (by linarith), if_pos h, roundPos_double p h]
  rw [d, hx]

/-- On rational numbers it is the rounding of `Model/Rounded.lean`. -/
theorem nearest_rat (p : ℕ) (x : ℚ) : roundNearest p (x : ℝ) = (Decomon.roundNearest p x : ℚ) := by
  have pos : ∀ x : ℚ, 0 < x → roundPos p (x : ℝ) = (Decomon.roundPos p x : ℚ) := by
    intro x hx
    have hl : Int.log 2 (x : ℝ) = Int.log 2 x := by
      obtain ⟨h1, h2⟩ := Decomon.ulp_bounds hx
      have h1' := (Rat.cast_le (K := ℝ)).2 h1
      have h2' := (Rat.cast_lt (K := ℝ)).2 h2
      push_cast at h1' h2'
      exact log_eq h1' h2'
    simp only [roundPos, Decomon.roundPos, hl]
    push_cast
    rw [← Rat.round_cast (α := ℝ)]
    push_cast
    rfl
  unfold roundNearest Decomon.roundNearest
  rcases lt_trichotomy x 0 with h | h | h
  · have h' : (x : ℝ) < 0 := by exact_mod_cast h
    rw [if_neg h'.not_gt, if_pos h', if_neg h.not_gt, if_pos h, ← Rat.cast_neg, pos _ (neg_pos.2 h), Rat.cast_neg]
  · simp [h]
  · have h' : (0 : ℝ) < x := by exact_mod_cast h
    rw [if_pos h', if_pos h, pos _ h]

theorem nearest_pow (q : ℕ) (k : ℤ) : roundNearest (q + 1) ((2 : ℝ) ^ k) = (2 : ℝ) ^ k := by
  have h := roundPos_fix q (2 ^ q) (k - q) le_rfl (by rw [pow_succ]; have : (0 : ℤ) < 2 ^ q := by positivity
                                                      omega)
  have e : (((2 : ℤ) ^ q : ℤ) : ℝ) * (2 : ℝ) ^ (k - q) = (2 : ℝ) ^ k := by
    push_cast
    rw [← zpow_natCast, ← zpow_add₀ two_ne_zero]
    congr 1
    ring
  rw [e] at h
  rw [roundNearest, if_pos (zpow_pos (by norm_num) _), h]

theorem nearest_neg (p : ℕ) (x : ℝ) : roundNearest p (-x) = -roundNearest p x := by
  rcases lt_trichotomy x 0 with h | h | h
  · rw [roundNearest, if_pos (by linarith), roundNearest, if_neg (by linarith), if_pos h, neg_neg]
  · simp [roundNearest, h]
  · rw [roundNearest, if_neg (by linarith), if_pos (by linarith), neg_neg, roundNearest, if_pos h]

/-- A format with more digits has a smaller error. -/
theorem nearest_finer {p q : ℕ} (h : q ≤ p) : RelError (roundNearest p) ((1 / 2) ^ q) := fun x =>
  (nearest_error p x).trans (mul_le_mul_of_nonneg_right (pow_le_pow_of_le_one (by norm_num) (by norm_num) h) (abs_nonneg _))

end Decomon.RealFormat
