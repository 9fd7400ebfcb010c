import Verif.Lemmas.Under
import Verif.Model.Under

/-! Property C155: outputs and interval bounds in floating-point arithmetic with underflow and overflow. -/

namespace Decomon

section
variable {ι κ κ' α : Type} [Field α] [LinearOrder α] [IsStrictOrderedRing α] {rd : α → α} {δ η Ω : α}

/-- C155: when nothing can overflow, the computed outputs lie within the computed bounds up to a slack known in advance. -/
theorem C155_bounds (hδ : 0 ≤ δ) (hη : 0 ≤ η) (h : FloatError rd δ η Ω) (bn : α → α → α → α → α → α)
    (hbn : ∀ g b m s x y, 0 ≤ x → x ≤ y → bn g b m s x ≤ bn g b m s y) (σ : α) (hσ : 0 < σ) (N : Net α ι κ) (hN : N.WF) (hsd : N.SdAbove σ)
    (up lo p A s : ι → α) (hu : ∀ i, |up i| ≤ A i) (hl : ∀ i, |lo i| ≤ A i) (hpA : ∀ i, |p i| ≤ A i) (hs : ∀ i, 0 ≤ s i)
    (hp : ∀ i, lo i - s i ≤ p i ∧ p i ≤ up i + s i) (hf : N.Fits δ η Ω bn σ A) (v u l : κ → α) (hv : N.RoundedCall rd bn p v)
    (hb : N.RoundedIbp rd bn up lo u l) (k : κ) :
    l k - N.slackWith (floatError δ η bn) σ A s k ≤ v k ∧ v k ≤ u k + N.slackWith (floatError δ η bn) σ A s k :=
  C123_slack _ (floatError_mono hδ bn hbn) 1 one_pos .vSlope σ hσ N hN hsd up lo p A s hu hl hpA hs hp v u l
    (N.float_runs hδ hη h bn hbn σ hσ hN hsd p A hpA hf v hv) (N.float_runsIbp hδ hη h bn hbn 1 .vSlope σ hσ hsd up lo A hu hl hf u l hb) k

/-- C155: the computed bounds hold for the exact function of the network up to that slack. -/
theorem C155_exact_function (hδ : 0 ≤ δ) (hη : 0 ≤ η) (h : FloatError rd δ η Ω) (bn : α → α → α → α → α → α) (hb0 : ∀ g b m s x, 0 ≤ bn g b m s x)
    (hbn : ∀ g b m s x y, 0 ≤ x → x ≤ y → bn g b m s x ≤ bn g b m s y) (σ : α) (hσ : 0 < σ) (N : Net α ι κ) (hN : N.WF) (hsd : N.SdAbove σ)
    (up lo A : ι → α) (hu : ∀ i, |up i| ≤ A i) (hl : ∀ i, |lo i| ≤ A i) (hf : N.Fits δ η Ω bn σ A) (u l : κ → α) (hb : N.RoundedIbp rd bn up lo u l)
    (p : ι → α) (hp : ∀ i, lo i ≤ p i ∧ p i ≤ up i) (k : κ) :
    l k - N.slackWith (floatError δ η bn) σ A (fun _ => 0) k ≤ N.eval p k ∧ N.eval p k ≤ u k + N.slackWith (floatError δ η bn) σ A (fun _ => 0) k :=
  C123_exact_function _ (floatError_mono hδ bn hbn) (floatError_nonneg hδ hη bn hb0) 1 one_pos .vSlope σ hσ N hN hsd up lo A hu hl u l
    (N.float_runsIbp hδ hη h bn hbn 1 .vSlope σ hσ hsd up lo A hu hl hf u l hb) p hp k

/-- C155: a computed margin between two ranges that is larger than the two slacks is a certificate for the computed outputs. -/
theorem C155_certificate (hδ : 0 ≤ δ) (hη : 0 ≤ η) (h : FloatError rd δ η Ω) (bn : α → α → α → α → α → α)
    (hbn : ∀ g b m s x y, 0 ≤ x → x ≤ y → bn g b m s x ≤ bn g b m s y) (σ : α) (hσ : 0 < σ) (N : Net α ι κ) (hN : N.WF) (hsd : N.SdAbove σ)
    (up lo A : ι → α) (hu : ∀ i, |up i| ≤ A i) (hl : ∀ i, |lo i| ≤ A i) (hf : N.Fits δ η Ω bn σ A) (u l : κ → α) (hb : N.RoundedIbp rd bn up lo u l)
    (c j : κ) (hm : u j + N.slackWith (floatError δ η bn) σ A (fun _ => 0) j < l c - N.slackWith (floatError δ η bn) σ A (fun _ => 0) c) (p : ι → α)
    (hp : ∀ i, lo i ≤ p i ∧ p i ≤ up i) (v : κ → α) (hv : N.RoundedCall rd bn p v) : v j < v c := by
  have hpA : ∀ i, |p i| ≤ A i := fun i => by
    rw [abs_le]
    constructor <;> linarith [(hp i).1, (hp i).2, abs_le.mp (hu i), (abs_le.mp (hu i)).2, (abs_le.mp (hl i)).1]
  exact C123_certificate _ (floatError_mono hδ bn hbn) 1 one_pos .vSlope σ hσ N hN hsd up lo A hu hl u l
    (N.float_runsIbp hδ hη h bn hbn 1 .vSlope σ hσ hsd up lo A hu hl hf u l hb) c j hm p hp v (N.float_runs hδ hη h bn hbn σ hσ hN hsd p A hpA hf v hv)

/-- C155: the score of `get_adv_box`, computed in the same arithmetic (`get_ibp_score`, wrapper.py:157-183, a difference of constant bounds). -/
theorem C155_score (hδ : 0 ≤ δ) (hη : 0 ≤ η) (h : FloatError rd δ η Ω) (bn : α → α → α → α → α → α)
    (hbn : ∀ g b m s x y, 0 ≤ x → x ≤ y → bn g b m s x ≤ bn g b m s y) (σ : α) (hσ : 0 < σ) (N : Net α ι κ) (hN : N.WF) (hsd : N.SdAbove σ)
    (up lo A : ι → α) (hu : ∀ i, |up i| ≤ A i) (hl : ∀ i, |lo i| ≤ A i) (hf : N.Fits δ η Ω bn σ A) (u l : κ → α) (hb : N.RoundedIbp rd bn up lo u l)
    (c j : κ) (hΩ : N.sizeWith (floatError δ η bn) σ A j + N.sizeWith (floatError δ η bn) σ A c ≤ Ω)
    (hm : rd (u j - l c) < -(N.slackWith (floatError δ η bn) σ A (fun _ => 0) j + N.slackWith (floatError δ η bn) σ A (fun _ => 0) c +
      δ * (N.sizeWith (floatError δ η bn) σ A j + N.sizeWith (floatError δ η bn) σ A c + η)))
    (p : ι → α) (hp : ∀ i, lo i ≤ p i ∧ p i ≤ up i) (v : κ → α) (hv : N.RoundedCall rd bn p v) : v j < v c := by
  have z := N.runsIbp_size _ (floatError_mono hδ bn hbn) 1 .vSlope σ hσ hsd up lo A hu hl u l
    (N.float_runsIbp hδ hη h bn hbn 1 .vSlope σ hσ hsd up lo A hu hl hf u l hb)
  have d : |u j - l c| ≤ N.sizeWith (floatError δ η bn) σ A j + N.sizeWith (floatError δ η bn) σ A c :=
    (abs_sub _ _).trans (add_le_add (z j).1 (z c).2)
  have e := (h _ (d.trans hΩ)).trans (mul_le_mul_of_nonneg_left (add_le_add_left d η) hδ)
  refine C155_certificate hδ hη h bn hbn σ hσ N hN hsd up lo A hu hl hf u l hb c j ?_ p hp v hv
  linarith [(abs_le.mp e).1]

/-- C155: nothing that is computed exceeds the sizes known in advance, so an output or a bound cannot be the result of an overflow. -/
theorem C155_no_overflow (hδ : 0 ≤ δ) (hη : 0 ≤ η) (h : FloatError rd δ η Ω) (bn : α → α → α → α → α → α)
    (hbn : ∀ g b m s x y, 0 ≤ x → x ≤ y → bn g b m s x ≤ bn g b m s y) (σ : α) (hσ : 0 < σ) (N : Net α ι κ) (hN : N.WF) (hsd : N.SdAbove σ)
    (up lo p A : ι → α) (hu : ∀ i, |up i| ≤ A i) (hl : ∀ i, |lo i| ≤ A i) (hp : ∀ i, |p i| ≤ A i) (hf : N.Fits δ η Ω bn σ A) (v u l : κ → α)
    (hv : N.RoundedCall rd bn p v) (hb : N.RoundedIbp rd bn up lo u l) (k : κ) :
    |v k| ≤ N.sizeWith (floatError δ η bn) σ A k ∧ |u k| ≤ N.sizeWith (floatError δ η bn) σ A k ∧ |l k| ≤ N.sizeWith (floatError δ η bn) σ A k :=
  ⟨N.runs_size _ (floatError_mono hδ bn hbn) σ hσ hN hsd p A hp v (N.float_runs hδ hη h bn hbn σ hσ hN hsd p A hp hf v hv) k,
    N.runsIbp_size _ (floatError_mono hδ bn hbn) 1 .vSlope σ hσ hsd up lo A hu hl u l
      (N.float_runsIbp hδ hη h bn hbn 1 .vSlope σ hσ hsd up lo A hu hl hf u l hb) k⟩

theorem floatError_zero (δ : α) (bn : α → α → α → α → α → α) : floatError δ 0 bn = roundError δ bn := by
  unfold floatError roundError
  congr 1
  · funext κ κ' inst l A k
    cases l <;> simp
  · funext op a b
    simp

/-- C155: without underflow (`η = 0`) the slack is the one of C123. -/
theorem C155_normal (δ : α) (bn : α → α → α → α → α → α) (σ : α) (N : Net α ι κ) (A s : ι → α) (k : κ) :
    N.slackWith (floatError δ 0 bn) σ A s k = N.slackWith (roundError δ bn) σ A s k := by
  rw [floatError_zero]

end

/-- C155: rounding to nearest with gradual underflow is such an arithmetic, whatever is returned beyond the largest number. -/
theorem C155_float (p : ℕ) (q : ℤ) (Ω : ℚ) (beyond : ℚ → ℚ) : FloatError (roundFloat p q Ω beyond) ((1 / 2) ^ p) ((2 : ℚ) ^ q) Ω := by
  intro x hx
  have e0 : (0 : ℚ) ≤ (1 / 2) ^ p := by positivity
  have q0 : (0 : ℚ) < (2 : ℚ) ^ q := zpow_pos (by norm_num) _
  unfold roundFloat
  rw [if_neg (not_lt.2 hx)]
  split
  · set w : ℚ := (2 : ℚ) ^ (q + 1 - p) with hw
    have w0 : 0 < w := zpow_pos (by norm_num) _
    have h1 := abs_sub_round (x / w)
    have h2 : round (x / w) * w - x = (round (x / w) - x / w) * w := by field_simp
    have h3 : 1 / 2 * w = (1 / 2) ^ p * (2 : ℚ) ^ q := by
      rw [hw, show q + 1 - p = q + (1 - p : ℤ) by ring, zpow_add₀ two_ne_zero, zpow_sub₀ two_ne_zero, zpow_natCast, one_div, inv_pow, zpow_one]
      field_simp
    rw [h2, abs_mul, abs_of_pos w0, abs_sub_comm]
    have := mul_le_mul_of_nonneg_right h1 w0.le
    rw [h3] at this
    exact this.trans (mul_le_mul_of_nonneg_left (by linarith [abs_nonneg x]) e0)
  · exact (C118_float_error p x).trans (mul_le_mul_of_nonneg_left (by linarith) e0)

/-- The largest number of `float32`. -/
def maxFloat32 : ℚ := (2 - (1 / 2) ^ 23) * 2 ^ 127

/-- `float32`. -/
def float32 (beyond : ℚ → ℚ) : ℚ → ℚ := roundFloat 24 (-126) maxFloat32 beyond

/-- C155 on a residual block in `float32` with its subnormal numbers and its largest number, on the box `[-1,1]²`: nothing overflows, and the computed outputs are
within `2e-6` of the computed bounds. -/
example (beyond : ℚ → ℚ) (p v u l : Fin 2 → ℚ) (hp : ∀ i, -1 ≤ p i ∧ p i ≤ 1) (hv : residualNet.RoundedCall (float32 beyond) (fun _ _ _ _ _ => 0) p v)
    (hb : residualNet.RoundedIbp (float32 beyond) (fun _ _ _ _ _ => 0) (fun _ => 1) (fun _ => -1) u l) (k : Fin 2) :
    l k - 2 / 1000000 ≤ v k ∧ v k ≤ u k + 2 / 1000000 := by
  have fits : residualNet.Fits ((1 / 2) ^ 24) ((2 : ℚ) ^ (-126 : ℤ)) maxFloat32 (fun _ _ _ _ _ => 0) 1 (fun _ => 1) :=
    ⟨⟨⟨trivial, by unfold Lay.Fits; decide +kernel⟩, trivial⟩, trivial, by decide +kernel⟩
  have h := C155_bounds (by positivity) (by positivity) (C155_float 24 (-126) maxFloat32 beyond) (fun _ _ _ _ _ => 0) (fun _ _ _ _ _ _ _ _ => le_rfl) 1 one_pos
    residualNet (by simp [residualNet, Net.WF, Lay.WF]) (by simp [residualNet, Net.SdAbove, Lay.SdAbove]) (fun _ => 1) (fun _ => -1) p (fun _ => 1) (fun _ => 0)
    (by simp) (by simp) (fun i => abs_le.mpr (hp i)) (fun _ => le_rfl) (by simpa using hp) fits v u l hv hb k
  have e : residualNet.slackWith (floatError ((1 / 2) ^ 24) ((2 : ℚ) ^ (-126 : ℤ)) fun _ _ _ _ _ => 0) 1 (fun _ => 1) (fun _ => 0) k ≤ 2 / 1000000 := by
    clear h; revert k; decide +kernel
  constructor <;> linarith [h.1, h.2]

/-! ### The two conditions cannot be dropped -/

theorem float32_pow (beyond : ℚ → ℚ) (k : ℤ) (h1 : -126 ≤ k) (h2 : k ≤ 127) : float32 beyond ((2 : ℚ) ^ k) = (2 : ℚ) ^ k := by
  have k0 : (0 : ℚ) < (2 : ℚ) ^ k := zpow_pos (by norm_num) _
  have a : (2 : ℚ) ^ k ≤ maxFloat32 := (zpow_le_zpow_right₀ (by norm_num) h2).trans (by decide +kernel)
  have b : (2 : ℚ) ^ (-126 : ℤ) ≤ (2 : ℚ) ^ k := zpow_le_zpow_right₀ (by norm_num) h1
  rw [float32, roundFloat, abs_of_pos k0, if_neg (not_lt.2 a), if_neg (not_lt.2 b), float_pow]

theorem float32_zero (beyond : ℚ → ℚ) : float32 beyond 0 = 0 := by
  have a : ¬ maxFloat32 < |(0 : ℚ)| := by decide +kernel
  have b : |(0 : ℚ)| < (2 : ℚ) ^ (-126 : ℤ) := by decide +kernel
  rw [float32, roundFloat, if_neg a, if_pos b, zero_div, round_zero, Int.cast_zero, zero_mul]

theorem float32_neg_pow (beyond : ℚ → ℚ) (k : ℤ) (h1 : -126 ≤ k) (h2 : k ≤ 127) : float32 beyond (-(2 : ℚ) ^ k) = -(2 : ℚ) ^ k := by
  have k0 : (0 : ℚ) < (2 : ℚ) ^ k := zpow_pos (by norm_num) _
  have a : (2 : ℚ) ^ k ≤ maxFloat32 := (zpow_le_zpow_right₀ (by norm_num) h2).trans (by decide +kernel)
  have b : (2 : ℚ) ^ (-126 : ℤ) ≤ (2 : ℚ) ^ k := zpow_le_zpow_right₀ (by norm_num) h1
  rw [float32, roundFloat, abs_neg, abs_of_pos k0, if_neg (not_lt.2 a), if_neg (not_lt.2 b), float_neg, float_pow]

/-- One unit that adds up three inputs. -/
def sumNet : Net ℚ (Fin 3) (Fin 1) := .layer .input (.dense (fun _ _ => 1) fun _ => 0)

/-- The last two terms added first. -/
def rightToLeft : SumTree (Fin 3) := .node (.leaf 0) (.node (.leaf 1) (.leaf 2))

theorem sumNet_orders (rd : ℚ → ℚ) (M B : ℚ) (z : rd 0 = 0) (P : rd M = M) (Q : rd (-M) = -M) (h1 : rd (M + M) = B) (h2 : rd (B + -M) = B) (h3 : rd B = B) :
    sumNet.RoundedIbp rd (fun _ _ _ _ _ => 0) ![M, M, -M] ![M, M, -M] (fun _ => M) (fun _ => M) ∧ sumNet.eval ![M, M, -M] = (fun _ => M) ∧
      sumNet.RoundedCall rd (fun _ _ _ _ _ => 0) ![M, M, -M] fun _ => B := by
  have lR : (rightToLeft.leaves : Multiset (Fin 3)) = Finset.univ.val := by decide
  have lL : (leftToRight.leaves : Multiset (Fin 3)) = Finset.univ.val := by decide
  refine ⟨⟨_, _, ⟨rfl, rfl⟩, fun o => ?_⟩, by funext k; simp [sumNet, Net.eval, Lay.eval, Fin.sum_univ_three], _, rfl,
    fun o => ⟨_, .inr ⟨leftToRight, lL, rfl⟩, ?_⟩⟩
  · have s1 : rightToLeft.sum rd (fun t => ![M, M, -M] t * max 0 1) = M := by
      simp only [rightToLeft, SumTree.sum, max_eq_right (zero_le_one' ℚ), mul_one, Matrix.cons_val]
      rw [P, Q, add_neg_cancel, z, add_zero, P]
    have s2 : rightToLeft.sum rd (fun t => ![M, M, -M] t * min 0 1) = 0 := by
      simp only [rightToLeft, SumTree.sum, min_eq_left (zero_le_one' ℚ), mul_zero, z, add_zero]
    have r : rd (rd (M + 0) + 0) = M := by simp only [add_zero, P]
    exact ⟨⟨_, _, .inr ⟨rightToLeft, lR, s1.symm⟩, .inr ⟨rightToLeft, lR, s2.symm⟩, r.symm⟩,
      _, _, .inr ⟨rightToLeft, lR, s1.symm⟩, .inr ⟨rightToLeft, lR, s2.symm⟩, r.symm⟩
  · have s : leftToRight.sum rd (fun t => ![M, M, -M] t * 1) = B := by
      simp only [leftToRight, SumTree.sum, mul_one, Matrix.cons_val]
      rw [P, Q, h1, h2]
    change B = rd (leftToRight.sum rd (fun t => ![M, M, -M] t * 1) + 0)
    rw [s, add_zero, h3]

/-- C155 without the condition on overflow is false: at the point `(2 ^ 127, 2 ^ 127, -2 ^ 127)` the bounds may both be `2 ^ 127`, the exact value, while the
model overflows (`2 ^ 200` stands for infinity), because the three terms are added in another order. -/
theorem C155_overflow_refuted :
    sumNet.RoundedIbp (float32 fun _ => 2 ^ 200) (fun _ _ _ _ _ => 0) ![2 ^ 127, 2 ^ 127, -2 ^ 127] ![2 ^ 127, 2 ^ 127, -2 ^ 127] (fun _ => 2 ^ 127)
        (fun _ => 2 ^ 127) ∧
      sumNet.eval ![2 ^ 127, 2 ^ 127, -2 ^ 127] = (fun _ => 2 ^ 127) ∧
      sumNet.RoundedCall (float32 fun _ => 2 ^ 200) (fun _ _ _ _ _ => 0) ![2 ^ 127, 2 ^ 127, -2 ^ 127] fun _ => 2 ^ 200 := by
  have big : ∀ y : ℚ, maxFloat32 < |y| → float32 (fun _ => 2 ^ 200) y = 2 ^ 200 := fun y hy => by rw [float32, roundFloat, if_pos hy]
  refine sumNet_orders _ _ _ (float32_zero _) ?_ ?_ (big _ ?_) (big _ ?_) (big _ ?_)
  · have := float32_pow (fun _ => 2 ^ 200) 127 (by norm_num) (by norm_num)
    rwa [zpow_ofNat] at this
  · have := float32_neg_pow (fun _ => 2 ^ 200) 127 (by norm_num) (by norm_num)
    rwa [zpow_ofNat] at this
  · norm_num [maxFloat32]
  · norm_num [maxFloat32, abs_of_pos]
  · norm_num [maxFloat32]

/-- One unit that multiplies by `2 ^ -100`. -/
def tinyNet : Net ℚ (Fin 1) (Fin 1) := .layer .input (.dense (fun _ _ => 2 ^ (-100 : ℤ)) fun _ => 0)

theorem float32_tiny (beyond : ℚ → ℚ) : float32 beyond ((2 : ℚ) ^ (-200 : ℤ)) = 0 := by
  have a : ¬ maxFloat32 < |(2 : ℚ) ^ (-200 : ℤ)| := by decide +kernel
  have b : |(2 : ℚ) ^ (-200 : ℤ)| < (2 : ℚ) ^ (-126 : ℤ) := by decide +kernel
  have c : round ((2 : ℚ) ^ (-200 : ℤ) / (2 : ℚ) ^ ((-126 : ℤ) + 1 - (24 : ℕ))) = 0 := by
    rw [round_eq_zero_iff]; constructor <;> decide +kernel
  rw [float32, roundFloat, if_neg a, if_pos b, c, Int.cast_zero, zero_mul]

/-- C155 with the slack of C123, which ignores underflow, is false in `float32`: at `2 ^ -100` both bounds are 0 and the exact value is `2 ^ -200`. -/
theorem C155_underflow_refuted (beyond : ℚ → ℚ) :
    tinyNet.RoundedIbp (float32 beyond) (fun _ _ _ _ _ => 0) (fun _ => 2 ^ (-100 : ℤ)) (fun _ => 2 ^ (-100 : ℤ)) (fun _ => 0) (fun _ => 0) ∧
      0 + tinyNet.slackWith (roundError ((1 / 2) ^ 24) fun _ _ _ _ _ => 0) 1 (fun _ => 2 ^ (-100 : ℤ)) (fun _ => 0) 0 <
        tinyNet.eval (fun _ => 2 ^ (-100 : ℤ)) 0 := by
  have z := float32_zero beyond
  have w := float32_tiny beyond
  have l1 : ((SumTree.leaf (0 : Fin 1)).leaves : Multiset (Fin 1)) = Finset.univ.val := by decide
  refine ⟨⟨_, _, ⟨rfl, rfl⟩, fun o => ?_⟩, by decide +kernel⟩
  have p0 : (0 : ℚ) ≤ 2 ^ (-100 : ℤ) := by positivity
  have s1 : (SumTree.leaf (0 : Fin 1)).sum (float32 beyond) (fun _ => (2 : ℚ) ^ (-100 : ℤ) * max 0 (2 ^ (-100 : ℤ))) = 0 := by
    rw [SumTree.sum, max_eq_right p0, ← zpow_add₀ two_ne_zero]
    exact w
  have s2 : (SumTree.leaf (0 : Fin 1)).sum (float32 beyond) (fun _ => (2 : ℚ) ^ (-100 : ℤ) * min 0 (2 ^ (-100 : ℤ))) = 0 := by
    rw [SumTree.sum, min_eq_left p0, mul_zero, z]
  have r : float32 beyond (float32 beyond (0 + 0) + 0) = 0 := by simp [z]
  exact ⟨⟨_, _, .inr ⟨_, l1, s1.symm⟩, .inr ⟨_, l1, s2.symm⟩, r.symm⟩, _, _, .inr ⟨_, l1, s1.symm⟩, .inr ⟨_, l1, s2.symm⟩, r.symm⟩

/-- And with the slack of C155 it holds there. -/
example : tinyNet.eval (fun _ => 2 ^ (-100 : ℤ)) 0 ≤
    0 + tinyNet.slackWith (floatError ((1 / 2) ^ 24) ((2 : ℚ) ^ (-126 : ℤ)) fun _ _ _ _ _ => 0) 1 (fun _ => 2 ^ (-100 : ℤ)) (fun _ => 0) 0 := by
  decide +kernel

/-- A case of `C155_score`: two outputs `x + 2` and `-x - 2` on `[-1, 1]`, source 0 and target 1. -/
def signBiasNet : Net ℚ (Fin 1) (Fin 2) := .layer .input (.dense (fun _ o => ![1, -1] o) fun o => ![2, -2] o)

example (beyond : ℚ → ℚ) (u l : Fin 2 → ℚ)
    (hb : signBiasNet.RoundedIbp (float32 beyond) (fun _ _ _ _ _ => 0) (fun _ => 1) (fun _ => -1) u l) (hm : float32 beyond (u 1 - l 0) < -(1 / 100000))
    (p : Fin 1 → ℚ) (hp : ∀ i, -1 ≤ p i ∧ p i ≤ 1) (v : Fin 2 → ℚ) (hv : signBiasNet.RoundedCall (float32 beyond) (fun _ _ _ _ _ => 0) p v) : v 1 < v 0 := by
  refine C155_score (by positivity) (by positivity) (C155_float 24 (-126) maxFloat32 beyond) (fun _ _ _ _ _ => 0) (fun _ _ _ _ _ _ _ _ => le_rfl) 1 one_pos
    signBiasNet (by simp [signBiasNet, Net.WF, Lay.WF]) (by simp [signBiasNet, Net.SdAbove, Lay.SdAbove]) (fun _ => 1) (fun _ => -1) (fun _ => 1) (by simp)
    (by simp) ⟨trivial, by unfold Lay.Fits; decide +kernel⟩ u l hb 0 1 (by decide +kernel) (lt_of_lt_of_le hm ?_) p hp v hv
  decide +kernel

end Decomon
