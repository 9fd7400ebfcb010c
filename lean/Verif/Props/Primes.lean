import Verif.Model.Primes
import Verif.Lemmas.Activations

/-! Property C165. -/

namespace Decomon

open Set

/-- Specification: `f'` is the derivative of `f` everywhere, it is positive and at most `L`, and it takes the value `L` at 0. -/
def SlopesWithin (f f' : ℝ → ℝ) (L : ℝ) : Prop := (∀ x, HasDerivAt f (f' x) x ∧ 0 < f' x ∧ f' x ≤ L) ∧ f' 0 = L

/-- Specification: the values at the ends of an interval keep their order, and are at most `L` times as far apart as the ends. -/
def WidthWithin (f : ℝ → ℝ) (L : ℝ) : Prop := ∀ l u, l ≤ u → f l ≤ f u ∧ f u - f l ≤ L * (u - l)

private theorem sshaped_top {f f' : ℝ → ℝ} (S : SShaped f f') (x : ℝ) : f' x ≤ f' 0 := by
  rcases le_total x 0 with h | h
  · exact S.mono.monotoneOn h self_mem_Iic h
  · exact S.anti.antitoneOn self_mem_Ici h h

private theorem slopes_width {f f' : ℝ → ℝ} {L : ℝ} (S : SShaped f f') (h : ∀ x, f' x ≤ L) : WidthWithin f L := by
  intro l u hlu
  rcases hlu.eq_or_lt with rfl | hlt
  · simp
  obtain ⟨c, _, e⟩ := S.mvt hlt
  have h1 := mul_pos (S.pos c) (sub_pos.2 hlt)
  have h2 := mul_le_mul_of_nonneg_right (h c) (sub_pos.2 hlt).le
  constructor <;> linarith

/-- C165: `sigmoid_prime` is the derivative of the logistic function, with values in `(0, 1/4]`; the interval of the sigmoid layer is at most a
quarter as wide as the interval of its input. -/
theorem C165_sigmoid : SlopesWithin (fun t => 1 / (1 + Real.exp (-t))) sigmoidPrime (1 / 4) ∧
    WidthWithin (fun t => 1 / (1 + Real.exp (-t))) (1 / 4) := by
  have e : (fun t : ℝ => 1 / (1 + Real.exp (-t))) = Real.sigmoid := by
    funext t; rw [Real.sigmoid_def, one_div]
  have e0 : sigmoidPrime 0 = 1 / 4 := by
    unfold sigmoidPrime; rw [Real.sigmoid_def]; norm_num
  rw [e]
  have hl : ∀ x, sigmoidPrime x ≤ 1 / 4 := fun x => e0 ▸ sshaped_top sshaped_sigmoid x
  exact ⟨⟨fun x => ⟨sshaped_sigmoid.deriv x, sshaped_sigmoid.pos x, hl x⟩, e0⟩, slopes_width sshaped_sigmoid hl⟩

/-- C165: `tanh_prime` is the derivative of the hyperbolic tangent, with values in `(0, 1]`; the layer does not widen intervals. -/
theorem C165_tanh : SlopesWithin (fun t => (Real.exp t - Real.exp (-t)) / (Real.exp t + Real.exp (-t))) tanhPrime 1 ∧
    WidthWithin (fun t => (Real.exp t - Real.exp (-t)) / (Real.exp t + Real.exp (-t))) 1 := by
  have e : (fun t : ℝ => (Real.exp t - Real.exp (-t)) / (Real.exp t + Real.exp (-t))) = Real.tanh := by
    funext t; rw [Real.tanh_eq]
  have e0 : tanhPrime 0 = 1 := by simp [tanhPrime]
  rw [e]
  have hl : ∀ x, tanhPrime x ≤ 1 := fun x => e0 ▸ sshaped_top sshaped_tanh x
  exact ⟨⟨fun x => ⟨sshaped_tanh.deriv x, sshaped_tanh.pos x, hl x⟩, e0⟩, slopes_width sshaped_tanh hl⟩

/-- C165: `softsign_prime` is the derivative of `t / (1 + |t|)`, also at 0, with values in `(0, 1]`; the layer does not widen intervals. -/
theorem C165_softsign : SlopesWithin (fun t => t / (1 + |t|)) softsignPrime 1 ∧ WidthWithin (fun t => t / (1 + |t|)) 1 := by
  have e0 : softsignPrime (0 : ℝ) = 1 := by simp [softsignPrime]
  have hl : ∀ x : ℝ, softsignPrime x ≤ 1 := fun x => e0 ▸ sshaped_top sshaped_softsign x
  exact ⟨⟨fun x => ⟨sshaped_softsign.deriv x, sshaped_softsign.pos x, hl x⟩, e0⟩, slopes_width sshaped_softsign hl⟩

private theorem reluPrime_pos {x : ℝ} (h : 0 < x) : reluPrime x = 1 := by
  simp [reluPrime, ksign, kclip, h.not_gt, h.ne']

private theorem reluPrime_nonpos {x : ℝ} (h : x ≤ 0) : reluPrime x = 0 := by
  rcases h.eq_or_lt with rfl | h
  · simp [reluPrime, ksign, kclip]
  · simp [reluPrime, ksign, kclip, h]

/-- C165: `relu_prime` is the derivative of relu off 0.  Missing with respect to the full claim: the point 0, where relu has no derivative
(refuted below). -/
theorem C165_relu_partial (x : ℝ) (hx : x ≠ 0) : HasDerivAt (fun t => max t 0) (reluPrime x) x := by
  rcases hx.lt_or_gt with h | h
  · rw [reluPrime_nonpos h.le]
    refine (hasDerivAt_const x (0 : ℝ)).congr_of_eventuallyEq ?_
    filter_upwards [gt_mem_nhds h] with t ht
    exact max_eq_right (le_of_lt ht)
  · rw [reluPrime_pos h]
    refine (hasDerivAt_id x).congr_of_eventuallyEq ?_
    filter_upwards [lt_mem_nhds h] with t ht
    exact max_eq_left (le_of_lt ht)

/-- C165: the line through a point of the graph of relu with the slope `relu_prime` is below relu everywhere, for every point, 0 included. -/
theorem C165_relu_below (x y : ℝ) : max x 0 + reluPrime x * (y - x) ≤ max y 0 := by
  rcases le_or_gt x 0 with h | h
  · rw [reluPrime_nonpos h, max_eq_right h]; simp
  · rw [reluPrime_pos h, max_eq_left h.le]; simp

/-- C165 is false for relu at 0: relu has no derivative there, while `relu_prime` gives 0. -/
theorem C165_relu_refuted : reluPrime (0 : ℝ) = 0 ∧ ¬ ∃ d, HasDerivAt (fun t : ℝ => max t 0) d 0 := by
  refine ⟨reluPrime_nonpos le_rfl, ?_⟩
  rintro ⟨d, h⟩
  have hr : HasDerivWithinAt (fun t : ℝ => max t 0) 1 (Ici 0) 0 :=
    (hasDerivWithinAt_id 0 _).congr (fun t ht => max_eq_left ht) (max_eq_left le_rfl)
  have hl : HasDerivWithinAt (fun t : ℝ => max t 0) 0 (Iic 0) 0 :=
    (hasDerivWithinAt_const 0 _ (0 : ℝ)).congr (fun t ht => max_eq_right ht) (max_eq_right le_rfl)
  have e1 := (uniqueDiffWithinAt_Ici (0 : ℝ)).eq_deriv _ h.hasDerivWithinAt hr
  have e0 := (uniqueDiffWithinAt_Iic (0 : ℝ)).eq_deriv _ h.hasDerivWithinAt hl
  exact one_ne_zero (e1.symm.trans e0)

/-- C165: an activation layer in ibp mode gives intervals at most `L` times as wide as those it gets, with the `L` of the function: 1/4, 1, 1. -/
theorem C165_layers {X ι κ : Type*} (D : PertDomain X ι ℝ) (eps : ℝ) (inp : Full X ι κ ℝ) (k : κ) (h : inp.lc k ≤ inp.uc k) :
    (sShapeT D .ibp eps Real.sigmoid sigmoidPrime inp).uc k - (sShapeT D .ibp eps Real.sigmoid sigmoidPrime inp).lc k ≤ (inp.uc k - inp.lc k) / 4 ∧
    (sShapeT D .ibp eps Real.tanh tanhPrime inp).uc k - (sShapeT D .ibp eps Real.tanh tanhPrime inp).lc k ≤ inp.uc k - inp.lc k ∧
    (sShapeT D .ibp eps softsign softsignPrime inp).uc k - (sShapeT D .ibp eps softsign softsignPrime inp).lc k ≤ inp.uc k - inp.lc k := by
  have e1 : ∀ t : ℝ, 1 / (1 + Real.exp (-t)) = Real.sigmoid t := fun t => by rw [Real.sigmoid_def, one_div]
  have e2 : ∀ t : ℝ, (Real.exp t - Real.exp (-t)) / (Real.exp t + Real.exp (-t)) = Real.tanh t := fun t => by rw [Real.tanh_eq]
  have h1 := (C165_sigmoid.2 _ _ h).2
  have h2 := (C165_tanh.2 _ _ h).2
  have h3 := (C165_softsign.2 _ _ h).2
  simp only [e1] at h1
  simp only [e2] at h2
  refine ⟨le_trans h1 (by linarith), le_trans h2 (by linarith), le_trans h3 (by linarith)⟩

/-- C165: relu and softplus layers in ibp mode do not widen intervals. -/
theorem C165_relu_softplus_layers {X ι κ : Type*} (D : PertDomain X ι ℝ) (eps : ℝ) (slope : Slope) (gamma : κ → ℝ) (inp : Full X ι κ ℝ) (k : κ)
    (h : inp.lc k ≤ inp.uc k) :
    (reluT D .ibp false eps slope gamma inp).uc k - (reluT D .ibp false eps slope gamma inp).lc k ≤ inp.uc k - inp.lc k ∧
    (softplusIbpT D inp).uc k - (softplusIbpT D inp).lc k ≤ inp.uc k - inp.lc k := by
  constructor
  · change max (inp.uc k) 0 - max (inp.lc k) 0 ≤ _
    rcases max_cases (inp.uc k) 0 with ⟨e1, _⟩ | ⟨e1, _⟩ <;> rcases max_cases (inp.lc k) 0 with ⟨e2, _⟩ | ⟨e2, _⟩ <;> rw [e1, e2] <;> linarith
  · change Real.log (1 + Real.exp (inp.uc k)) - Real.log (1 + Real.exp (inp.lc k)) ≤ _
    have p1 : 0 < 1 + Real.exp (inp.uc k) := by positivity
    have p2 : 0 < 1 + Real.exp (inp.lc k) := by positivity
    rw [← Real.log_div p1.ne' p2.ne', Real.log_le_iff_le_exp (by positivity), div_le_iff₀ p2, mul_add, ← Real.exp_add]
    have e : inp.uc k - inp.lc k + inp.lc k = inp.uc k := by ring
    have g : (1 : ℝ) ≤ Real.exp (inp.uc k - inp.lc k) := Real.one_le_exp (by linarith)
    rw [e]
    linarith

/-- C165: the tanh of the interval `[-1, 2]` is an interval of width at most 3, that of the sigmoid at most 3/4. -/
example : 1 / (1 + Real.exp (-2)) - 1 / (1 + Real.exp (-(-1))) ≤ 3 / 4 ∧
    (Real.exp 2 - Real.exp (-2)) / (Real.exp 2 + Real.exp (-2)) - (Real.exp (-1) - Real.exp (-(-1))) / (Real.exp (-1) + Real.exp (-(-1))) ≤ 3 := by
  have h1 := (C165_sigmoid.2 (-1) 2 (by norm_num)).2
  have h2 := (C165_tanh.2 (-1) 2 (by norm_num)).2
  constructor <;> [exact h1.trans (by norm_num); exact h2.trans (by norm_num)]

/-- C165: the slope of softsign at -1 is 1/4. -/
example : HasDerivAt (fun t : ℝ => t / (1 + |t|)) (1 / 4) (-1) := by
  have h := (C165_softsign.1.1 (-1)).1
  have e : softsignPrime (-1 : ℝ) = 1 / 4 := by norm_num [softsignPrime]
  exact e ▸ h

/-- C165: relu has the slope 1 at 3, and the line of slope 1 through `(3, 3)` is below relu at -2: `-2 ≤ 0`. -/
example : HasDerivAt (fun t : ℝ => max t 0) 1 3 ∧ (3 : ℝ) + 1 * (-2 - 3) ≤ 0 := by
  have h := C165_relu_partial 3 (by norm_num)
  have b := C165_relu_below 3 (-2)
  rw [reluPrime_pos (by norm_num : (0 : ℝ) < 3)] at h b
  refine ⟨h, ?_⟩
  simpa using b

/-- C165: the interval `[-1, 3]` through a sigmoid layer: the width is at most 1. -/
example : (sShapeT (boxDomain (ι := Fin 1)) .ibp 0 Real.sigmoid sigmoidPrime
      ⟨(fun _ => -1, fun _ => 3), fun _ : Fin 1 => 3, fun _ _ => 0, fun _ => 0, fun _ => -1, fun _ _ => 0, fun _ => 0, fun _ => 0, fun _ => 0⟩).uc 0 -
    (sShapeT (boxDomain (ι := Fin 1)) .ibp 0 Real.sigmoid sigmoidPrime
      ⟨(fun _ => -1, fun _ => 3), fun _ : Fin 1 => 3, fun _ _ => 0, fun _ => 0, fun _ => -1, fun _ _ => 0, fun _ => 0, fun _ => 0, fun _ => 0⟩).lc 0 ≤ 1 :=
  (C165_layers boxDomain 0 _ 0 (by norm_num)).1.trans (by norm_num)

/-- C165: the interval `[-1, 3]` through a softplus layer: the width is at most 4. -/
example : Real.log (1 + Real.exp 3) - Real.log (1 + Real.exp (-1)) ≤ 4 :=
  (C165_relu_softplus_layers (boxDomain (ι := Fin 1)) 0 .vSlope (fun _ => 1)
    ⟨(fun _ => -1, fun _ => 3), fun _ : Fin 1 => 3, fun _ _ => 0, fun _ => 0, fun _ => -1, fun _ _ => 0, fun _ => 0, fun _ => 0, fun _ => 0⟩ 0
    (by norm_num)).2.trans (by norm_num)

end Decomon
