import Verif.Props.Metrics

/-!
Property C134: `AdversarialCheck.linear_adv`.
-/

namespace Decomon

section
variable {X ι κ α : Type*} [Fintype ι] [Fintype κ] [DecidableEq κ] [Nonempty κ] [Field α] [LinearOrder α] [IsStrictOrderedRing α]

private theorem linearAdv_entry (D : PertDomain X ι α) (f : Full X ι κ α) (s t : κ) (h : t ≠ s) :
    D.getUpper f.x (fun i => f.wu i t - f.wl i s) (f.bu t) ≤ linearAdv D f.x (Pi.single s 1) f.wu f.bu f.wl f.bl := by
  have h1 := le_maxOver (fun k => D.getUpper f.x (fun i => f.wu i k * (1 - (Pi.single s 1 : κ → α) k) - ∑ j, f.wl i j * (Pi.single s 1 : κ → α) j)
    (f.bu k * (1 - (Pi.single s 1 : κ → α) k) - f.bl k * (Pi.single s 1 : κ → α) k) - 1000000 * (Pi.single s 1 : κ → α) k) t
  simp only [Pi.single_eq_of_ne h, sub_zero, mul_one, mul_zero, Pi.single_apply, mul_ite, Finset.sum_ite_eq', Finset.mem_univ, if_true] at h1
  unfold linearAdv
  simpa only [Pi.single_apply, mul_ite, mul_one, mul_zero, Finset.sum_ite_eq', Finset.mem_univ, if_true] using h1

/-- C134: the score plus the missing bias bounds the margin of every other label over the source. -/
theorem C134_margin (D : PertDomain X ι α) (m : Mode) (hm : getAffine m = true) (f : Full X ι κ α) (S : Set (ι → α)) (hD : D.Sound f.x S)
    (s : κ) (p : ι → α) (hp : p ∈ S) (y : κ → α) (v : Valid m false f p y) (t : κ) (ht : t ≠ s) :
    y t - y s ≤ linearAdv D f.x (Pi.single s 1) f.wu f.bu f.wl f.bl - f.bl s := by
  have h1 := linearAdv_entry D f s t ht
  have h2 := (hD p hp (fun i => f.wu i t - f.wl i s) (f.bu t)).2
  have e : affEval (fun i => f.wu i t - f.wl i s) (f.bu t) p =
      affEval (fun i => f.wu i t) (f.bu t) p - affEval (fun i => f.wl i s) (f.bl s) p + f.bl s := by
    simp only [affEval, sub_mul, Finset.sum_sub_distrib]; ring
  linarith [(v.aff hm t).2, (v.aff hm s).1]

/-- C134: a negative score certifies the source label over the whole domain.  Missing with respect to the full claim: sources whose lower
line has a negative bias, refuted below. -/
theorem C134_linear_adv_partial (D : PertDomain X ι α) (m : Mode) (hm : getAffine m = true) (f : Full X ι κ α) (S : Set (ι → α))
    (hD : D.Sound f.x S) (s : κ) (hb : 0 ≤ f.bl s) (F : (ι → α) → κ → α) (v : ∀ p ∈ S, Valid m false f p (F p))
    (h : linearAdv D f.x (Pi.single s 1) f.wu f.bu f.wl f.bl < 0) : ∀ p ∈ S, ∀ t, t ≠ s → F p t < F p s := by
  intro p hp t ht
  have := C134_margin D m hm f S hD s p hp (F p) (v p hp) t ht
  linarith

end

/-- C134 is false in general: constant outputs `(-2, -1)`, exact bounds in every mode, source 0: the score is `-1` although the other label
is larger at every point. -/
theorem C134_linear_adv_refuted :
    (∀ m p, Valid m false (looseConst ![-2, -1] 0) p ![-2, -1]) ∧
      linearAdv boxDomain (looseConst ![-2, -1] 0).x (Pi.single (0 : Fin 2) 1) (looseConst ![-2, -1] 0).wu (looseConst ![-2, -1] 0).bu
        (looseConst ![-2, -1] 0).wl (looseConst ![-2, -1] 0).bl = -1 ∧
      (![-2, -1] : Fin 2 → ℚ) 0 < (![-2, -1] : Fin 2 → ℚ) 1 :=
  ⟨fun m => looseConst_valid _ _ le_rfl m, by decide +kernel, by decide +kernel⟩

/-- C134: nor is a robust sample always recognised: outputs `(2, 1)` with exact bounds, score 1, where `_get_affine_score` (the function that
`AdversarialScore` calls) gives `-1`. -/
theorem C134_positive_refuted :
    linearAdv boxDomain (looseConst ![2, 1] 0).x (Pi.single (0 : Fin 2) 1) (looseConst ![2, 1] 0).wu (looseConst ![2, 1] 0).bu
        (looseConst ![2, 1] 0).wl (looseConst ![2, 1] 0).bl = 1 ∧
      advScoreCall boxDomain .affine none (looseConst ![2, 1] 0) ![1, 0] = -1 := by
  constructor <;> decide +kernel

/-- Outputs `(2 x + 1, x - 1)` for `x ∈ [0, 1]`. -/
def slopedPair : Full ((Fin 1 → ℚ) × (Fin 1 → ℚ)) (Fin 1) (Fin 2) ℚ :=
  ⟨(fun _ => 0, fun _ => 1), ![3, 0], fun _ => ![2, 1], ![1, -1], ![1, -1], fun _ => ![2, 1], ![1, -1], fun _ => 0, fun _ => 0⟩

/-- Non-vacuity of C134: `2 x + 1` against `x - 1` on `[0, 1]`: the score is `-1`. -/
example : ∀ p ∈ Box (fun _ : Fin 1 => (0 : ℚ)) (fun _ => 1), ∀ t, t ≠ (0 : Fin 2) → (![2 * p 0 + 1, p 0 - 1] : Fin 2 → ℚ) t < 2 * p 0 + 1 :=
  C134_linear_adv_partial boxDomain .affine rfl slopedPair _ (boxDomain_sound _ _) 0 (by decide +kernel)
    (fun p => ![2 * p 0 + 1, p 0 - 1])
    (fun p _ => ⟨by simp [getIbp], fun _ k => by fin_cases k <;> simp [slopedPair, affEval] <;> constructor <;> linarith, by simp⟩)
    (by decide +kernel)

end Decomon
