import Verif.Props.Layers

/-! Property C61: which biases the backward bounds of Dense layers handle. -/

namespace Decomon

section
variable {X ι n μ α : Type*} [Fintype n] [Fintype μ] [Field α] [LinearOrder α] [IsStrictOrderedRing α]

/-- C61: the bounds returned are those of the layer without bias, moved by the sum of the column of `C` times one entry of the bias. -/
theorem C61_dense_back_shift (D : PertDomain X ι α) (kernel : n → μ → α) (bias : μ → α) (back : μ → μ → α) (f : Full X ι n α)
    (u l u₀ l₀ : μ → α) (h : denseBackT D .ibp kernel bias back f = .ok (u, l)) (h₀ : denseBackT D .ibp kernel (fun _ => 0) back f = .ok (u₀, l₀))
    (c : μ) : u c = u₀ c + (∑ o, back o c) * bias c ∧ l c = l₀ c + (∑ o, back o c) * bias c := by
  simp only [denseBackT, getAffine, Bool.false_eq_true, if_false, Except.ok.injEq, Prod.mk.injEq] at h h₀
  obtain ⟨rfl, rfl⟩ := h
  obtain ⟨rfl, rfl⟩ := h₀
  simp [Finset.sum_mul]

/-- C61: the biases of `C61_dense_back_valid_partial` are the only ones: if the bounds for a constant input (`l_c = u_c = y`) contain the value of
the combination, the two ways to combine the bias agree in this column. -/
theorem C61_dense_back_necessary (D : PertDomain X ι α) (kernel : n → μ → α) (bias : μ → α) (back : μ → μ → α) (f : Full X ι n α) (y : n → α)
    (hu : f.uc = y) (hl : f.lc = y) (u l : μ → α) (h : denseBackT D .ibp kernel bias back f = .ok (u, l)) (c : μ)
    (hc : l c ≤ ∑ o, back o c * ((∑ t, kernel t o * y t) + bias o) ∧ ∑ o, back o c * ((∑ t, kernel t o * y t) + bias o) ≤ u c) :
    ∑ o, back o c * bias c = ∑ o, back o c * bias o := by
  have e : (∑ o, back o c * ((∑ t, kernel t o * y t) + bias o)) = (∑ t, (∑ o, kernel t o * back o c) * y t) + ∑ o, back o c * bias o := by
    simp only [mul_add, Finset.sum_add_distrib, Finset.mul_sum, Finset.sum_mul]
    rw [Finset.sum_comm]
    congr 1
    exact Finset.sum_congr rfl fun t _ => Finset.sum_congr rfl fun o _ => by ring
  have s : ∀ k : n → α, (∑ t, max 0 (k t) * y t) + ∑ t, min 0 (k t) * y t = ∑ t, k t * y t := by
    intro k
    rw [← Finset.sum_add_distrib]
    refine Finset.sum_congr rfl fun t _ => ?_
    rw [← add_mul, max_add_min, zero_add]
  have ht : f.tighten D .ibp false true = f := rfl
  simp only [denseBackT, getAffine, Bool.false_eq_true, if_false, Except.ok.injEq, Prod.mk.injEq, ht, hu, hl] at h
  obtain ⟨rfl, rfl⟩ := h
  rw [e] at hc
  simp only [s] at hc
  linarith [hc.1, hc.2]

end

/-- C61: two units, `C` with the first column `(1, -1)`: a bias is handled in this column exactly if its entries are equal. -/
example (b : Fin 2 → ℚ) : (∑ o, ![1, -1] o * b 0 = ∑ o, ![1, -1] o * b o) ↔ b 0 = b 1 := by
  simp only [Fin.sum_univ_two]
  constructor <;> intro h <;> simp at h ⊢ <;> linarith

/-- C61: the layer `2 x + 1, x` at the point 1, with the matrix of `C61_dense_back_refuted`: the bounds do not contain the value, since the two
sums are 0 and 1. -/
example (u l : Fin 2 → ℚ)
    (h : denseBackT boxDomain .ibp (fun (_ : Fin 1) o => ![2, 1] o) ![1, 0] (fun o c => ![![1, 0], ![-1, 0]] o c) (oneInput 1 1) = .ok (u, l)) :
    ¬ (l 0 ≤ ∑ o, ![![1, 0], ![-1, 0]] o 0 * ((∑ t : Fin 1, ![2, 1] o * (fun _ => (1 : ℚ)) t) + ![1, 0] o) ∧
      ∑ o, ![![1, 0], ![-1, 0]] o 0 * ((∑ t : Fin 1, ![2, 1] o * (fun _ => (1 : ℚ)) t) + ![1, 0] o) ≤ u 0) := by
  intro hc
  have := C61_dense_back_necessary boxDomain _ _ _ (oneInput 1 1) (fun _ => 1) (by funext i; decide +revert +kernel) (by funext i; decide +revert +kernel) u l h 0 hc
  revert this
  decide +kernel

/-- C61: with the bias `(4, 4)` the bounds of the layer without bias move by `(1 - 1) * 4 = 0` in the first column. -/
example (u l u₀ l₀ : Fin 2 → ℚ)
    (h : denseBackT boxDomain .ibp (fun (_ : Fin 1) o => ![2, 1] o) ![4, 4] (fun o c => ![![1, 0], ![-1, 0]] o c) (oneInput (-1) 1) = .ok (u, l))
    (h₀ : denseBackT boxDomain .ibp (fun (_ : Fin 1) o => ![2, 1] o) (fun _ => 0) (fun o c => ![![1, 0], ![-1, 0]] o c) (oneInput (-1) 1) = .ok (u₀, l₀)) :
    u 0 = u₀ 0 + 0 ∧ l 0 = l₀ 0 + 0 := by
  have := C61_dense_back_shift boxDomain _ _ _ _ u l u₀ l₀ h h₀ 0
  simpa using this

end Decomon
