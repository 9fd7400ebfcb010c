import Verif.SpecNet
import Verif.Lemmas.Layers
import Verif.Props.Layers

/-! Helper lemmas for backward bounds. -/

namespace Decomon

section
variable {ι κ κ' ν α : Type*} [Field α] [LinearOrder α] [IsStrictOrderedRing α]

theorem diagLike_sum [Fintype κ] [DecidableEq κ] (v : κ → α) (b : α) (y : κ → α) (k : κ) :
    affEval (fun i => diagLike v i k) b y = v k * y k + b := by
  simp [affEval, diagLike]

theorem pick_sum [Fintype κ] [DecidableEq κ] (j : κ) (b : α) (y : κ → α) :
    affEval (fun i => if i = j then (1 : α) else 0) b y = y j + b := by
  simp [affEval]

theorem holds_identity [Fintype κ] [DecidableEq κ] (y : κ → α) : (Back.identity : Back κ κ α).Holds y y := by
  intro k
  simp only [Back.identity, diagLike_sum]
  simp

theorem holds_merge [Fintype ι] [Fintype κ] (prev : Back ι κ α) (b : Back κ ν α) (x : ι → α) (y : κ → α) (t : ν → α)
    (h1 : prev.Holds x y) (h2 : b.Holds y t) : (mergeWithPrevious prev b).Holds x t := by
  have eu : ∀ n, affEval (fun i => (mergeWithPrevious prev b).wu i n) ((mergeWithPrevious prev b).bu n) x =
      (∑ k, (max (b.wu k n) 0 * affEval (fun i => prev.wu i k) (prev.bu k) x +
        min (b.wu k n) 0 * affEval (fun i => prev.wl i k) (prev.bl k) x)) + b.bu n := by
    intro n
    simp only [mergeWithPrevious]
    rw [affEval_add_const, affEval_add, affEval_sum Finset.univ (fun k i => prev.wu i k * max (b.wu k n) 0),
      affEval_sum Finset.univ (fun k i => prev.wl i k * min (b.wu k n) 0), ← Finset.sum_add_distrib]
    congr 1
    refine Finset.sum_congr rfl fun k _ => ?_
    rw [← affEval_smul, ← affEval_smul]
    simp only [mul_comm]
  have el : ∀ n, affEval (fun i => (mergeWithPrevious prev b).wl i n) ((mergeWithPrevious prev b).bl n) x =
      (∑ k, (max (b.wl k n) 0 * affEval (fun i => prev.wl i k) (prev.bl k) x +
        min (b.wl k n) 0 * affEval (fun i => prev.wu i k) (prev.bu k) x)) + b.bl n := by
    intro n
    simp only [mergeWithPrevious]
    rw [affEval_add_const, affEval_add, affEval_sum Finset.univ (fun k i => prev.wl i k * max (b.wl k n) 0),
      affEval_sum Finset.univ (fun k i => prev.wu i k * min (b.wl k n) 0), ← Finset.sum_add_distrib]
    congr 1
    refine Finset.sum_congr rfl fun k _ => ?_
    rw [← affEval_smul, ← affEval_smul]
    simp only [mul_comm]
  intro n
  rw [eu, el]
  constructor
  · refine le_trans ?_ (h2 n).1
    unfold affEval
    gcongr with k
    exact posneg_le_mul (h1 k).1 (h1 k).2
  · refine le_trans (h2 n).2 ?_
    conv_lhs => unfold affEval
    gcongr with k
    exact mul_le_posneg (h1 k).1 (h1 k).2

theorem holds_dense {n μ : Type*} [Fintype n] (kernel : n → μ → α) (bias : μ → α) (y : n → α) :
    (backwardDense kernel bias).Holds y (fun o => (∑ t, kernel t o * y t) + bias o) :=
  fun _ => ⟨le_rfl, le_rfl⟩

theorem toeplitz_sum {S O T Q : Type*} [Fintype S] [Fintype T] [DecidableEq S] (L : LinIndex S O T Q) (kernel : Q → α)
    (y : S → α) (o : O) :
    ∑ s, toeplitz L kernel s o * y s =
      ∑ t, kernel (L.kidx o t) * (match L.src o t with | none => 0 | some s => y s) := by
  simp only [toeplitz, Finset.sum_mul]
  rw [Finset.sum_comm]
  refine Finset.sum_congr rfl fun t _ => ?_
  cases L.src o t with
  | none => simp
  | some s' => simp

omit [LinearOrder α] [IsStrictOrderedRing α] in
theorem toeplitz_sum' {S O T Q : Type*} [Fintype S] [Fintype T] [DecidableEq S] (L : LinIndex S O T Q) (kernel : Q → α)
    (y : S → α) (o : O) :
    ∑ s, toeplitz L kernel s o * y s = ∑ t, kernel (L.kidx o t) * (L.src o t).elim 0 y := by
  simp only [toeplitz, Finset.sum_mul]
  rw [Finset.sum_comm]
  refine Finset.sum_congr rfl fun t _ => ?_
  cases L.src o t with
  | none => simp
  | some s' => simp

theorem holds_conv {S O T Q : Type*} [Fintype S] [Fintype T] [DecidableEq S] (L : LinIndex S O T Q) (kernel : Q → α)
    (bias : O → α) (y : S → α) :
    (backwardConv L kernel bias).Holds y
      (fun o => (∑ t, kernel (L.kidx o t) * (match L.src o t with | none => 0 | some s => y s)) + bias o) := by
  intro o
  simp only [backwardConv, affEval, toeplitz_sum]
  exact ⟨le_rfl, le_rfl⟩

theorem holds_diag [Fintype κ] [DecidableEq κ] (wu bu wl bl : κ → α) (y t : κ → α)
    (h : ∀ k, wl k * y k + bl k ≤ t k ∧ t k ≤ wu k * y k + bu k) : (Back.ofDiag wu bu wl bl).Holds y t := by
  intro k
  simp only [Back.ofDiag, diagLike_sum]
  exact h k

theorem holds_batchNorm [Fintype κ] [DecidableEq κ] (gamma beta mean sd : κ → α) (y : κ → α) :
    (backwardBatchNorm gamma beta mean sd).Holds y (fun k => gamma k * ((y k - mean k) / sd k) + beta k) := by
  intro k
  have e : affEval (fun i => (if i = k then (1 : α) else 0) * (gamma i / sd i)) (beta k - gamma k / sd k * mean k) y =
      gamma k * ((y k - mean k) / sd k) + beta k := by
    simp only [affEval, ite_mul, one_mul, zero_mul, Finset.sum_ite_eq', Finset.mem_univ, if_true]
    ring
  simp only [backwardBatchNorm, e]
  exact ⟨le_rfl, le_rfl⟩

theorem holds_reindex [Fintype κ] [DecidableEq κ] (e : κ' → κ) (y : κ → α) :
    (backwardReindex e : Back κ κ' α).Holds y (fun k => y (e k)) := by
  intro k
  simp only [backwardReindex, pick_sum]
  simp

theorem holds_relu {X : Type*} [Fintype κ] [DecidableEq κ] (D : PertDomain X ι α) (m : Mode) (eps : α) (he : 0 < eps)
    (s : Slope) (gamma : κ → α) (hg : ∀ k, 0 ≤ gamma k ∧ gamma k ≤ 1) (f : Full X ι κ α) (y : κ → α)
    (hc : ∀ k, (f.tighten D m true true).lc k ≤ y k ∧ y k ≤ (f.tighten D m true true).uc k)
    (hs : ∀ k, ¬ ((f.tighten D m true true).lc k < 0 ∧ 0 < (f.tighten D m true true).uc k ∧
      (f.tighten D m true true).uc k - (f.tighten D m true true).lc k < eps)) :
    (backwardRelu D m eps s gamma f).Holds y (fun k => max (y k) 0) :=
  holds_diag _ _ _ _ _ _ fun k =>
    ⟨hullRelu_lower s he (hg k).1 (hg k).2 (hc k).1 (hc k).2,
      hullRelu_upper s he (hg k).1 (hg k).2 (hc k).1 (hc k).2 (hs k)⟩

end

end Decomon
