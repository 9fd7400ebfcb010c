import Verif.Spec
import Mathlib.Tactic.Linarith
import Mathlib.Tactic.Ring
import Mathlib.Tactic.NormNum
import Mathlib.Tactic.Positivity
import Mathlib.Tactic.FieldSimp

/-! Helper lemmas on affine forms, box and ball concretisation. -/

namespace Decomon

section
variable {ι α : Type*} [Fintype ι] [Field α] [LinearOrder α] [IsStrictOrderedRing α]

theorem mul_le_posneg {w x lo hi : α} (h1 : lo ≤ x) (h2 : x ≤ hi) :
    w * x ≤ max w 0 * hi + min w 0 * lo := by
  rcases le_total 0 w with h | h
  · rw [max_eq_left h, min_eq_right h]; nlinarith
  · rw [max_eq_right h, min_eq_left h]; nlinarith

theorem posneg_le_mul {w x lo hi : α} (h1 : lo ≤ x) (h2 : x ≤ hi) :
    max w 0 * lo + min w 0 * hi ≤ w * x := by
  rcases le_total 0 w with h | h
  · rw [max_eq_left h, min_eq_right h]; nlinarith
  · rw [max_eq_right h, min_eq_left h]; nlinarith

theorem getUpperBox_sound {xmin xmax p : ι → α} (hp : p ∈ Box xmin xmax) (w : ι → α) (b : α) :
    affEval w b p ≤ getUpperBox xmin xmax w b := by
  unfold affEval getUpperBox
  gcongr with i
  exact mul_le_posneg (hp i).1 (hp i).2

theorem getLowerBox_sound {xmin xmax p : ι → α} (hp : p ∈ Box xmin xmax) (w : ι → α) (b : α) :
    getLowerBox xmin xmax w b ≤ affEval w b p := by
  unfold affEval getLowerBox
  gcongr with i
  exact posneg_le_mul (hp i).1 (hp i).2

theorem boxDomain_sound (xmin xmax : ι → α) :
    (boxDomain : PertDomain _ ι α).Sound (xmin, xmax) (Box xmin xmax) :=
  fun _ hp w b => ⟨getLowerBox_sound hp w b, getUpperBox_sound hp w b⟩

theorem pos_add_neg (w : α) : max w 0 + min w 0 = w := by
  rcases le_total 0 w with h | h <;> simp [h]

theorem affEval_add (w w' : ι → α) (b b' : α) (p : ι → α) :
    affEval (fun i => w i + w' i) (b + b') p = affEval w b p + affEval w' b' p := by
  simp only [affEval, add_mul, Finset.sum_add_distrib]; ring

theorem affEval_smul (c : α) (w : ι → α) (b : α) (p : ι → α) :
    affEval (fun i => c * w i) (c * b) p = c * affEval w b p := by
  simp only [affEval, mul_add, Finset.mul_sum, mul_assoc]

theorem affEval_neg (w : ι → α) (b : α) (p : ι → α) :
    affEval (fun i => - w i) (-b) p = - affEval w b p := by
  simp only [affEval, neg_mul, Finset.sum_neg_distrib]; ring

theorem affEval_sum {κ : Type*} (s : Finset κ) (w : κ → ι → α) (b : κ → α) (p : ι → α) :
    affEval (fun i => ∑ k ∈ s, w k i) (∑ k ∈ s, b k) p = ∑ k ∈ s, affEval (w k) (b k) p := by
  simp only [affEval, Finset.sum_mul, Finset.sum_add_distrib]
  rw [Finset.sum_comm]

theorem affEval_add_const (w : ι → α) (b c : α) (p : ι → α) :
    affEval w (b + c) p = affEval w b p + c := by simp only [affEval]; ring

theorem affEval_zero_w (b : α) (p : ι → α) : affEval (fun _ => (0 : α)) b p = b := by
  simp [affEval]

end

section Ball
variable {ι : Type*} [Fintype ι]

theorem affEval_sub_center (w : ι → ℝ) (b : ℝ) (p x0 : ι → ℝ) :
    affEval w b p = (∑ i, w i * x0 i) + b + ∑ i, w i * (p i - x0 i) := by
  simp only [affEval, mul_sub, Finset.sum_sub_distrib]; ring

theorem le_maxOver {α : Type*} [Field α] [LinearOrder α] [Nonempty ι] (t : ι → α) (i : ι) : t i ≤ maxOver t :=
  Finset.le_sup' t (Finset.mem_univ i)

theorem minOver_le {α : Type*} [Field α] [LinearOrder α] [Nonempty ι] (t : ι → α) (i : ι) : minOver t ≤ t i :=
  Finset.inf'_le t (Finset.mem_univ i)

theorem exists_maxOver {α : Type*} [Field α] [LinearOrder α] [Nonempty ι] (t : ι → α) : ∃ i, maxOver t = t i := by
  obtain ⟨i, _, h⟩ := Finset.exists_mem_eq_sup' (Finset.univ_nonempty (α := ι)) t
  exact ⟨i, h⟩

theorem exists_minOver {α : Type*} [Field α] [LinearOrder α] [Nonempty ι] (t : ι → α) : ∃ i, minOver t = t i := by
  obtain ⟨i, _, h⟩ := Finset.exists_mem_eq_inf' (Finset.univ_nonempty (α := ι)) t
  exact ⟨i, h⟩

theorem maxOver_le {α : Type*} [Field α] [LinearOrder α] [Nonempty ι] {t : ι → α} {c : α} (h : ∀ i, t i ≤ c) :
    maxOver t ≤ c := Finset.sup'_le _ _ fun i _ => h i

theorem le_minOver {α : Type*} [Field α] [LinearOrder α] [Nonempty ι] {t : ι → α} {c : α} (h : ∀ i, c ≤ t i) :
    c ≤ minOver t := Finset.le_inf' _ _ fun i _ => h i

theorem abs_dot_le_l1 [Nonempty ι] (w d : ι → ℝ) : |∑ i, w i * d i| ≤ maxOver (fun i => |w i|) * ∑ i, |d i| := by
  calc |∑ i, w i * d i| ≤ ∑ i, |w i * d i| := Finset.abs_sum_le_sum_abs _ _
    _ ≤ ∑ i, maxOver (fun i => |w i|) * |d i| := by
        gcongr with i
        rw [abs_mul]
        gcongr
        exact le_maxOver (fun i => |w i|) i
    _ = _ := by rw [Finset.mul_sum]

theorem abs_dot_le_l2 (w d : ι → ℝ) {eps : ℝ} (he : 0 ≤ eps) (hd : ∑ i, d i ^ 2 ≤ eps ^ 2) :
    |∑ i, w i * d i| ≤ eps * Real.sqrt (∑ i, w i ^ 2) := by
  have h := Finset.sum_mul_sq_le_sq_mul_sq Finset.univ w d
  have hw : 0 ≤ ∑ i, w i ^ 2 := Finset.sum_nonneg fun i _ => sq_nonneg _
  apply abs_le_of_sq_le_sq
  · rw [mul_pow, Real.sq_sqrt hw]
    nlinarith
  · positivity

end Ball

end Decomon
