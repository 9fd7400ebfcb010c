import Verif.Lemmas.Pooling
import Verif.Lemmas.Activations
import Verif.Props.Pooling
import Mathlib.Tactic.FinCases

/-! Property C90: which entry the lower relaxation of the maximum selects.

The comment in the source (utils_pooling.py:177-186) says that a coordinate whose upper bound is below the largest lower bound
"cannot be an argmax" and receives a penalty. -/

namespace Decomon

section
variable {n : ℕ} {α : Type*} [Field α] [LinearOrder α] [IsStrictOrderedRing α]

/-- C90: without finetuning exactly one entry is selected, and it is the first one with the smallest score. -/
theorem lowerHullMax_select (u l : Fin (n + 1) → α) :
    ∃ j, (∀ k, lowerHullMax u l none k = if k = j then 1 else 0) ∧
      ∀ k, lowerHullScore u l j ≤ lowerHullScore u l k := by
  obtain ⟨hk, hget⟩ := argminList_get (List.ofFn (lowerHullScore u l)) (by simp)
  have hlt := hk
  rw [List.length_ofFn] at hlt
  refine ⟨⟨_, hlt⟩, fun k => ?_, fun k => ?_⟩
  · simp only [lowerHullMax, Fin.ext_iff]
  · have e : lowerHullScore u l ⟨_, hlt⟩ = (List.ofFn (lowerHullScore u l))[argminList (List.ofFn (lowerHullScore u l))] := by
      rw [List.getElem_ofFn]
    rw [e, hget]
    exact (foldl_min_spec _ _).2.2 _ (List.mem_ofFn.mpr ⟨k, rfl⟩)

/-- C90: if some entry can exceed every lower bound (`max l < u i`) and is not the entry of largest magnitude on the positive
side, the entry selected by the lower relaxation can be a maximum: its upper bound reaches every lower bound.  Missing: the tie
and the case in which no entry can exceed all lower bounds; both are refuted below. -/
theorem C90_candidate_partial (u l : Fin (n + 1) → α) (i : Fin (n + 1)) (hi : ∀ k, l k < u i)
    (hB : ∃ k, u i + l i < |u k + l k|) (j : Fin (n + 1)) (hj : lowerHullMax u l none j ≠ 0) :
    ∀ k, l k ≤ u j := by
  obtain ⟨j', hsel, hmin⟩ := lowerHullMax_select u l
  have : j = j' := by
    by_contra h
    exact hj (by rw [hsel, if_neg h])
  subst this
  obtain ⟨k0, hk0⟩ := hB
  set B := maxOver (fun k => |u k + l k|) with hBdef
  have hBk : ∀ k, |u k + l k| ≤ B := fun k => le_maxOver (fun k => |u k + l k|) k
  have hsi : lowerHullScore u l i = u i + l i := by
    have : - u i + maxOver l < 0 := by
      have : maxOver l < u i := by
        obtain ⟨k, hk⟩ := exists_maxOver l
        rw [hk]; exact hi k
      linarith
    simp only [lowerHullScore, ksign]
    rw [if_pos this]
    ring
  by_contra hc
  push Not at hc
  obtain ⟨k, hk⟩ := hc
  have hM : 0 < - u j + maxOver l := by
    have := le_maxOver l k
    linarith
  have hsj : lowerHullScore u l j = u j + l j + B * 2 := by
    simp only [lowerHullScore, ksign]
    rw [if_neg (not_lt.mpr hM.le), if_neg hM.ne', ← hBdef]
    ring
  have h1 := hmin i
  rw [hsi, hsj] at h1
  have h2 := neg_abs_le (u j + l j)
  have h3 := hBk j
  have h4 := hBk k0
  linarith

end

/-- C90, tie: entries `[-9/10,-1/10]` and `[0,1]`.  The second is always the maximum; the first is selected. -/
theorem C90_tie_refuted :
    let u : Fin 2 → ℚ := ![-1 / 10, 1]
    let l : Fin 2 → ℚ := ![-9 / 10, 0]
    (∀ j, l j ≤ u j) ∧ (∀ k, l k < u 1) ∧ u 0 < l 1 ∧ ∀ j, lowerHullMax u l none j = ![1, 0] j := by
  decide +kernel

/-- C90, point: entries `[5,5]` and `[-10,0]`.  The first is always the maximum; the second is selected, so that the lower
relaxation of a quantity equal to 5 goes down to -10. -/
theorem C90_point_refuted :
    let u : Fin 2 → ℚ := ![5, 0]
    let l : Fin 2 → ℚ := ![5, -10]
    (∀ j, l j ≤ u j) ∧ u 1 < l 0 ∧ ∀ j, lowerHullMax u l none j = ![0, 1] j := by
  decide +kernel

/-- C90, tightness: entries `[-1,1]` and `[0,10]` can both be the maximum.  The first is selected, because the smallest score
wins: the relaxation goes down to -1, whereas the largest of the constant lower bounds is 0. -/
theorem C90_looser_than_constant_refuted :
    let u : Fin 2 → ℚ := ![1, 10]
    let l : Fin 2 → ℚ := ![-1, 0]
    (∀ j, l j ≤ u j) ∧ (∀ k j, l k ≤ u j) ∧ ∑ j, lowerHullMax u l none j * l j < maxOver l := by
  decide +kernel

/-- Non-vacuity of C90: `[-3,-2]`, `[0,1]`, `[2,3]`, `[1,6]`; the first two cannot be the maximum, the third is selected. -/
example :
    let u : Fin 4 → ℚ := ![-2, 1, 3, 6]
    let l : Fin 4 → ℚ := ![-3, 0, 2, 1]
    (∀ k, l k < u 2) ∧ (∃ k, u 2 + l 2 < |u k + l k|) ∧ lowerHullMax u l none 2 ≠ 0 ∧ ¬ ∀ k, l k ≤ u 1 := by
  decide +kernel

end Decomon
