import Verif.Model.Permute
import Mathlib.Tactic.Ring
import Mathlib.Tactic.FinCases

/-! Property C130: the backward layer of Permute on inputs of any rank. -/

namespace Decomon

/-- The weights say that every output entry reads the input entry which `Permute` puts there: `Permute(dims)` moves the entry with index `i` of
a tensor of shape `s` to index `i ∘ d` of a tensor of shape `s ∘ d`. -/
def ReadsPermuted {r : ℕ} (s : Fin r → ℕ) (d : Equiv.Perm (Fin r)) (w : ℕ → ℕ → ℚ) : Prop :=
  ∀ (i : (k : Fin r) → Fin (s k)) (q : ℕ), w q (flatPos (fun k => s (d k)) fun k => i (d k)) = 1 ↔ q = flatPos s i

section
variable {r : ℕ}

theorem flatPos_congr {s t : Fin r → ℕ} (h : ∀ k, s k = t k) (i : (k : Fin r) → Fin (s k)) (j : (k : Fin r) → Fin (t k))
    (e : ∀ k, (i k).val = (j k).val) : flatPos s i = flatPos t j := by
  obtain rfl : s = t := funext h
  have : i = j := funext fun k => Fin.ext (e k)
  rw [this]

theorem flatPos_inj {s : Fin r → ℕ} {i j : (k : Fin r) → Fin (s k)} (h : flatPos s i = flatPos s j) : i = j := by
  have := finPiFinEquiv.injective (Fin.ext h)
  funext k
  have := congrFun this k.rev
  exact Fin.rev_rev k ▸ this

theorem permute_wu (s : Fin r → ℕ) (d : Equiv.Perm (Fin r)) (q : ℕ) (i : (k : Fin r) → Fin (s k)) :
    (backwardPermuteNd s d : Back ℕ ℕ ℚ).wu q (flatPos s i) = 1 ↔ q = flatPos (fun k => s (d⁻¹ k)) (fun k => i (d⁻¹ k)) := by
  simp only [backwardPermuteNd]
  constructor
  · intro h
    split at h
    · rename_i hj
      obtain ⟨j, h1, h2⟩ := hj
      rw [flatPos_inj h2, h1]
    · norm_num at h
  · intro h
    rw [if_pos ⟨i, h, rfl⟩]

/-- C130: at every rank, the weights are right when the permutation keeps the shape (so for square images, cubes, and the identity). -/
theorem C130_same_shape (s : Fin r → ℕ) (d : Equiv.Perm (Fin r)) (h : ∀ k, s (d k) = s k) :
    ReadsPermuted s d (backwardPermuteNd s d : Back ℕ ℕ ℚ).wu := by
  intro i q
  set i' : (k : Fin r) → Fin (s k) := fun k => Fin.cast (h k) (i (d k)) with hi'
  have e : flatPos (fun k => s (d k)) (fun k => i (d k)) = flatPos s i' := flatPos_congr h _ _ fun k => by simp [hi']
  rw [e, permute_wu]
  have e2 : flatPos (fun k => s (d⁻¹ k)) (fun k => i' (d⁻¹ k)) = flatPos s i := by
    refine flatPos_congr (fun k => ?_) _ _ fun k => ?_
    · have := h (d⁻¹ k); simpa using this.symm
    · have : d (d⁻¹ k) = k := by simp
      simp only [hi', Fin.val_cast]
      rw [this]
  rw [e2]

/-- C130: the upper and the lower weights are the same, and there is no bias. -/
theorem C130_exact (s : Fin r → ℕ) (d : Equiv.Perm (Fin r)) :
    (backwardPermuteNd s d : Back ℕ ℕ ℚ).wl = (backwardPermuteNd s d : Back ℕ ℕ ℚ).wu ∧
    (backwardPermuteNd s d : Back ℕ ℕ ℚ).bu = (fun _ => 0) ∧ (backwardPermuteNd s d : Back ℕ ℕ ℚ).bl = fun _ => 0 := ⟨rfl, rfl, rfl⟩

end

/-! ### Moving the channels -/

theorem flatPos_three (s : Fin 3 → ℕ) (i : (k : Fin 3) → Fin (s k)) : flatPos s i = ((i 0).val * s 1 + (i 1).val) * s 2 + (i 2).val := by
  have h : flatPos s i = ∑ k : Fin 3, (i k.rev).val * ∏ j : Fin k.val, s (Fin.castLE k.is_lt.le j).rev := rfl
  rw [h, Fin.sum_univ_three]
  have e0 : (0 : Fin 3).rev = 2 := rfl
  have e1 : (1 : Fin 3).rev = 1 := rfl
  have e2 : (2 : Fin 3).rev = 0 := rfl
  have p0 : ∏ j : Fin (0 : Fin 3).val, s (Fin.castLE (0 : Fin 3).is_lt.le j).rev = 1 := rfl
  have p1 : ∏ j : Fin (1 : Fin 3).val, s (Fin.castLE (1 : Fin 3).is_lt.le j).rev = s 2 := by
    change ∏ j : Fin 1, _ = _
    rw [Fin.prod_univ_one]; rfl
  have p2 : ∏ j : Fin (2 : Fin 3).val, s (Fin.castLE (2 : Fin 3).is_lt.le j).rev = s 2 * s 1 := by
    change ∏ j : Fin 2, _ = _
    rw [Fin.prod_univ_two]; rfl
  rw [p0, p1, p2, e0, e1, e2]
  ring

/-- `Permute((2, 3, 1))`: `channels_first` to `channels_last`. -/
def lastOfFirst : Equiv.Perm (Fin 3) := finRotate 3

/-- `Permute((3, 1, 2))`: `channels_last` to `channels_first`. -/
def firstOfLast : Equiv.Perm (Fin 3) := (finRotate 3)⁻¹

example : (lastOfFirst 0, lastOfFirst 1, lastOfFirst 2) = (1, 2, 0) ∧ (firstOfLast 0, firstOfLast 1, firstOfLast 2) = (2, 0, 1) := by decide

theorem flatPos_lastOfFirst (s : Fin 3 → ℕ) (i : (k : Fin 3) → Fin (s k)) :
    flatPos (fun k => s (lastOfFirst k)) (fun k => i (lastOfFirst k)) = ((i 1).val * s 2 + (i 2).val) * s 0 + (i 0).val := by
  rw [flatPos_three]; rfl

theorem flatPos_firstOfLast (s : Fin 3 → ℕ) (i : (k : Fin 3) → Fin (s k)) :
    flatPos (fun k => s (firstOfLast k)) (fun k => i (firstOfLast k)) = ((i 2).val * s 0 + (i 0).val) * s 1 + (i 1).val := by
  rw [flatPos_three]; rfl

theorem lastOfFirst_inv : lastOfFirst⁻¹ = firstOfLast := rfl

theorem firstOfLast_inv : firstOfLast⁻¹ = lastOfFirst := by simp [firstOfLast, lastOfFirst]

/-- An index given by its three entries. -/
def index3 (s : Fin 3 → ℕ) (a b c : ℕ) (ha : a < s 0) (hb : b < s 1) (hc : c < s 2) : (k : Fin 3) → Fin (s k)
  | 0 => ⟨a, ha⟩
  | 1 => ⟨b, hb⟩
  | 2 => ⟨c, hc⟩

/-- C130: for `Permute((2, 3, 1))` on an image of shape `(c, h, w)`, all at least 2, the weights are right exactly when `c = w`. -/
theorem C130_channels_last_iff (s : Fin 3 → ℕ) (h2 : ∀ k, 2 ≤ s k) :
    ReadsPermuted s lastOfFirst (backwardPermuteNd s lastOfFirst : Back ℕ ℕ ℚ).wu ↔ s 0 = s 2 := by
  have g0 := h2 0
  have g1 := h2 1
  have g2 := h2 2
  constructor
  · intro h
    have h1 := (h (index3 s 1 0 0 (by omega) (by omega) (by omega)) (s 1 * s 2)).2 (by simp [flatPos_three, index3])
    rw [flatPos_lastOfFirst] at h1
    have e : ((index3 s 1 0 0 (by omega) (by omega) (by omega) 1).val * s 2 + (index3 s 1 0 0 (by omega) (by omega) (by omega) 2).val) * s 0
        + (index3 s 1 0 0 (by omega) (by omega) (by omega) 0).val = flatPos s (index3 s 0 0 1 (by omega) (by omega) (by omega)) := by
      simp [flatPos_three, index3]
    rw [e, permute_wu, lastOfFirst_inv, flatPos_firstOfLast] at h1
    simp only [index3, one_mul, add_zero] at h1
    exact (Nat.eq_of_mul_eq_mul_left (by omega : 0 < s 1) (by rw [h1]; ring)).symm
  · intro h i q
    have hi0 := (i 0).isLt
    have hi1 := (i 1).isLt
    have hi2 := (i 2).isLt
    have b1 : ((i 1).val * s 2 + (i 2).val) / s 1 < s 0 := by
      rw [Nat.div_lt_iff_lt_mul (by omega), h]
      nlinarith
    have b2 : ((i 1).val * s 2 + (i 2).val) % s 1 < s 1 := Nat.mod_lt _ (by omega)
    have b3 : (i 0).val < s 2 := by omega
    have dm := Nat.div_add_mod ((i 1).val * s 2 + (i 2).val) (s 1)
    have e : flatPos (fun k => s (lastOfFirst k)) (fun k => i (lastOfFirst k)) = flatPos s (index3 s _ _ _ b1 b2 b3) := by
      rw [flatPos_lastOfFirst, flatPos_three]
      simp only [index3]
      rw [mul_comm _ (s 1), dm]
      generalize (i 0).val = x; generalize (i 1).val = y; generalize (i 2).val = z; rw [h]
    rw [e, permute_wu, lastOfFirst_inv, flatPos_firstOfLast, flatPos_three]
    simp only [index3]
    have : ((i 0).val * s 0 + ((i 1).val * s 2 + (i 2).val) / s 1) * s 1 + ((i 1).val * s 2 + (i 2).val) % s 1 =
        ((i 0).val * s 1 + (i 1).val) * s 2 + (i 2).val := by
      rw [add_mul, mul_comm (_ / _) (s 1), add_assoc, dm]
      generalize (i 0).val = x; generalize (i 1).val = y; generalize (i 2).val = z; rw [h]; ring
    rw [this]

/-- C130: for `Permute((3, 1, 2))` on an image of shape `(h, w, c)`, all at least 2, the weights are right exactly when `h = c`. -/
theorem C130_channels_first_iff (s : Fin 3 → ℕ) (h2 : ∀ k, 2 ≤ s k) :
    ReadsPermuted s firstOfLast (backwardPermuteNd s firstOfLast : Back ℕ ℕ ℚ).wu ↔ s 0 = s 2 := by
  have g0 := h2 0
  have g1 := h2 1
  have g2 := h2 2
  constructor
  · intro h
    have h1 := (h (index3 s 0 1 0 (by omega) (by omega) (by omega)) (s 2)).2 (by simp [flatPos_three, index3])
    rw [flatPos_firstOfLast] at h1
    have e : ((index3 s 0 1 0 (by omega) (by omega) (by omega) 2).val * s 0 + (index3 s 0 1 0 (by omega) (by omega) (by omega) 0).val) * s 1
        + (index3 s 0 1 0 (by omega) (by omega) (by omega) 1).val = flatPos s (index3 s 0 0 1 (by omega) (by omega) (by omega)) := by
      simp [flatPos_three, index3]
    rw [e, permute_wu, firstOfLast_inv, flatPos_lastOfFirst] at h1
    simp [index3] at h1
    exact h1.symm
  · intro h i q
    have hi0 := (i 0).isLt
    have hi1 := (i 1).isLt
    have hi2 := (i 2).isLt
    have b2 : ((i 0).val * s 1 + (i 1).val) / s 2 < s 1 := by
      rw [Nat.div_lt_iff_lt_mul (by omega), ← h]
      nlinarith
    have b3 : ((i 0).val * s 1 + (i 1).val) % s 2 < s 2 := Nat.mod_lt _ (by omega)
    have b1 : (i 2).val < s 0 := by omega
    have dm := Nat.div_add_mod ((i 0).val * s 1 + (i 1).val) (s 2)
    have e : flatPos (fun k => s (firstOfLast k)) (fun k => i (firstOfLast k)) = flatPos s (index3 s _ _ _ b1 b2 b3) := by
      rw [flatPos_firstOfLast, flatPos_three]
      simp only [index3]
      rw [add_mul, add_mul, mul_comm (_ / _) (s 2), add_assoc, add_assoc, dm]
      generalize (i 0).val = x; generalize (i 1).val = y; generalize (i 2).val = z; rw [← h]; ring
    rw [e, permute_wu, firstOfLast_inv, flatPos_lastOfFirst, flatPos_three]
    simp only [index3]
    have : (((i 0).val * s 1 + (i 1).val) / s 2 * s 2 + ((i 0).val * s 1 + (i 1).val) % s 2) * s 0 + (i 2).val =
        ((i 0).val * s 1 + (i 1).val) * s 2 + (i 2).val := by
      rw [mul_comm (_ / _) (s 2), dm]
      generalize (i 0).val = x; generalize (i 1).val = y; generalize (i 2).val = z; rw [h]
    rw [this]

/-- C130: on inputs of rank 2 this is the layer of C68. -/
theorem C130_rank_two (a b q o : ℕ) (hq : q < a * b) :
    (backwardPermuteNd ![a, b] (Equiv.swap 0 1) : Back ℕ ℕ ℚ).wu q o = (backwardPermute a b : Back ℕ ℕ ℚ).wu q o := by
  have ha : 0 < a := Nat.pos_of_ne_zero (by rintro rfl; simp at hq)
  have flat2 : ∀ (s : Fin 2 → ℕ) (i : (k : Fin 2) → Fin (s k)), flatPos s i = (i 0).val * s 1 + (i 1).val := by
    intro s i
    have h : flatPos s i = ∑ k : Fin 2, (i k.rev).val * ∏ j : Fin k.val, s (Fin.castLE k.is_lt.le j).rev := rfl
    rw [h, Fin.sum_univ_two]
    have p0 : ∏ j : Fin (0 : Fin 2).val, s (Fin.castLE (0 : Fin 2).is_lt.le j).rev = 1 := rfl
    have p1 : ∏ j : Fin (1 : Fin 2).val, s (Fin.castLE (1 : Fin 2).is_lt.le j).rev = s 1 := by
      change ∏ j : Fin 1, _ = _
      rw [Fin.prod_univ_one]; rfl
    rw [p0, p1]
    have e0 : (0 : Fin 2).rev = 1 := rfl
    have e1 : (1 : Fin 2).rev = 0 := rfl
    rw [e0, e1]; ring
  simp only [backwardPermuteNd, backwardPermute]
  congr 1
  rw [eq_iff_iff]
  constructor
  · rintro ⟨i, h1, h2⟩
    rw [flat2] at h1 h2
    have h1' : q = (i 1).val * a + (i 0).val := h1
    have h2' : o = (i 0).val * b + (i 1).val := h2
    have l0 : (i 0).val < a := (i 0).isLt
    have m1 : q % a = (i 0).val := by rw [h1', mul_comm, Nat.mul_add_mod, Nat.mod_eq_of_lt l0]
    have m2 : q / a = (i 1).val := by rw [h1', mul_comm, Nat.mul_add_div ha, Nat.div_eq_of_lt l0, add_zero]
    rw [m1, m2, h2']
  · intro h
    have l1 : q / a < b := by rw [Nat.div_lt_iff_lt_mul ha]; rw [mul_comm]; exact hq
    refine ⟨fun | 0 => ⟨q % a, Nat.mod_lt _ ha⟩ | 1 => ⟨q / a, l1⟩, ?_, ?_⟩
    · rw [flat2]
      change q = q / a * a + q % a
      rw [mul_comm]; exact (Nat.div_add_mod q a).symm
    · rw [flat2]; exact h.symm

/-- Concrete: on an image of shape `(3, 2, 2)` output 1 of `Permute((2, 3, 1))` must read input `4`; the weights read input `6`.  On shape
`(2, 3, 2)` (which is not kept by the permutation) they are right. -/
theorem C130_refuted :
    flatPos (fun k => ![3, 2, 2] (lastOfFirst k)) (fun k => index3 ![3, 2, 2] 1 0 0 (by decide) (by decide) (by decide) (lastOfFirst k)) = 1 ∧
    flatPos ![3, 2, 2] (index3 ![3, 2, 2] 1 0 0 (by decide) (by decide) (by decide)) = 4 ∧
    (backwardPermuteNd ![3, 2, 2] lastOfFirst : Back ℕ ℕ ℚ).wu 4 1 = 0 ∧ (backwardPermuteNd ![3, 2, 2] lastOfFirst : Back ℕ ℕ ℚ).wu 6 1 = 1 := by
  decide +kernel

example : ReadsPermuted ![2, 3, 2] lastOfFirst (backwardPermuteNd ![2, 3, 2] lastOfFirst : Back ℕ ℕ ℚ).wu :=
  (C130_channels_last_iff ![2, 3, 2] (by decide)).2 rfl

/-- The hypothesis of `C130_same_shape`: `Permute((2, 1, 3))` on square images. -/
example : ∀ k, ![4, 4, 3] (Equiv.swap (0 : Fin 3) 1 k) = ![4, 4, 3] k := by decide

end Decomon
