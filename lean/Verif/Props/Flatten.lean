import Verif.Model.Flatten
import Verif.Props.Wrapper
import Verif.SpecNet

/-! Property C129: Flatten and its data format. -/

namespace Decomon

section
variable {X ι α : Type} [Field α] [LinearOrder α] {c s : ℕ}

/-- What Keras documents: entry `(channel, place)` of a `channels_first` image is moved to position `place * c + channel`, entry `(i, j)` of
a `channels_last` one to position `i * s + j`. -/
theorem C129_order (cf : Bool) (q : Fin c × Fin s) (o : Fin (c * s)) :
    flattenOrder cf o = q ↔ o.val = if cf then q.2.val * c + q.1.val else q.1.val * s + q.2.val := by
  have hs : 0 < s := q.2.pos
  have hc : 0 < c := q.1.pos
  have h1 := q.1.isLt
  have h2 := q.2.isLt
  cases cf
  · simp only [flattenOrder, rowMajor, Bool.false_eq_true, if_false]
    rw [Equiv.symm_apply_eq, Fin.ext_iff]
    simp only [finProdFinEquiv_apply_val]
    constructor <;> intro h <;> rw [h] <;> ring
  · simp only [flattenOrder, if_true]
    constructor
    · rintro rfl
      have := congrArg Fin.val (finProdFinEquiv.apply_symm_apply (Fin.cast (Nat.mul_comm c s) o))
      simp only [finProdFinEquiv_apply_val, Fin.val_cast] at this
      rw [← this]; ring
    · intro h
      have : finProdFinEquiv.symm (Fin.cast (Nat.mul_comm c s) o) = (q.2, q.1) := by
        rw [Equiv.symm_apply_eq, Fin.ext_iff]
        simp only [finProdFinEquiv_apply_val, Fin.val_cast, h]
        ring
      rw [this]

/-- The two orders are the same exactly for images with one channel or one place. -/
theorem flattenOrder_eq_iff : (∀ o : Fin (c * s), flattenOrder true o = rowMajor o) ↔ c ≤ 1 ∨ s ≤ 1 := by
  have hr : ∀ o : Fin (c * s), rowMajor o = flattenOrder false o := fun _ => rfl
  constructor
  · intro h
    by_contra hn
    rw [not_or, not_le, not_le] at hn
    have hlt : 1 < c * s := by nlinarith [hn.1, hn.2]
    have h1 := h ⟨1, hlt⟩
    rw [C129_order, hr] at h1
    have h2 := (C129_order false (⟨0, by omega⟩, ⟨1, hn.2⟩) (⟨1, hlt⟩ : Fin (c * s))).2 (by simp)
    rw [h2] at h1
    simp at h1
    omega
  · intro h o
    rw [C129_order, hr]
    have := (C129_order false (flattenOrder false o) o).1 rfl
    rw [this]
    have h1 := (flattenOrder false o).1.isLt
    have h2 := (flattenOrder false o).2.isLt
    simp only [Bool.false_eq_true, if_false, if_true]
    rcases h with h | h
    · obtain rfl : c = 1 := by omega
      have e : (flattenOrder false o).1.val = 0 := by omega
      rw [e]; ring
    · obtain rfl : s = 1 := by omega
      have e : (flattenOrder false o).2.val = 0 := by omega
      rw [e]; ring

variable [IsStrictOrderedRing α] [Fintype ι]

/-- C129: with `channels_last` the tensors are bounds of the flattened values. -/
theorem C129_channels_last (D : PertDomain X ι α) (m : Mode) (dc : Bool) (f : Full X ι (Fin c × Fin s) α) (S : Set (ι → α)) (hD : D.Sound f.x S)
    (p : ι → α) (hp : p ∈ S) (y : Fin c × Fin s → α) (v : Valid m dc f p y) :
    Valid m dc (flattenT D m dc false f) p (fun o => y (flattenOrder false o)) := by
  obtain ⟨a, -⟩ := C04_tighten_valid D m dc false true f S hD p hp y v
  refine ⟨fun hi o => ?_, fun ha o => ?_, fun hd => ?_⟩
  · simp only [flattenT, hi, if_true]; exact a.const hi _
  · simp only [flattenT, ha, if_true]; exact a.aff ha _
  · intro o; simp only [flattenT, hd, if_true]; exact a.dc hd _

/-- C129: the constants (and the two parts of a difference of convex functions) are right whatever the data format. -/
theorem C129_constants (D : PertDomain X ι α) (m : Mode) (dc cf : Bool) (f : Full X ι (Fin c × Fin s) α) (S : Set (ι → α)) (hD : D.Sound f.x S)
    (p : ι → α) (hp : p ∈ S) (y : Fin c × Fin s → α) (v : Valid m dc f p y) (o : Fin (c * s)) :
    (getIbp m = true → (flattenT D m dc cf f).lc o ≤ y (flattenOrder cf o) ∧ y (flattenOrder cf o) ≤ (flattenT D m dc cf f).uc o) ∧
    (dc = true → (flattenT D m dc cf f).h o + (flattenT D m dc cf f).g o = y (flattenOrder cf o)) := by
  obtain ⟨a, -⟩ := C04_tighten_valid D m dc false true f S hD p hp y v
  refine ⟨fun hi => ?_, fun hd => ?_⟩
  · simp only [flattenT, hi, if_true]; exact a.const hi _
  · simp only [flattenT, hd, if_true]; exact a.dc hd _

/-- C129: with `channels_first` everything is right for images with one channel or one place.  Missing: the other images, for which the affine
bounds are wrong. -/
theorem C129_channels_first_partial (D : PertDomain X ι α) (m : Mode) (dc : Bool) (f : Full X ι (Fin c × Fin s) α) (S : Set (ι → α))
    (hD : D.Sound f.x S) (p : ι → α) (hp : p ∈ S) (y : Fin c × Fin s → α) (v : Valid m dc f p y) (h1 : c ≤ 1 ∨ s ≤ 1) :
    Valid m dc (flattenT D m dc true f) p (fun o => y (flattenOrder true o)) := by
  have e : ∀ o : Fin (c * s), flattenOrder true o = flattenOrder false o := flattenOrder_eq_iff.2 h1
  have := C129_channels_last D m dc f S hD p hp y v
  simp only [flattenT, ← e] at this ⊢
  exact this

omit [IsStrictOrderedRing α] [Fintype ι] in
/-- The lines on the model inputs. -/
theorem flattenOnBox_line (m : Mode) (ha : getAffine m = true) (cf : Bool) (b : BoxOf (Fin c × Fin s) α) (p : Fin c × Fin s → α) (o : Fin (c * s)) :
    affEval (fun i => (flattenOnBox m cf b).wl i o) ((flattenOnBox m cf b).bl o) p = p (rowMajor o) ∧
    affEval (fun i => (flattenOnBox m cf b).wu i o) ((flattenOnBox m cf b).bu o) p = p (rowMajor o) := by
  simp [flattenOnBox, flattenT, inputTensorsBox, ha, affEval]

/-- C129: for a model that begins with Flatten, over any box with an interior, the affine bounds are right if and only if the data format is
`channels_last`, or there is one channel, or there is one place. -/
theorem C129_forward_iff (m : Mode) (ha : getAffine m = true) (cf : Bool) (b : BoxOf (Fin c × Fin s) α) (hb : ∀ q, b.1 q < b.2 q) :
    (∀ p ∈ Box b.1 b.2, Valid m false (flattenOnBox m cf b) p (fun o => p (flattenOrder cf o))) ↔ cf = false ∨ c ≤ 1 ∨ s ≤ 1 := by
  constructor
  · intro h
    cases cf with
    | false => exact .inl rfl
    | true =>
      refine .inr (flattenOrder_eq_iff.1 fun o => ?_)
      by_contra hne
      have hp : Function.update b.1 (flattenOrder true o) (b.2 (flattenOrder true o)) ∈ Box b.1 b.2 := by
        intro q
        by_cases hq : q = flattenOrder true o
        · subst hq; simpa using (hb _).le
        · simpa [hq] using (hb q).le
      have hp0 : b.1 ∈ Box b.1 b.2 := fun q => ⟨le_rfl, (hb q).le⟩
      have v := (h _ hp).aff ha o
      have v0 := (h _ hp0).aff ha o
      rw [(flattenOnBox_line m ha true b _ o).1, (flattenOnBox_line m ha true b _ o).2] at v v0
      rw [Function.update_self, Function.update_of_ne (Ne.symm hne)] at v
      have := hb (flattenOrder true o)
      linarith [v.2, v0.1]
  · intro h p hp
    have v := C27_input_box m b.1 b.2 p hp
    cases cf with
    | false => exact C129_channels_last boxDomain m false _ _ (boxDomain_sound _ _) p hp p v
    | true => exact C129_channels_first_partial boxDomain m false _ _ (boxDomain_sound _ _) p hp p v (by simpa using h)

/-- C129: the same for the backward layer. -/
theorem C129_backward_iff (cf : Bool) :
    (∀ y : Fin c × Fin s → α, (backwardFlatten : Back (Fin c × Fin s) (Fin (c * s)) α).Holds y (fun o => y (flattenOrder cf o))) ↔
      cf = false ∨ c ≤ 1 ∨ s ≤ 1 := by
  have e : ∀ (y : Fin c × Fin s → α) (o : Fin (c * s)), affEval (fun i => if i = rowMajor o then 1 else 0) 0 y = y (rowMajor o) := by
    intro y o; simp [affEval]
  constructor
  · intro h
    cases cf with
    | false => exact .inl rfl
    | true =>
      refine .inr (flattenOrder_eq_iff.1 fun o => ?_)
      by_contra hne
      have := h (fun q => if q = flattenOrder true o then 1 else 0) o
      simp only [backwardFlatten, e, if_true, if_neg (Ne.symm hne)] at this
      exact absurd this.2 (by norm_num)
  · intro h y o
    have : flattenOrder cf o = rowMajor o := by
      cases cf with
      | false => rfl
      | true => exact flattenOrder_eq_iff.2 (by simpa using h) o
    simp only [backwardFlatten, e, this, le_refl, and_self]

end

/-- Two channels of two pixels: values `0, 1` and `2, 3`. -/
def twoByTwo : Fin 2 × Fin 2 → ℚ := fun q => 2 * q.1.val + q.2.val

/-- C129: what a user sees: on the box from zero to `twoByTwo`, the range of output 1 of `Flatten("channels_first")` in affine mode
is at most `1`, although the value reaches `2` there.  In hybrid mode the constant is `2`, and the next layer replaces it by `1`. -/
theorem C129_range_refuted :
    rangeUpper .affine (fun _ => 0, twoByTwo) (flattenOnBox .affine true (fun _ => 0, twoByTwo)) 1 = 1 ∧
    twoByTwo (flattenOrder true 1) = 2 ∧ (flattenOnBox .hybrid true (fun _ => 0, twoByTwo)).uc 1 = 2 ∧
    ((flattenOnBox .hybrid true (fun _ => 0, twoByTwo)).tighten boxDomain .hybrid false true).uc 1 = 1 := by
  decide +kernel

/-- C129 on `2 × 2` images with entries in `[0, 1]`: with channels last the bounds are right in every mode, with channels first only the
constant ones and, of the affine ones, only on one row. -/
example (m : Mode) (cf : Bool) (p : Fin 2 × Fin 2 → ℚ) (hp : p ∈ Box (fun _ => 0) fun _ => 1) :
    let f := inputTensorsBox m (fun _ : Fin 2 × Fin 2 => (0 : ℚ)) fun _ => 1
    Valid m false (flattenT boxDomain m false false f) p (fun o => p (flattenOrder false o)) ∧
    (getIbp m = true → (flattenT boxDomain m false cf f).lc 1 ≤ p (flattenOrder cf 1)) ∧ (flattenOrder true 1 = ((1, 0) : Fin 2 × Fin 2)) := by
  intro f
  have v := C27_input_box m _ _ p hp
  exact ⟨C129_channels_last boxDomain m false f _ (boxDomain_sound _ _) p hp p v, fun h => ((C129_constants boxDomain m false cf f _ (boxDomain_sound _ _) p hp p v 1).1 h).1,
    (C129_order true _ _).mpr rfl⟩

example (m : Mode) (p : Fin 1 × Fin 3 → ℚ) (hp : p ∈ Box (fun _ => 0) fun _ => 1) :
    Valid m false (flattenT boxDomain m false true (inputTensorsBox m (fun _ : Fin 1 × Fin 3 => (0 : ℚ)) fun _ => 1)) p (fun o => p (flattenOrder true o)) :=
  C129_channels_first_partial boxDomain m false _ _ (boxDomain_sound _ _) p hp p (C27_input_box m _ _ p hp) (.inl le_rfl)

example : ¬ (∀ p ∈ Box (fun _ : Fin 2 × Fin 3 => (0 : ℚ)) (fun _ => 1), Valid .affine false (flattenOnBox .affine true (fun _ => 0, fun _ => 1)) p (fun o => p (flattenOrder true o))) ∧
    ¬ ∀ y : Fin 2 × Fin 3 → ℚ, (backwardFlatten : Back (Fin 2 × Fin 3) (Fin (2 * 3)) ℚ).Holds y (fun o => y (flattenOrder true o)) :=
  ⟨fun h => absurd ((C129_forward_iff .affine rfl true (fun _ => 0, fun _ => 1) (fun _ => by norm_num)).mp h) (by decide), fun h => absurd ((C129_backward_iff true).mp h) (by decide)⟩

/-- The hypothesis of `C129_channels_first_partial` on an image with one channel. -/
example : (flattenOnBox .affine true ((fun _ => 0, fun q => q.2.val) : BoxOf (Fin 1 × Fin 3) ℚ)).wu (0, 2) 2 = 1 ∧
    flattenOrder (c := 1) (s := 3) true 2 = (0, 2) := by
  decide +kernel

end Decomon
