import Verif.Model.MetricsBack
import Verif.Model.Wrapper
import Verif.SpecBackScore
import Verif.Props.Metrics

/-!
Property C162: the backward score of the adversarial metric layers, on the shapes of the tensors of a converted model.
-/

namespace Decomon

section
variable {α : Type*} [Field α] [LinearOrder α] [IsStrictOrderedRing α] {n m : ℕ}

omit [IsStrictOrderedRing α] in
/-- **C162 (shapes).** With `n_in` and `n_out` different and both at least 2, the backward mode raises whatever the tensors. -/
theorem C162_raises (h1 : n ≠ m) (h2 : n ≠ 0) (h3 : m ≠ 0) (mode : Mode) (b : Back (Fin (n + 1)) (Fin (m + 1)) α)
    (f : Full ((Fin (n + 1) → α) × (Fin (n + 1) → α)) (Fin (n + 1)) (Fin (m + 1)) α) (src : Fin (m + 1) → α) :
    advScoreBackward mode b f src = .error .valueError ∧ advCheckBackward mode b f src = .error .valueError := by
  have h : backwardScore f.x b src (fun k => 1 - src k) = .error .valueError := if_neg (by tauto)
  simp only [advScoreBackward, advCheckBackward, h]
  exact ⟨rfl, rfl⟩

theorem maxOver_penalised (c : Fin (m + 1) × Fin (m + 1) → α) (v : α) (h : ∀ q, c q ≤ v) (h' : ∃ q, c q = v) : maxOver c = v := by
  obtain ⟨q, e⟩ := h'
  exact le_antisymm (maxOver_le h) (e ▸ le_maxOver c q)

/-- The value of the backward score: the labels do not enter. -/
theorem backwardScore_eq (h : n = m ∨ n = 0 ∨ m = 0) (x : (Fin (n + 1) → α) × (Fin (n + 1) → α)) (b : Back (Fin (n + 1)) (Fin (m + 1)) α)
    (src : Fin (m + 1) → α) (hs : SomeLabels src) :
    backwardScore x b src (fun k => 1 - src k) =
      .ok (getUpperBox (fun i : Fin (max n m + 1) => x.1 (bcast i)) (fun i => x.2 (bcast i))
        (fun i => b.wl 0 (bcast i) - b.wu 0 (bcast i)) (b.bl 0 - b.bu 0)) := by
  obtain ⟨h01, ⟨s, hs1⟩, t, ht⟩ := hs
  unfold backwardScore
  rw [if_pos h]
  refine congrArg _ (maxOver_penalised _ _ (fun q => ?_) ⟨(s, t), ?_⟩)
  · simp only [getUpperBox]
    rcases h01 q.1 with e1 | e1 <;> rcases h01 q.2 with e2 | e2 <;> rw [e1, e2] <;> linarith
  · simp only [getUpperBox, hs1, ht]; ring

/-- **C162 (labels are not read).** The backward score of a box is the same number for every choice of the source labels. -/
theorem C162_labels_not_read (x : (Fin (n + 1) → α) × (Fin (n + 1) → α)) (b : Back (Fin (n + 1)) (Fin (m + 1)) α)
    (src src' : Fin (m + 1) → α) (hs : SomeLabels src) (hs' : SomeLabels src') :
    backwardScore x b src (fun k => 1 - src k) = backwardScore x b src' (fun k => 1 - src' k) := by
  by_cases h : n = m ∨ n = 0 ∨ m = 0
  · rw [backwardScore_eq h x b src hs, backwardScore_eq h x b src' hs']
  · unfold backwardScore; rw [if_neg h, if_neg h]

/-- **C162 (other outputs are not read).** Nor does it read the biases of the outputs other than the first, or the weights of the inputs other
than the first. -/
theorem C162_first_only (x : (Fin (n + 1) → α) × (Fin (n + 1) → α)) (b b' : Back (Fin (n + 1)) (Fin (m + 1)) α)
    (hw : b.wu 0 = b'.wu 0 ∧ b.wl 0 = b'.wl 0) (hb : b.bu 0 = b'.bu 0 ∧ b.bl 0 = b'.bl 0) (src tgt : Fin (m + 1) → α) :
    backwardScore x b src tgt = backwardScore x b' src tgt := by
  unfold backwardScore
  rw [hw.1, hw.2, hb.1, hb.2]

/-- **C162 (a certificate for every label).** If the bounds of the outputs have the same weights on the first input, and the bounds of the first
output do not have the same bias, `AdversarialScore` and `AdversarialCheck` return a negative number for every choice of the source labels,
whatever the network computes. -/
theorem C162_every_label (h : n = m ∨ n = 0 ∨ m = 0) (mode : Mode) (b : Back (Fin (n + 1)) (Fin (m + 1)) α)
    (hw : b.wu 0 = b.wl 0) (hb : b.bl 0 < b.bu 0)
    (f : Full ((Fin (n + 1) → α) × (Fin (n + 1) → α)) (Fin (n + 1)) (Fin (m + 1)) α) (src : Fin (m + 1) → α) (hs : SomeLabels src) :
    ∃ s c, advScoreBackward mode b f src = .ok s ∧ advCheckBackward mode b f src = .ok c ∧ s < 0 ∧ c < 0 := by
  have e := backwardScore_eq h f.x b src hs
  simp only [hw, sub_self, getUpperBox, max_self, min_self, zero_mul, add_zero, Finset.sum_const_zero, zero_add] at e
  simp only [advScoreBackward, advCheckBackward, e]
  exact ⟨_, _, rfl, rfl, min_lt_of_right_lt (sub_neg.2 hb), min_lt_of_right_lt (sub_neg.2 hb)⟩

end

/-! ### Concrete cases -/

/-- Two inputs, two outputs: `relu(x_1)` and `10`. -/
def reluTen : Net ℚ (Fin 2) (Fin 2) :=
  .layer (.layer .input (.dense ![![0, 0], ![1, 0]] ![0, 10])) (.relu (fun _ => 1) fun _ => 1)

/-- The box `[-1, 1] x [-1, 1]`. -/
def squareBox : BoxOf (Fin 2) ℚ := (fun _ => -1, fun _ => 1)

/-- The tensors of `reluTen` converted by `crown` in affine mode. -/
def reluTenFull : Full (BoxOf (Fin 2) ℚ) (Fin 2) (Fin 2) ℚ :=
  match (boxCrown .affine (1 / 10 ^ 7) .vSlope false squareBox.1 squareBox.2).model reluTen with
  | .ok f => f
  | .error _ => ⟨squareBox, fun _ => 0, fun _ _ => 0, fun _ => 0, fun _ => 0, fun _ _ => 0, fun _ => 0, fun _ => 0, fun _ => 0⟩

theorem reluTenFull_ok : (boxCrown .affine (1 / 10 ^ 7) .vSlope false squareBox.1 squareBox.2).model reluTen = .ok reluTenFull := by rfl

/-- The four backward tensors among them. -/
def reluTenBack : Back (Fin 2) (Fin 2) ℚ := ⟨reluTenFull.wu, reluTenFull.bu, reluTenFull.wl, reluTenFull.bl⟩

theorem reluTenBack_eq : reluTenBack.wu 0 = reluTenBack.wl 0 ∧ reluTenBack.bl 0 = 0 ∧ reluTenBack.bu 0 = 1 / 2 := by
  refine ⟨funext fun k => ?_, ?_, ?_⟩
  · revert k; decide +kernel
  all_goals decide +kernel

theorem oneHot_labels (s : Fin 2) : SomeLabels (fun k => if k = s then (1 : ℚ) else 0) := by
  revert s; unfold SomeLabels; decide +kernel

example (s : Fin 2) := C162_every_label (Or.inl rfl) .affine reluTenBack reluTenBack_eq.1
  (by rw [reluTenBack_eq.2.1, reluTenBack_eq.2.2]; norm_num) reluTenFull _ (oneHot_labels s)

example : backwardScore squareBox reluTenBack ![1, 0] (fun k => 1 - (![1, 0] : Fin 2 → ℚ) k) = .ok (-1 / 2) ∧
    backwardScore squareBox reluTenBack ![0, 1] (fun k => 1 - (![0, 1] : Fin 2 → ℚ) k) = .ok (-1 / 2) := by
  constructor <;> decide +kernel

example := C162_labels_not_read squareBox reluTenBack _ _ (oneHot_labels 0) (oneHot_labels 1)

/-- Other values of the second output and of the second input: the same backward score. -/
example := C162_first_only squareBox reluTenBack ⟨![reluTenBack.wu 0, ![7, 8]], ![reluTenBack.bu 0, 9], ![reluTenBack.wl 0, ![5, 6]],
  ![reluTenBack.bl 0, 4]⟩ ⟨rfl, rfl⟩ ⟨rfl, rfl⟩

/-- Three inputs, two outputs. -/
example := C162_raises (α := ℚ) (n := 2) (m := 1) (by decide) (by decide) (by decide)

/-- **C162 (the documented meaning).** "adv_score < 0 if the prediction is robust" does not hold in backward mode, for the tensors that the
`crown` conversion computes: `reluTen` never ranks label 0 over label 1, and both layers return a negative number for source 0. -/
theorem C162_certificate_refuted :
    ¬ ∀ (N : Net ℚ (Fin 2) (Fin 2)) (b : BoxOf (Fin 2) ℚ) (f : Full (BoxOf (Fin 2) ℚ) (Fin 2) (Fin 2) ℚ) (src : Fin 2 → ℚ) (v : ℚ),
      (boxCrown .affine (1 / 10 ^ 7) .vSlope false b.1 b.2).model N = .ok f → SomeLabels src →
      (advScoreBackward .affine ⟨f.wu, f.bu, f.wl, f.bl⟩ f src = .ok v ∨ advCheckBackward .affine ⟨f.wu, f.bu, f.wl, f.bl⟩ f src = .ok v) →
      v < 0 → ∀ p ∈ Box b.1 b.2, SourcesWin src (N.eval p) := by
  intro h
  obtain ⟨s, c, h1, -, h2, -⟩ := C162_every_label (Or.inl rfl) .affine reluTenBack reluTenBack_eq.1
    (by rw [reluTenBack_eq.2.1, reluTenBack_eq.2.2]; norm_num) reluTenFull _ (oneHot_labels 0)
  have := h reluTen squareBox reluTenFull _ s reluTenFull_ok (oneHot_labels 0) (Or.inl h1) h2 (fun _ => 0)
    (by intro i; simp [squareBox]) 1 0 (by decide +kernel) (by decide +kernel)
  revert this
  decide +kernel

/-- The network of the case: label 1 wins at every point of the box. -/
example (p : Fin 2 → ℚ) (hp : p ∈ Box squareBox.1 squareBox.2) : reluTen.eval p 0 < reluTen.eval p 1 := by
  have h := (hp 1).2
  have e0 : reluTen.eval p 0 = max (p 1) 0 := by
    simp [reluTen, Net.eval, Lay.eval, Fin.sum_univ_two]
  have e1 : reluTen.eval p 1 = 10 := by
    simp [reluTen, Net.eval, Lay.eval, Fin.sum_univ_two]
  simp only [squareBox] at h
  rw [e0, e1, max_lt_iff]
  constructor <;> linarith

end Decomon
