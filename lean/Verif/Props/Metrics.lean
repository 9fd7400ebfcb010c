import Verif.Model.Metrics
import Verif.Props.Core
import Verif.Props.Utils
import Verif.Props.LayerUtils
import Verif.Props.Layers
import Verif.Props.Activations
import Verif.Props.Network
import Mathlib.Algebra.BigOperators.Fin

/-!
Properties C42 to C45 and C74 to C80: metric layers and losses.
-/

namespace Decomon

/-! ### C42: adversarial metric layers -/

section Scores
variable {X ι κ α : Type*} [Fintype ι] [Fintype κ] [Nonempty κ] [Field α] [LinearOrder α] [IsStrictOrderedRing α]

omit [Fintype ι] in
theorem metricIbp_sound (f : Full X ι κ α) (src y : κ → α) (h : ∀ k, f.lc k ≤ y k ∧ y k ≤ f.uc k) (t s : κ) (ht : src t = 0)
    (hs : src s = 1) : y t - y s ≤ metricIbp f.lc f.uc src fun k => 1 - src k := by
  have h1 := le_maxOver (fun j => f.uc j * (1 - src j) - (minOver fun k => f.lc k * src k) - 1000000 * (1 - (1 - src j))) t
  have h2 := minOver_le (fun k => f.lc k * src k) s
  simp only [ht, hs] at h1 h2
  unfold metricIbp
  linarith [(h t).2, (h s).1]

theorem metricAffine_sound (D : PertDomain X ι α) (f : Full X ι κ α) (S : Set (ι → α)) (hD : D.Sound f.x S) (src y : κ → α)
    (p : ι → α) (hp : p ∈ S)
    (h : ∀ k, affEval (fun i => f.wl i k) (f.bl k) p ≤ y k ∧ y k ≤ affEval (fun i => f.wu i k) (f.bu k) p) (t s : κ) (ht : src t = 0)
    (hs : src s = 1) : y t - y s ≤ metricAffine D f.x f.wl f.bl f.wu f.bu src fun k => 1 - src k := by
  have h1 := le_maxOver (fun q : κ × κ => D.getUpper f.x (fun i => f.wu i q.2 - f.wl i q.1)
    (f.bu q.2 - f.bl q.1 - 1000000 * (1 - (1 - src q.2)) - 1000000 * (1 - src q.1))) (s, t)
  simp only [ht, hs, sub_zero, sub_self, mul_zero] at h1
  have h2 := (hD p hp (fun i => f.wu i t - f.wl i s) (f.bu t - f.bl s)).2
  have e : affEval (fun i => f.wu i t - f.wl i s) (f.bu t - f.bl s) p =
      affEval (fun i => f.wu i t) (f.bu t) p - affEval (fun i => f.wl i s) (f.bl s) p := by
    simp only [affEval, sub_mul, Finset.sum_sub_distrib]; ring
  unfold metricAffine
  linarith [(h t).2, (h s).1]

/-- C42: `AdversarialScore` in forward mode bounds the margin of every label that is not a source over every source, so a negative
score is a certificate.
Missing with respect to the full claim: the backward mode, refuted below. -/
theorem C42_score_sound_partial (D : PertDomain X ι α) (m : Mode) (f : Full X ι κ α) (S : Set (ι → α)) (hD : D.Sound f.x S)
    (src : κ → α) (p : ι → α) (hp : p ∈ S) (y : κ → α) (v : Valid m false f p y) (t s : κ) (ht : src t = 0) (hs : src s = 1) :
    y t - y s ≤ advScoreCall D m none f src := by
  have hi := fun h => metricIbp_sound f src y (v.const h) t s ht hs
  have ha := fun h => metricAffine_sound D f S hD src y p hp (v.aff h) t s ht hs
  cases m with
  | ibp => exact hi rfl
  | affine => exact ha rfl
  | hybrid => exact le_min (hi rfl) (ha rfl)

end Scores

/-- Constant outputs `v`, known up to `slack`, as tensors of every mode, over the interval `[0, 1]`. -/
def looseConst {κ : Type*} (v : κ → ℚ) (slack : ℚ) : Full ((Fin 1 → ℚ) × (Fin 1 → ℚ)) (Fin 1) κ ℚ :=
  ⟨(fun _ => 0, fun _ => 1), fun k => v k + slack, fun _ _ => 0, fun k => v k + slack, fun k => v k - slack, fun _ _ => 0,
    fun k => v k - slack, fun _ => 0, fun _ => 0⟩

theorem looseConst_valid {κ : Type*} (v : κ → ℚ) (slack : ℚ) (h : 0 ≤ slack) (m : Mode) (p : Fin 1 → ℚ) :
    Valid m false (looseConst v slack) p v := by
  refine ⟨fun _ k => ?_, fun _ k => ?_, by simp⟩ <;> simp [looseConst, affEval, h]

/-- C42: in backward mode the score takes the minimum with a score in which upper and lower bounds are not exchanged: outputs `(0, 1)`,
source 0, valid bounds, score `-3`. -/
theorem C42_score_backward_refuted :
    (∀ p, Valid .affine false (looseConst ![0, 1] 2) p ![0, 1]) ∧
      advScoreCall boxDomain .ibp (some (looseConst ![0, 1] 2)) (looseConst ![0, 1] 2) ![1, 0] = -3 ∧
      ¬ ((![0, 1] : Fin 2 → ℚ) 1 < (![0, 1] : Fin 2 → ℚ) 0) :=
  ⟨looseConst_valid _ _ (by norm_num) _, by decide +kernel, by decide +kernel⟩

/-- A case of C42: bounds of half-width 2 around the outputs `(3, 1)`, source 0, in every mode. -/
example (m : Mode) (p : Fin 1 → ℚ) (hp : p ∈ Box (fun _ => 0) fun _ => 1) : (1 : ℚ) - 3 ≤ advScoreCall boxDomain m none (looseConst ![3, 1] 2) ![1, 0] :=
  C42_score_sound_partial boxDomain m (looseConst ![3, 1] 2) (Box (fun _ => 0) fun _ => 1) (boxDomain_sound _ _) ![1, 0] p hp ![3, 1]
    (looseConst_valid _ 2 (by norm_num) m p) 1 0 rfl rfl

/-- C42: `AdversarialCheck` documents the same meaning ("adv_score <0 if the prediction is robust"), which fails in every mode: outputs
`(0, 1)`, source 0, bounds valid up to 2. -/
theorem C42_check_refuted (m : Mode) :
    (∀ p, Valid m false (looseConst ![0, 1] 2) p ![0, 1]) ∧
      advCheckCall boxDomain m none (looseConst ![0, 1] 2) ![1, 0] < 0 ∧
      ¬ ((![0, 1] : Fin 2 → ℚ) 1 < (![0, 1] : Fin 2 → ℚ) 0) :=
  ⟨looseConst_valid _ _ (by norm_num) _, by cases m <;> decide +kernel, by decide +kernel⟩

/-- C42: in ibp mode the score of a robust sample with exact bounds can be positive (the minimum over the sources includes the zeros of
the mask): outputs `(3, 1)`, source 0, score 1; in affine mode it is `-2`. -/
theorem C42_score_loose_refuted :
    advScoreCall boxDomain .ibp none (looseConst ![3, 1] 0) ![1, 0] = 1 ∧
      advScoreCall boxDomain .affine none (looseConst ![3, 1] 0) ![1, 0] = -2 := by
  constructor <;> decide +kernel

/-! ### C74: UpperScore -/

section Upper
variable {X ι κ α : Type*} [Fintype ι] [Fintype κ] [Field α] [LinearOrder α] [IsStrictOrderedRing α]

theorem linearUpper_sound (D : PertDomain X ι α) (f : Full X ι κ α) (S : Set (ι → α)) (hD : D.Sound f.x S) (p : ι → α) (hp : p ∈ S)
    (c y : κ → α) (hc : ∀ k, 0 ≤ c k) (h : ∀ k, y k ≤ affEval (fun i => f.wu i k) (f.bu k) p) :
    ∑ k, y k * c k ≤ linearUpper D f.x c f.wu f.bu := by
  refine Finset.sum_le_sum fun k _ => ?_
  refine le_trans ?_ (hD p hp (fun i => f.wu i k * c k) (f.bu k * c k)).2
  have e : affEval (fun i => f.wu i k * c k) (f.bu k * c k) p = affEval (fun i => f.wu i k) (f.bu k) p * c k := by
    simp only [affEval, add_mul, Finset.sum_mul]
    congr 1
    exact Finset.sum_congr rfl fun i _ => by ring
  rw [e]
  exact mul_le_mul_of_nonneg_right (h k) (hc k)

/-- C74: `UpperScore` bounds the combination of the outputs with non-negative coefficients `c`, in forward and backward mode.
Missing with respect to the full claim: affine models, which raise, and negative coefficients, refuted below. -/
theorem C74_upper_sound_partial (D : PertDomain X ι α) (m : Mode) (hm : m ≠ .affine) (back : Option (Full X ι κ α)) (f : Full X ι κ α)
    (S : Set (ι → α)) (hD : D.Sound f.x S) (c : κ → α) (hc : ∀ k, 0 ≤ c k) (p : ι → α) (hp : p ∈ S) (y : κ → α)
    (v : Valid m false f p y) (hb : ∀ b ∈ back, Valid .affine false b p y ∧ D.Sound b.x S ∧ b.x = f.x) :
    ∃ sc, upperScoreCall D m back f c = .ok sc ∧ ∑ k, y k * c k ≤ sc := by
  have hi : getIbp m = true → ∑ k, y k * c k ≤ ∑ k, f.uc k * c k :=
    fun h => Finset.sum_le_sum fun k _ => mul_le_mul_of_nonneg_right (v.const h k).2 (hc k)
  have hback : ∀ b ∈ back, ∑ k, y k * c k ≤ linearUpper D f.x c b.wu b.bu := by
    intro b hb'
    obtain ⟨vb, hs, e⟩ := hb b hb'
    rw [← e]
    exact linearUpper_sound D b S hs p hp c y hc fun k => (vb.aff rfl k).2
  cases m with
  | affine => exact absurd rfl hm
  | ibp =>
    cases back with
    | none => exact ⟨_, rfl, hi rfl⟩
    | some b => exact ⟨_, rfl, le_min (hi rfl) (hback b rfl)⟩
  | hybrid =>
    have ha := linearUpper_sound D f S hD p hp c y hc fun k => (v.aff rfl k).2
    cases back with
    | none => exact ⟨_, rfl, le_min (hi rfl) ha⟩
    | some b => exact ⟨_, rfl, le_min (le_min (hi rfl) ha) (hback b rfl)⟩

omit [Fintype ι] [IsStrictOrderedRing α] in
/-- C74: on an affine model the layer always raises `ValueError`. -/
theorem C74_affine_raises_refuted (D : PertDomain X ι α) (back : Option (Full X ι κ α)) (f : Full X ι κ α) (c : κ → α) :
    upperScoreCall D .affine back f c = .error .valueError := rfl

end Upper

/-- C74: with a negative coefficient the score is not an upper bound: output 0 known up to 1, coefficient `-1`: score `-1`. -/
theorem C74_negative_coefficient_refuted :
    (∀ p, Valid .ibp false (looseConst (fun _ : Fin 1 => 0) 1) p fun _ => 0) ∧
      upperScoreCall boxDomain .ibp none (looseConst (fun _ : Fin 1 => 0) 1) (fun _ => -1) = .ok (-1) :=
  ⟨looseConst_valid _ _ (by norm_num) _, by decide +kernel⟩

/-- A case of C74: the combination `y0 + 2 y1` of the outputs `(3, 1)`, with backward bounds. -/
example (p : Fin 1 → ℚ) (hp : p ∈ Box (fun _ => 0) fun _ => 1) :
    ∃ sc, upperScoreCall boxDomain .hybrid (some (looseConst ![3, 1] 0)) (looseConst ![3, 1] 1) ![1, 2] = .ok sc ∧ ∑ k, ![(3 : ℚ), 1] k * ![1, 2] k ≤ sc :=
  C74_upper_sound_partial boxDomain .hybrid (by decide) _ _ (Box (fun _ => 0) fun _ => 1) (boxDomain_sound _ _) ![1, 2] (by decide +kernel) p hp ![3, 1]
    (looseConst_valid _ 1 (by norm_num) .hybrid p)
    (by rintro b ⟨⟩; exact ⟨looseConst_valid _ 0 le_rfl .affine p, boxDomain_sound _ _, rfl⟩)

/-- Non-vacuity of C74. -/
example : upperScoreCall boxDomain .hybrid none (looseConst ![3, 1] 1) ![1, 2] = .ok 8 := by decide +kernel

/-! ### C75: building a metric model -/

/-- C75: `build_formal_adv_check_model`, `build_formal_adv_model` and `build_formal_upper_model` raise `AttributeError` on every
converted model. -/
theorem C75_build_refuted {τ : Type*} (m : Mode) (e : τ) (outputs : List τ) (y : τ) :
    buildFormal decomonModelAttrs m e outputs y = .error .attributeError := by
  have : readAttr decomonModelAttrs "mode" = .error .attributeError := by decide +kernel
  simp [buildFormal, this]

/-- C75: even with a `mode` attribute the tensors are read one position too far: in hybrid and affine mode the layer takes the next
tensor for each name, in ibp mode it raises `ValueError`. -/
theorem C75_shift_refuted {τ : Type*} (attrs : List String) (ha : "mode" ∈ attrs) (e x uc wu bu lc wl bl y : τ) :
    buildFormal attrs .hybrid e [x, uc, wu, bu, lc, wl, bl] y = .ok ⟨uc, wu, bu, lc, wl, bl, y, e, e⟩ ∧
    buildFormal attrs .affine e [x, wu, bu, wl, bl] y = .ok ⟨wu, e, bu, wl, e, bl, y, e, e⟩ ∧
    buildFormal attrs .ibp e [uc, lc] y = .error .valueError := by
  have : readAttr attrs "mode" = .ok () := by simp [readAttr, ha]
  refine ⟨?_, ?_, ?_⟩ <;> simp only [buildFormal, this] <;> rfl

/-- C75: the layers do read their tensors right when one more tensor (it is dropped) precedes those of the model, and in ibp mode the
tensor `x` too. -/
theorem C75_unpack_partial {τ : Type*} (m : Mode) (e d y : τ) (t : Nine τ) :
    metricUnpack m e (d :: (if m = .ibp then [t.x] else []) ++ extractForMode m false t ++ [y]) =
      .ok (match m with
        | .hybrid => ⟨t.x, t.uc, t.wu, t.bu, t.lc, t.wl, t.bl, e, e⟩
        | .affine => ⟨t.x, e, t.wu, t.bu, e, t.wl, t.bl, e, e⟩
        | .ibp => ⟨t.x, t.uc, e, e, t.lc, e, e, e, e⟩) := by
  cases m <;> rfl

/-- Seven tensors of a hybrid model, between the input and the label. -/
example : metricUnpack .hybrid 0 [9, 1, 2, 3, 4, 5, 6, 7, 8] = .ok ⟨1, 2, 3, 4, 5, 6, 7, 0, 0⟩ :=
  C75_unpack_partial .hybrid 0 9 8 ⟨1, 2, 3, 4, 5, 6, 7, 0, 0⟩

/-! ### C43: packing -/

section Packing
variable {α : Type*} [Field α] [LinearOrder α]

omit [LinearOrder α] in
theorem asMatrix_val {r c : ℕ} (a : Fin r → Fin c → α) (i : Fin r) (j : Fin c) : asMatrix a i j = a i j := by
  simp [asMatrix]

omit [LinearOrder α] in
theorem asMatrix_val' {r c : ℕ} (a : Fin r → Fin c → α) (i j : ℕ) (hi : i < r) (hj : j < c) : asMatrix a i j = a ⟨i, hi⟩ ⟨j, hj⟩ := by
  simp [asMatrix, hi, hj]

/-- C43: in each mode, the slices taken by the losses from the tensor built by `get_model` are the tensors of the model, for any number
of components of `x`, of inputs and of outputs.
Missing with respect to the full claim: for a ball the shape of `x` is not restored, see below. -/
theorem C43_round_trip_partial {nc nIn nOut : ℕ} (m : Mode) (f : Full (Fin nc → Fin nIn → α) (Fin nIn) (Fin nOut) α) :
    let g := unpackLoss nc nIn nOut m (packLoss m f)
    (getAffine m = true → g.x = f.x ∧ g.wu = f.wu ∧ g.bu = f.bu ∧ g.wl = f.wl ∧ g.bl = f.bl) ∧
    (getIbp m = true → g.uc = f.uc ∧ g.lc = f.lc) := by
  cases m with
  | ibp =>
    refine ⟨by simp [getAffine], fun _ => ⟨?_, ?_⟩⟩ <;> funext k <;> simp [unpackLoss, packLoss, packIbp, catCols, asMatrix]
  | affine =>
    refine ⟨fun _ => ⟨?_, ?_, ?_, ?_, ?_⟩, by simp [getIbp]⟩ <;> funext a <;> (try funext b) <;>
      simp [unpackLoss, packLoss, packAffine, catCols, catRows, asMatrix, asRow, add_assoc]
  | hybrid =>
    refine ⟨fun _ => ⟨?_, ?_, ?_, ?_, ?_⟩, fun _ => ⟨?_, ?_⟩⟩ <;> funext a <;> (try funext b) <;>
      simp [unpackLoss, packLoss, packHybrid, catCols, catRows, asMatrix, asRow, add_assoc, Nat.lt_succ_of_lt]

end Packing

/-- The network `(x₀, x₁) ↦ (x₁, x₀)` around the centre `(10, 0)`: exact affine bounds. -/
def swapFull : Full (Fin 1 → Fin 2 → ℚ) (Fin 2) (Fin 2) ℚ :=
  ⟨fun _ => ![10, 0], fun _ => 0, fun i k => if i = k then 0 else 1, fun _ => 0, fun _ => 0, fun i k => if i = k then 0 else 1, fun _ => 0,
    fun _ => 0, fun _ => 0⟩

/-- C43: for a ball, `x` comes back with a component axis and is then broadcast along the wrong axis: for `(x₀, x₁) ↦ (x₁, x₀)` at the
centre `(10, 0)`, radius 0, the upper bound used by the loss for the second output is 0, its value is 10. -/
theorem C43_ball_refuted :
    (∀ p, Valid .affine false swapFull p ![p 1, p 0]) ∧
      let g := unpackLoss 1 2 2 .affine (packLoss .affine swapFull)
      upperBallInfRank3 g.x 0 g.wu g.bu 1 = 0 ∧ (![swapFull.x 0 1, swapFull.x 0 0] : Fin 2 → ℚ) 1 = 10 := by
  refine ⟨fun p => ⟨by simp [getIbp], fun _ k => ?_, by simp⟩, by decide +kernel, by decide +kernel⟩
  fin_cases k <;> simp [swapFull, affEval]

/-- C43: the same with negative weights: for `(x₀, x₁) ↦ (-x₁, -x₀)` at the centre `(10, 0)`, radius 0, the upper bound used by the loss for
the first output is -10, its value is 0. -/
theorem C43_ball_negative_refuted :
    let f : Full (Fin 1 → Fin 2 → ℚ) (Fin 2) (Fin 2) ℚ := { swapFull with wu := fun i k => - swapFull.wu i k, wl := fun i k => - swapFull.wl i k }
    (∀ p, Valid .affine false f p ![- p 1, - p 0]) ∧
      let g := unpackLoss 1 2 2 .affine (packLoss .affine f)
      upperBallInfRank3 g.x 0 g.wu g.bu 0 = -10 ∧ (![- f.x 0 1, - f.x 0 0] : Fin 2 → ℚ) 0 = 0 := by
  refine ⟨fun p => ⟨by simp [getIbp], fun _ k => ?_, by simp⟩, by decide +kernel, by decide +kernel⟩
  fin_cases k <;> simp [swapFull, affEval]

/-- C43: and when the numbers of inputs and outputs differ (both at least 2) the loss raises `ValueError`. -/
theorem C43_ball_shape_refuted (nIn nOut : ℕ) (h : nIn ≠ nOut) (hi : 2 ≤ nIn) (ho : 2 ≤ nOut) :
    upperBallRank3Shape nIn nOut = .error .valueError := by
  unfold upperBallRank3Shape
  rw [if_neg (by omega), if_neg (by omega)]

/-! ### C76: losses against a reference -/

section Loss
variable {X ι κ α : Type*} [Fintype ι] [Fintype κ] [Nonempty κ] [Field α] [LinearOrder α] [IsStrictOrderedRing α]

theorem maxOver_mono {f g : κ → α} (h : ∀ k, f k ≤ g k) : maxOver f ≤ maxOver g := maxOver_le fun k => (h k).trans (le_maxOver g k)

theorem upperLossOne_sound (D : PertDomain X ι α) (m : Mode) (f : Full X ι κ α) (S : Set (ι → α)) (hD : D.Sound f.x S) (ref : κ → α)
    (p : ι → α) (hp : p ∈ S) (y : κ → α) (v : Valid m false f p y) : (maxOver fun k => y k - ref k) ≤ upperLossOne D m f ref := by
  have hi : getIbp m = true → (maxOver fun k => y k - ref k) ≤ maxOver fun k => f.uc k - ref k :=
    fun h => maxOver_mono fun k => sub_le_sub_right (v.const h k).2 _
  have ha : getAffine m = true → (maxOver fun k => y k - ref k) ≤ maxOver fun k => D.getUpper f.x (fun i => f.wu i k) (f.bu k) - ref k :=
    fun h => maxOver_mono fun k => sub_le_sub_right ((v.aff h k).2.trans (hD p hp _ _).2) _
  cases m with
  | ibp => exact hi rfl
  | affine => exact ha rfl
  | hybrid => exact le_min (hi rfl) (ha rfl)

theorem lowerLossOne_sound (D : PertDomain X ι α) (m : Mode) (f : Full X ι κ α) (S : Set (ι → α)) (hD : D.Sound f.x S) (ref : κ → α)
    (p : ι → α) (hp : p ∈ S) (y : κ → α) (v : Valid m false f p y) : (maxOver fun k => ref k - y k) ≤ lowerLossOne D m f ref := by
  have hi : getIbp m = true → (maxOver fun k => ref k - y k) ≤ maxOver fun k => ref k - f.lc k :=
    fun h => maxOver_mono fun k => sub_le_sub_left (v.const h k).1 _
  have ha : getAffine m = true → (maxOver fun k => ref k - y k) ≤ maxOver fun k => ref k - D.getLower f.x (fun i => f.wl i k) (f.bl k) :=
    fun h => maxOver_mono fun k => sub_le_sub_left ((hD p hp _ _).1.trans (v.aff h k).1) _
  cases m with
  | ibp => exact hi rfl
  | affine => exact ha rfl
  | hybrid => exact le_min (hi rfl) (ha rfl)

theorem batchMean_mono {β : Type*} (l : List β) (f g : β → α) (h : ∀ b ∈ l, f b ≤ g b) : batchMean (l.map f) ≤ batchMean (l.map g) := by
  unfold batchMean
  rw [List.length_map, List.length_map]
  exact div_le_div_of_nonneg_right (List.sum_le_sum h) (Nat.cast_nonneg _)

end Loss

section Loss2
variable {α : Type*} [Field α] [LinearOrder α] [IsStrictOrderedRing α]

/-- The sample of a loss: tensors, reference, and a point of the box. -/
structure LossSample (nIn nOut : ℕ) (α : Type*) where
  f : Full (Fin 2 → Fin nIn → α) (Fin nIn) (Fin nOut) α
  ref : Fin nOut → α
  p : Fin nIn → α

/-- C76: on a box, in every mode, the loss of `get_upper_loss` computed from the packed tensor is at least the batch mean of the true
largest excess of the outputs over the reference, at any choice of points of the boxes; and symmetrically for `get_lower_loss`. -/
theorem C76_losses_sound {nIn nOut : ℕ} [NeZero nOut] (m : Mode) (F : (Fin nIn → α) → Fin nOut → α) (rows : List (LossSample nIn nOut α))
    (hp : ∀ r ∈ rows, r.p ∈ Box (r.f.x 0) (r.f.x 1)) (hv : ∀ r ∈ rows, Valid m false r.f r.p (F r.p)) :
    batchMean (rows.map fun r => maxOver fun k => F r.p k - r.ref k) ≤
        batchMean (rows.map fun r => upperLossOne boxDomain2 m (unpackLoss 2 nIn nOut m (packLoss m r.f)) r.ref) ∧
    batchMean (rows.map fun r => maxOver fun k => r.ref k - F r.p k) ≤
        batchMean (rows.map fun r => lowerLossOne boxDomain2 m (unpackLoss 2 nIn nOut m (packLoss m r.f)) r.ref) := by
  have eu : ∀ f : Full (Fin 2 → Fin nIn → α) (Fin nIn) (Fin nOut) α, ∀ ref,
      upperLossOne boxDomain2 m (unpackLoss 2 nIn nOut m (packLoss m f)) ref = upperLossOne boxDomain2 m f ref ∧
      lowerLossOne boxDomain2 m (unpackLoss 2 nIn nOut m (packLoss m f)) ref = lowerLossOne boxDomain2 m f ref := by
    intro f ref
    obtain ⟨ha, hi⟩ := C43_round_trip_partial m f
    cases m with
    | ibp =>
      obtain ⟨h1, h2⟩ := hi rfl
      simp only [upperLossOne, lowerLossOne, h1, h2, and_self]
    | affine =>
      obtain ⟨h1, h2, h3, h4, h5⟩ := ha rfl
      simp only [upperLossOne, lowerLossOne, h1, h2, h3, h4, h5, and_self]
    | hybrid =>
      obtain ⟨h1, h2, h3, h4, h5⟩ := ha rfl
      obtain ⟨h6, h7⟩ := hi rfl
      simp only [upperLossOne, lowerLossOne, h1, h2, h3, h4, h5, h6, h7, and_self]
  have hD : ∀ x : Fin 2 → Fin nIn → α, (boxDomain2 : PertDomain (Fin 2 → Fin nIn → α) (Fin nIn) α).Sound x (Box (x 0) (x 1)) :=
    fun x p hp w b => ⟨getLowerBox_sound hp w b, getUpperBox_sound hp w b⟩
  constructor
  · refine batchMean_mono _ _ _ fun r hr => ?_
    rw [(eu r.f r.ref).1]
    exact upperLossOne_sound _ m r.f _ (hD _) r.ref r.p (hp r hr) _ (hv r hr)
  · refine batchMean_mono _ _ _ fun r hr => ?_
    rw [(eu r.f r.ref).2]
    exact lowerLossOne_sound _ m r.f _ (hD _) r.ref r.p (hp r hr) _ (hv r hr)

end Loss2

/-- The identity on `[0, 1]`, with exact bounds. -/
def unitIdentity : Full (Fin 2 → Fin 1 → ℚ) (Fin 1) (Fin 1) ℚ :=
  ⟨![fun _ => 0, fun _ => 1], fun _ => 1, fun _ _ => 1, fun _ => 0, fun _ => 0, fun _ _ => 1, fun _ => 0, fun _ => 0, fun _ => 0⟩

/-- Non-vacuity of C76: reference 0: the upper loss is 1, reached at the point 1. -/
example : upperLossOne boxDomain2 .hybrid (unpackLoss 2 1 1 .hybrid (packLoss .hybrid unitIdentity)) (fun _ => 0) = 1 ∧
    lowerLossOne boxDomain2 .affine (unpackLoss 2 1 1 .affine (packLoss .affine unitIdentity)) (fun _ => 0) = 0 ∧
    Valid .hybrid false unitIdentity (fun _ => 1) (fun _ => 1) := by
  refine ⟨by decide +kernel, by decide +kernel, ⟨fun _ k => ?_, fun _ k => ?_, by simp⟩⟩ <;> simp [unitIdentity, affEval]

/-! ### C77: adversarial loss -/

section Adv
variable {X ι κ α : Type*} [Fintype κ] [Nonempty κ] [Field α] [LinearOrder α] [IsStrictOrderedRing α]

/-- The masked maximum bounds every (target, source) pair, and is the greatest of them when there is one. -/
theorem lossMask_spec (upper : κ → κ → α) (y : κ → α) (hy : ∀ k, y k = 0 ∨ y k = 1) :
    (∀ t s, y t = 0 → y s = 1 → upper t s ≤ lossMask upper y) ∧
    ((∃ t, y t = 0) → (∃ s, y s = 1) → ∃ t s, y t = 0 ∧ y s = 1 ∧ lossMask upper y = upper t s) := by
  unfold lossMask
  have hb : ∀ q : κ × κ, (minOver fun q : κ × κ => upper q.1 q.2) ≤ upper q.1 q.2 ∧ upper q.1 q.2 ≤ maxOver fun q : κ × κ => upper q.1 q.2 :=
    fun q => ⟨minOver_le (fun q : κ × κ => upper q.1 q.2) q, le_maxOver (fun q : κ × κ => upper q.1 q.2) q⟩
  dsimp only
  generalize (maxOver fun q : κ × κ => upper q.1 q.2) = hi at *
  generalize (minOver fun q : κ × κ => upper q.1 q.2) = lo at *
  have h1 : ∀ t s, y t = 0 → y s = 1 → upper t s ≤ maxOver fun q : κ × κ => upper q.1 q.2 - (hi - lo + 1) * (1 - (1 - y q.1) * y q.2) := by
    intro t s ht hs
    have := le_maxOver (fun q : κ × κ => upper q.1 q.2 - (hi - lo + 1) * (1 - (1 - y q.1) * y q.2)) (t, s)
    simpa [ht, hs] using this
  refine ⟨h1, ?_⟩
  rintro ⟨t0, ht0⟩ ⟨s0, hs0⟩
  obtain ⟨⟨t, s⟩, e⟩ := exists_maxOver fun q : κ × κ => upper q.1 q.2 - (hi - lo + 1) * (1 - (1 - y q.1) * y q.2)
  by_cases h : y t = 0 ∧ y s = 1
  · exact ⟨t, s, h.1, h.2, by rw [e]; simp [h.1, h.2]⟩
  · exfalso
    have hz : (1 - y t) * y s = 0 := by
      rcases hy t with h2 | h2
      · rcases hy s with h3 | h3
        · simp [h3]
        · exact absurd ⟨h2, h3⟩ h
      · simp [h2]
    have hle := h1 t0 s0 ht0 hs0
    rw [e] at hle
    simp only [hz, sub_zero, mul_one] at hle
    linarith [(hb (t, s)).2, (hb (t0, s0)).1]

omit [IsStrictOrderedRing α] in
theorem le_clipScore (clip : Option α) (s : α) : s ≤ clipScore clip s := by
  cases clip with
  | none => exact le_rfl
  | some c => exact le_max_left _ _

/-- C77: without softmax, in ibp and affine mode, the loss of a sample bounds the margin of every wrong label, whatever the clip value.
Missing with respect to the full claim: the hybrid mode, refuted below. -/
theorem C77_adv_loss_sound_partial [Fintype ι] (D : PertDomain X ι α) (m : Mode) (hm : m ≠ .hybrid) (sm : Full X ι κ α → Full X ι κ α)
    (clip : Option α) (f : Full X ι κ α) (S : Set (ι → α)) (hD : D.Sound f.x S) (src : κ → α) (hy : ∀ k, src k = 0 ∨ src k = 1)
    (p : ι → α) (hp : p ∈ S) (y : κ → α) (v : Valid m false f p y) (t s : κ) (ht : src t = 0) (hs : src s = 1) :
    y t - y s ≤ advLossOne D m false sm clip f src := by
  cases m with
  | hybrid => exact absurd rfl hm
  | ibp =>
    refine le_trans ?_ (le_clipScore clip (advLossIbp f src))
    refine le_trans ?_ ((lossMask_spec (fun t s => f.uc t - f.lc s) src hy).1 t s ht hs)
    linarith [(v.const rfl t).2, (v.const rfl s).1]
  | affine =>
    refine le_trans ?_ (le_clipScore clip (advLossAffine D f src))
    refine le_trans ?_ ((lossMask_spec (fun t s => D.getUpper f.x (fun i => f.wu i t - f.wl i s) (f.bu t - f.bl s)) src hy).1 t s ht hs)
    refine le_trans ?_ (hD p hp (fun i => f.wu i t - f.wl i s) (f.bu t - f.bl s)).2
    have e : affEval (fun i => f.wu i t - f.wl i s) (f.bu t - f.bl s) p =
        affEval (fun i => f.wu i t) (f.bu t) p - affEval (fun i => f.wl i s) (f.bl s) p := by
      simp only [affEval, sub_mul, Finset.sum_sub_distrib]; ring
    linarith [(v.aff rfl t).2, (v.aff rfl s).1]

end Adv

section AdvReal
variable {X ι κ ν : Type*} [Fintype ι] [Fintype κ] [Fintype ν] [Nonempty κ] [Nonempty ν]

/-- C77: in hybrid mode the softmax is applied although `softmax=False`: the loss of a sample is at most 1, whatever the logits.  It
cannot bound the margin of the logits. -/
theorem C77_hybrid_refuted (D : PertDomain X ι ℝ) (eps : ℝ) (f : Full X ι (κ × ν) ℝ) (src : κ × ν → ℝ) (hy : ∀ k, src k = 0 ∨ src k = 1)
    (ht : ∃ t, src t = 0) (hs : ∃ s, src s = 1) :
    advLossOne D .hybrid false (softmaxT D .hybrid eps) none f src ≤ 1 := by
  refine (min_le_left _ _).trans ?_
  obtain ⟨t, s, -, -, e⟩ := (lossMask_spec (fun t s => (softmaxT D .hybrid eps f).uc t - (softmaxT D .hybrid eps f).lc s) src hy).2 ht hs
  dsimp only [clipScore, advLossIbp]
  refine e.le.trans ?_
  linarith [(C22_clip D .hybrid rfl eps f s).1, (C22_clip D .hybrid rfl eps f t).2]

/-- A case of C76: the identity on `[0, 1]` with reference 1/2, at the input 1. -/
example : batchMean ([(⟨unitIdentity, fun _ => 1, fun _ => 1 / 2⟩ : LossSample 1 1 ℚ)].map fun r => maxOver fun k => r.p k - r.ref k) ≤
    batchMean ([(⟨unitIdentity, fun _ => 1, fun _ => 1 / 2⟩ : LossSample 1 1 ℚ)].map fun r =>
      upperLossOne boxDomain2 .hybrid (unpackLoss 2 1 1 .hybrid (packLoss .hybrid r.f)) r.ref) := by
  refine (C76_losses_sound .hybrid (fun p => p) [(⟨unitIdentity, fun _ => 1, fun _ => 1 / 2⟩ : LossSample 1 1 ℚ)] ?_ ?_).1
  · intro r hr i; simp at hr; subst hr; norm_num [unitIdentity]
  · intro r hr; simp at hr; subst hr
    refine ⟨fun _ k => ?_, fun _ k => ?_, by simp⟩ <;> norm_num [unitIdentity, affEval]

/-- A case of C77: bounds of half-width 1 around `(3, 1)`, source 0, in the two modes without softmax. -/
example (m : Mode) (hm : m ≠ .hybrid) (p : Fin 1 → ℚ) (hp : p ∈ Box (fun _ => 0) fun _ => 1) :
    (1 : ℚ) - 3 ≤ advLossOne boxDomain m false id (some (1 / 2)) (looseConst ![3, 1] 1) ![1, 0] :=
  C77_adv_loss_sound_partial boxDomain m hm id (some (1 / 2)) (looseConst ![3, 1] 1) (Box (fun _ => 0) fun _ => 1) (boxDomain_sound _ _) ![1, 0]
    (by decide +kernel) p hp ![3, 1] (looseConst_valid _ 1 (by norm_num) m p) 1 0 rfl rfl

/-- C77: the sigmoid keeps the order, so the mean of the sigmoids bounds the mean of the sigmoids of the true margins. -/
theorem C77_sigmoid {β : Type*} (sigmoid : Bool) (l : List β) (margin loss : β → ℝ) (h : ∀ b ∈ l, margin b ≤ loss b) :
    advLossMean sigmoid (l.map margin) ≤ advLossMean sigmoid (l.map loss) := by
  unfold advLossMean
  cases sigmoid with
  | false => exact batchMean_mono l margin loss h
  | true =>
    simp only [if_true, List.map_map]
    exact batchMean_mono l _ _ fun b hb => Real.sigmoid_monotone (h b hb)

example (sigmoid : Bool) : advLossMean sigmoid ([1, 2].map fun n : ℝ => n - 3) ≤ advLossMean sigmoid ([1, 2].map fun n : ℝ => n + 1) :=
  C77_sigmoid sigmoid [1, 2] _ _ fun n _ => by linarith

end AdvReal

/-- Non-vacuity of C77: outputs `(3, 1)` known up to 1, source 0: loss `0` in ibp and affine mode. -/
example : advLossOne boxDomain .ibp false id none (looseConst ![3, 1] 1) ![1, 0] = 0 ∧
    advLossOne boxDomain .affine false id (some (1 / 2)) (looseConst ![3, 1] 1) ![1, 0] = 1 / 2 := by
  constructor <;> decide +kernel

/-! ### C44, C78, C80: cross-entropy -/

section Fusion
variable {κ : Type*} [Fintype κ] [Nonempty κ]

theorem fusionCall_eq (uc lc : κ → ℝ) (i : κ) : fusionCall uc lc i = - lc i + Real.log (∑ j, Real.exp (uc j)) := by
  unfold fusionCall
  have h : ∑ j, Real.exp (uc j) = (∑ j, Real.exp (uc j - maxOver uc)) * Real.exp (maxOver uc) := by
    rw [Finset.sum_mul]
    exact Finset.sum_congr rfl fun j _ => by rw [← Real.exp_add]; ring_nf
  have hpos : 0 < ∑ j, Real.exp (uc j - maxOver uc) := Finset.sum_pos (fun _ _ => Real.exp_pos _) Finset.univ_nonempty
  rw [h, Real.log_mul hpos.ne' (Real.exp_pos _).ne', Real.log_exp]
  ring

/-- C44: entry `i` of `DecomonLossFusion` bounds the cross-entropy of label `i` for all outputs between the bounds, and equals it when
the bounds are exact. -/
theorem C44_fusion_sound (uc lc y : κ → ℝ) (h : ∀ k, lc k ≤ y k ∧ y k ≤ uc k) (i : κ) :
    - y i + Real.log (∑ j, Real.exp (y j)) ≤ fusionCall uc lc i ∧ fusionCall y y i = - y i + Real.log (∑ j, Real.exp (y j)) := by
  refine ⟨?_, fusionCall_eq y y i⟩
  rw [fusionCall_eq]
  have h1 : Real.log (∑ j, Real.exp (y j)) ≤ Real.log (∑ j, Real.exp (uc j)) :=
    Real.log_le_log (Finset.sum_pos (fun _ _ => Real.exp_pos _) Finset.univ_nonempty)
      (Finset.sum_le_sum fun j _ => Real.exp_le_exp.mpr (h j).2)
  linarith [(h i).1]

/-- C44: from the tensors of a model in any mode (the layer first converts them to constant bounds). -/
theorem C44_fusion_mode {X ι κ : Type} [Fintype ι] [Fintype κ] [Nonempty κ] (D : PertDomain X ι ℝ) (m : Mode) (f : Full X ι κ ℝ)
    (S : Set (ι → ℝ)) (hD : D.Sound f.x S) (p : ι → ℝ) (hp : p ∈ S) (y : κ → ℝ) (v : Valid m false f p y) (i : κ) :
    - y i + Real.log (∑ j, Real.exp (y j)) ≤ fusionCall (convert2Mode D m .ibp f).uc (convert2Mode D m .ibp f).lc i := by
  refine (C44_fusion_sound _ _ y (fun k => ?_) i).1
  have := tighten_const D m false f S hD p hp y v k
  cases m <;> simpa [convert2Mode, getIbp, Full.tighten] using this

/-- C80: with `backward=True` the layer returns a number below 1 whatever the bounds, while the cross-entropy of label 1 for the outputs
`(2, 0)` is above 2. -/
theorem C80_backward_refuted :
    (∀ (uc : κ → ℝ) (i : κ), fusionBackward uc i ≤ 1) ∧
      2 < - (![2, 0] : Fin 2 → ℝ) 1 + Real.log (∑ j, Real.exp ((![2, 0] : Fin 2 → ℝ) j)) := by
  constructor
  · intro uc i
    unfold fusionBackward
    rw [div_le_one (Finset.sum_pos (fun _ _ => Real.exp_pos _) Finset.univ_nonempty)]
    exact Finset.single_le_sum (f := fun j => Real.exp (uc j)) (fun _ _ => (Real.exp_pos _).le) (Finset.mem_univ i)
  · simp only [Fin.sum_univ_two, Matrix.cons_val_zero, Matrix.cons_val_one, neg_zero, zero_add]
    rw [Real.lt_log_iff_exp_lt (by positivity)]
    linarith [Real.exp_pos 0]

end Fusion

/-- C80: what remains true with `backward=True`: the entries are positive and sum to one. -/
theorem C80_backward_partial {κ : Type*} [Fintype κ] [Nonempty κ] (uc : κ → ℝ) :
    (∀ i, 0 < fusionBackward uc i) ∧ ∑ i, fusionBackward uc i = 1 := by
  have h : 0 < ∑ j, Real.exp (uc j) := Finset.sum_pos (fun _ _ => Real.exp_pos _) Finset.univ_nonempty
  refine ⟨fun i => div_pos (Real.exp_pos _) h, ?_⟩
  unfold fusionBackward
  rw [← Finset.sum_div, div_self h.ne']

/-- A case of C44: a layer before the loss with affine outputs, here the bounds `x ≤ y ≤ x + 1` of two outputs. -/
example (p : Fin 1 → ℝ) (hp : p ∈ Box (fun _ => -1) fun _ => 1) :
    let f : Full ((Fin 1 → ℝ) × (Fin 1 → ℝ)) (Fin 1) (Fin 2) ℝ :=
      ⟨(fun _ => -1, fun _ => 1), fun _ => 0, fun _ _ => 1, fun _ => 1, fun _ => 0, fun _ _ => 1, fun _ => 0, fun _ => 0, fun _ => 0⟩;
    (-(p 0 + 1) + Real.log (∑ j : Fin 2, Real.exp (p 0 + j)) : ℝ) ≤ fusionCall (convert2Mode boxDomain .affine .ibp f).uc (convert2Mode boxDomain .affine .ibp f).lc 1 := by
  intro f
  have h := C44_fusion_mode boxDomain .affine f (Box (fun _ => -1) fun _ => 1) (boxDomain_sound _ _) p hp (fun j => p 0 + j)
    ⟨by simp [getIbp], fun _ k => by fin_cases k <;> simp [f, affEval], by simp⟩ 1
  simpa using h

/-- Non-vacuity of C44: two classes, bounds `[0, 0]` and `[-1, 0]`. -/
example : - (0 : ℝ) + Real.log (∑ j, Real.exp ((![0, -1] : Fin 2 → ℝ) j)) ≤ fusionCall (![0, 0] : Fin 2 → ℝ) ![0, -1] 0 :=
  (C44_fusion_sound ![0, 0] ![0, -1] ![0, -1] (fun k => by fin_cases k <;> simp) 0).1

section Asym
variable {κ α : Type*} [Fintype κ] [Nonempty κ] [DecidableEq κ] [Field α] [LinearOrder α] [IsStrictOrderedRing α]

/-- C78: entry `i` of the asymptotic cross-entropy bounds the margin of every other label over `i`, and is the largest of these bounds
clipped at `-1`. -/
theorem C78_asymptotic (uc lc y : κ → α) (h : ∀ k, lc k ≤ y k ∧ y k ≤ uc k) (i j : κ) (hj : j ≠ i) :
    y j - y i ≤ fusionAsymptotic uc lc i ∧ -1 ≤ fusionAsymptotic uc lc i ∧
      (fusionAsymptotic uc lc i = -1 ∨ ∃ k, k ≠ i ∧ fusionAsymptotic uc lc i = uc k - lc i) := by
  have hz : ∀ k, (fun k => if k = i then (1 : α) else 0) k = 0 ∨ (fun k => if k = i then (1 : α) else 0) k = 1 := by
    intro k; by_cases hk : k = i <;> simp [hk]
  have hs := lossMask_spec (fun t s => uc t - lc s) (fun k => if k = i then (1 : α) else 0) hz
  refine ⟨?_, le_max_right _ _, ?_⟩
  · refine le_trans ?_ (le_max_left _ _)
    refine le_trans ?_ (hs.1 j i (by simp [hj]) (by simp))
    linarith [(h j).2, (h i).1]
  · obtain ⟨t, s, ht, hs', e⟩ := hs.2 ⟨j, by simp [hj]⟩ ⟨i, by simp⟩
    have ht : t ≠ i := by rintro rfl; simp at ht
    have hs' : s = i := by by_contra hne; simp [hne] at hs'
    subst hs'
    unfold fusionAsymptotic
    rw [e]
    rcases le_total (uc t - lc s) (-1) with hle | hle
    · left; exact max_eq_right hle
    · right; exact ⟨t, ht, max_eq_left hle⟩

example : (![2, 1] : Fin 2 → ℚ) 1 - ![2, 1] 0 ≤ fusionAsymptotic ![3, 1] ![2, 0] 0 :=
  (C78_asymptotic ![3, 1] ![2, 0] ![2, 1] (by decide +kernel) 0 1 (by decide)).1

end Asym

/-- Non-vacuity of C78. -/
example : fusionAsymptotic (![3, 1] : Fin 2 → ℚ) ![2, 0] 0 = -1 ∧ fusionAsymptotic (![3, 1] : Fin 2 → ℚ) ![2, 0] 1 = 3 := by
  constructor <;> decide +kernel

/-! ### C45: radius -/

section Radius
variable {X ι κ α : Type*} [Fintype ι] [Fintype κ] [Nonempty κ] [Field α] [LinearOrder α] [IsStrictOrderedRing α]

/-- On a box, an affine form is at most its value at the centre plus the weighted half widths. -/
theorem center_bound (eps : α) (xmin xmax w p : ι → α) (b : α) (hp : p ∈ Box xmin xmax) :
    affEval w b p ≤ (∑ i, w i * ((xmin i + xmax i) / 2)) + b + ∑ i, |w i * max ((xmax i - xmin i) / 2) eps| := by
  have : ∑ i, w i * p i ≤ (∑ i, w i * ((xmin i + xmax i) / 2)) + ∑ i, |w i * max ((xmax i - xmin i) / 2) eps| := by
    rw [← Finset.sum_add_distrib]
    refine Finset.sum_le_sum fun i _ => ?_
    have h1 : |p i - (xmin i + xmax i) / 2| ≤ max ((xmax i - xmin i) / 2) eps := by
      refine le_trans (abs_le.mpr ⟨?_, ?_⟩) (le_max_left _ _) <;> linarith [(hp i).1, (hp i).2]
    have h2 : w i * (p i - (xmin i + xmax i) / 2) ≤ |w i| * max ((xmax i - xmin i) / 2) eps :=
      (le_abs_self _).trans (by rw [abs_mul]; exact mul_le_mul_of_nonneg_left h1 (abs_nonneg _))
    have h3 : |w i| * max ((xmax i - xmin i) / 2) eps ≤ |w i * max ((xmax i - xmin i) / 2) eps| := by
      rw [abs_mul]; exact mul_le_mul_of_nonneg_left (le_abs_self _) (abs_nonneg _)
    linarith
  unfold affEval
  linarith

theorem radiusScore_neg (eps : α) (he : 0 < eps) (xmin xmax : ι → α) (w : ι → κ → α) (b y : κ → α)
    (hneg : radiusScore eps xmin xmax w b y < 0) (j : κ) (hj : y j = 0) (p : ι → α) (hp : p ∈ Box xmin xmax) :
    affEval (fun i => w i j) (b j) p < 0 := by
  have h1 := (le_maxOver (fun j => 1 - min (- ((∑ i, w i j * ((xmin i + xmax i) / 2)) + b j) /
    max (∑ i, |w i j * max ((xmax i - xmin i) / 2) eps|) eps + y j) 2) j).trans_lt hneg
  simp only [hj, add_zero] at h1
  have h2 : 1 < - ((∑ i, w i j * ((xmin i + xmax i) / 2)) + b j) / max (∑ i, |w i j * max ((xmax i - xmin i) / 2) eps|) eps := by
    have := min_le_left (- ((∑ i, w i j * ((xmin i + xmax i) / 2)) + b j) / max (∑ i, |w i j * max ((xmax i - xmin i) / 2) eps|) eps) 2
    linarith
  have hd : 0 < max (∑ i, |w i j * max ((xmax i - xmin i) / 2) eps|) eps := lt_max_of_lt_right he
  rw [lt_div_iff₀ hd, one_mul] at h2
  have h3 := le_max_left (∑ i, |w i j * max ((xmax i - xmin i) / 2) eps|) eps
  have h4 := center_bound eps xmin xmax (fun i => w i j) p (b j) hp
  linarith

/-- C45: if entry `i` of `DecomonRadiusRobust` is negative then label `i` beats every other label on the whole box. -/
theorem C45_radius_robust [DecidableEq κ] (eps : α) (he : 0 < eps) (m : Mode) (hm : getAffine m = true) (xmin xmax : ι → α)
    (f : Full X ι κ α) (i j : κ) (hj : j ≠ i) (hneg : radiusRobust eps xmin xmax f i < 0) (p : ι → α) (hp : p ∈ Box xmin xmax)
    (y : κ → α) (v : Valid m false f p y) : y j < y i := by
  have h := radiusScore_neg eps he xmin xmax _ _ _ hneg j (by simp [hj]) p hp
  have e : affEval (fun n => f.wu n j - f.wl n i) (f.bu j - f.bl i) p =
      affEval (fun n => f.wu n j) (f.bu j) p - affEval (fun n => f.wl n i) (f.bl i) p := by
    simp only [affEval, sub_mul, Finset.sum_sub_distrib]; ring
  have e2 : affEval (fun n => (∑ k, - f.wl n k * (if k = i then 1 else 0)) + f.wu n j * (1 - if j = i then 1 else 0) +
        f.wl n j * (if j = i then 1 else 0))
      ((∑ k, - f.bl k * (if k = i then 1 else 0)) + f.bu j * (1 - if j = i then 1 else 0) +
        (f.bl j - 1000000) * (if j = i then 1 else 0)) p = affEval (fun n => f.wu n j - f.wl n i) (f.bu j - f.bl i) p := by
    congr 1
    · funext n; simp [hj]; ring
    · simp [hj]; ring
  rw [e2, e] at h
  linarith [(v.aff hm j).2, (v.aff hm i).1]

/-- C45: with backward bounds (tensors bounding the margins `g`), a negative entry `i` gives a negative margin for every `j ≠ i`. -/
theorem C45_radius_backward [DecidableEq κ] (eps : α) (he : 0 < eps) (m : Mode) (hm : getAffine m = true) (xmin xmax : ι → α)
    (f : Full X ι κ α) (i j : κ) (hj : j ≠ i) (hneg : radiusRobustBackward eps xmin xmax f i < 0) (p : ι → α) (hp : p ∈ Box xmin xmax)
    (g : κ → α) (v : Valid m false f p g) : g j < 0 := by
  have h := radiusScore_neg eps he xmin xmax _ _ _ hneg j (by simp [hj]) p hp
  simp only [hj, if_false, mul_zero, sub_zero] at h
  exact (v.aff hm j).2.trans_lt h

/-- The box with the same centre as `[xmin, xmax]` and half widths at least `eps`. -/
theorem centered_max_iff (eps : α) (he : 0 < eps) (xmin xmax w : ι → α) (b : α) :
    ((∑ i, w i * ((xmin i + xmax i) / 2)) + b + max (∑ i, |w i * max ((xmax i - xmin i) / 2) eps|) eps < 0) ↔
      affEval w b (fun i => (xmin i + xmax i) / 2) < -eps ∧
      ∀ p, (∀ i, |p i - (xmin i + xmax i) / 2| ≤ max ((xmax i - xmin i) / 2) eps) → affEval w b p < 0 := by
  have hr : ∀ i, 0 < max ((xmax i - xmin i) / 2) eps := fun i => lt_max_of_lt_right he
  constructor
  · intro h
    constructor
    · have := le_max_right (∑ i, |w i * max ((xmax i - xmin i) / 2) eps|) eps
      unfold affEval; linarith
    · intro p hp
      have h1 := le_max_left (∑ i, |w i * max ((xmax i - xmin i) / 2) eps|) eps
      have : ∑ i, w i * p i ≤ (∑ i, w i * ((xmin i + xmax i) / 2)) + ∑ i, |w i * max ((xmax i - xmin i) / 2) eps| := by
        rw [← Finset.sum_add_distrib]
        refine Finset.sum_le_sum fun i _ => ?_
        have h2 : w i * (p i - (xmin i + xmax i) / 2) ≤ |w i| * max ((xmax i - xmin i) / 2) eps :=
          (le_abs_self _).trans (by rw [abs_mul]; exact mul_le_mul_of_nonneg_left (hp i) (abs_nonneg _))
        rw [abs_mul, abs_of_pos (hr i)]
        linarith
      unfold affEval; linarith
  · rintro ⟨h1, h2⟩
    have h3 := h2 (fun i => (xmin i + xmax i) / 2 + (if 0 ≤ w i then 1 else -1) * max ((xmax i - xmin i) / 2) eps) fun i => by
      rw [add_sub_cancel_left, abs_mul, abs_of_pos (hr i)]
      split_ifs <;> simp
    have e : ∑ i, w i * ((xmin i + xmax i) / 2 + (if 0 ≤ w i then 1 else -1) * max ((xmax i - xmin i) / 2) eps) =
        (∑ i, w i * ((xmin i + xmax i) / 2)) + ∑ i, |w i * max ((xmax i - xmin i) / 2) eps| := by
      rw [← Finset.sum_add_distrib]
      refine Finset.sum_congr rfl fun i _ => ?_
      rw [abs_mul, abs_of_pos (hr i)]
      by_cases hw : 0 ≤ w i
      · rw [if_pos hw, abs_of_nonneg hw]; ring
      · rw [if_neg hw, abs_of_neg (not_le.mp hw)]; ring
    unfold affEval at h1 h3
    rw [e] at h3
    rcases max_cases (∑ i, |w i * max ((xmax i - xmin i) / 2) eps|) eps with ⟨h, -⟩ | ⟨h, -⟩ <;> rw [h] <;> linarith

theorem radiusScore_iff [DecidableEq κ] (eps : α) (he : 0 < eps) (xmin xmax : ι → α) (w : ι → κ → α) (b : κ → α) (i : κ) :
    radiusScore eps xmin xmax w b (fun k => if k = i then 1 else 0) < 0 ↔
      (∑ n, w n i * ((xmin n + xmax n) / 2)) + b i < 0 ∧ ∀ j, j ≠ i →
        (∑ n, w n j * ((xmin n + xmax n) / 2)) + b j + max (∑ n, |w n j * max ((xmax n - xmin n) / 2) eps|) eps < 0 := by
  have hd : ∀ j, 0 < max (∑ n, |w n j * max ((xmax n - xmin n) / 2) eps|) eps := fun j => lt_max_of_lt_right he
  have key : ∀ s d y : α, 0 < d → (1 - min (-s / d + y) 2 < 0 ↔ 1 < -s / d + y) := by
    intro s d y _
    rw [sub_neg, lt_min_iff]
    exact ⟨fun h => h.1, fun h => ⟨h, by norm_num⟩⟩
  unfold radiusScore
  constructor
  · intro h
    have hall := fun j => (le_maxOver _ j).trans_lt h
    constructor
    · have h1 := (key _ _ _ (hd i)).mp (hall i)
      simp only [if_true] at h1
      have h2 : 0 < -((∑ n, w n i * ((xmin n + xmax n) / 2)) + b i) / max (∑ n, |w n i * max ((xmax n - xmin n) / 2) eps|) eps := by
        linarith
      rw [lt_div_iff₀ (hd i), zero_mul] at h2
      linarith
    · intro j hj
      have h1 := (key _ _ _ (hd j)).mp (hall j)
      simp only [hj, if_false, add_zero] at h1
      rw [lt_div_iff₀ (hd j), one_mul] at h1
      linarith
  · rintro ⟨h1, h2⟩
    obtain ⟨j, hj⟩ := exists_maxOver fun j => 1 - min (-((∑ n, w n j * ((xmin n + xmax n) / 2)) + b j) /
      max (∑ n, |w n j * max ((xmax n - xmin n) / 2) eps|) eps + (if j = i then 1 else 0)) 2
    rw [show (maxOver fun j => _) = _ from hj]
    rw [key _ _ _ (hd j)]
    by_cases hji : j = i
    · subst hji
      simp only [if_true]
      have : 0 < -((∑ n, w n j * ((xmin n + xmax n) / 2)) + b j) / max (∑ n, |w n j * max ((xmax n - xmin n) / 2) eps|) eps :=
        div_pos (by linarith) (hd j)
      linarith
    · simp only [hji, if_false, add_zero]
      rw [lt_div_iff₀ (hd j), one_mul]
      linarith [h2 j hji]

/-- C45: entry `i` is negative exactly when on the box enlarged to half widths at least `eps` the affine lower bound of output `i` is above
the affine upper bound of every other output, and above it by more than `eps` at the centre.  The label itself does not matter. -/
theorem C45_radius_iff [DecidableEq κ] (eps : α) (he : 0 < eps) (xmin xmax : ι → α) (f : Full X ι κ α) (i : κ) :
    radiusRobust eps xmin xmax f i < 0 ↔ ∀ j, j ≠ i →
      (affEval (fun n => f.wu n j) (f.bu j) (fun n => (xmin n + xmax n) / 2) + eps <
        affEval (fun n => f.wl n i) (f.bl i) (fun n => (xmin n + xmax n) / 2)) ∧
      ∀ p, (∀ n, |p n - (xmin n + xmax n) / 2| ≤ max ((xmax n - xmin n) / 2) eps) →
        affEval (fun n => f.wu n j) (f.bu j) p < affEval (fun n => f.wl n i) (f.bl i) p := by
  unfold radiusRobust
  rw [radiusScore_iff eps he]
  have e : ∀ j p, affEval (fun n => f.wu n j - f.wl n i) (f.bu j - f.bl i) p =
      affEval (fun n => f.wu n j) (f.bu j) p - affEval (fun n => f.wl n i) (f.bl i) p := by
    intro j p
    simp only [affEval, sub_mul, Finset.sum_sub_distrib]; ring
  have own : (∑ n, ((∑ k, - f.wl n k * (if k = i then 1 else 0)) + f.wu n i * (1 - if i = i then 1 else 0) +
      f.wl n i * (if i = i then 1 else 0)) * ((xmin n + xmax n) / 2)) + ((∑ k, - f.bl k * (if k = i then 1 else 0)) +
      f.bu i * (1 - if i = i then 1 else 0) + (f.bl i - 1000000) * (if i = i then 1 else 0)) < 0 := by
    simp
  rw [and_iff_right own]
  refine forall_congr' fun j => forall_congr' fun hj => ?_
  have e1 : ∀ n, (∑ k, - f.wl n k * (if k = i then 1 else 0)) + f.wu n j * (1 - if j = i then 1 else 0) +
      f.wl n j * (if j = i then 1 else 0) = f.wu n j - f.wl n i := by intro n; simp [hj]; ring
  have e2 : (∑ k, - f.bl k * (if k = i then 1 else 0)) + f.bu j * (1 - if j = i then 1 else 0) +
      (f.bl j - 1000000) * (if j = i then 1 else 0) = f.bu j - f.bl i := by simp [hj]; ring
  simp only [e1, e2]
  rw [centered_max_iff eps he]
  simp only [e, sub_neg]
  rw [sub_lt_iff_lt_add, neg_add_eq_sub, lt_sub_iff_add_lt]

/-- C45, with backward bounds: as above, but the label itself enters through the constant `10⁶`: its upper bound at the centre must be
below it. -/
theorem C45_radius_backward_iff [DecidableEq κ] (eps : α) (he : 0 < eps) (xmin xmax : ι → α) (f : Full X ι κ α) (i : κ) :
    radiusRobustBackward eps xmin xmax f i < 0 ↔
      affEval (fun n => f.wu n i) (f.bu i) (fun n => (xmin n + xmax n) / 2) < 10 ^ 6 ∧ ∀ j, j ≠ i →
      affEval (fun n => f.wu n j) (f.bu j) (fun n => (xmin n + xmax n) / 2) < -eps ∧
      ∀ p, (∀ n, |p n - (xmin n + xmax n) / 2| ≤ max ((xmax n - xmin n) / 2) eps) →
        affEval (fun n => f.wu n j) (f.bu j) p < 0 := by
  unfold radiusRobustBackward
  rw [radiusScore_iff eps he]
  refine and_congr ?_ (forall_congr' fun j => forall_congr' fun hj => ?_)
  · simp only [if_true, mul_one, affEval]
    constructor <;> intro h <;> norm_num at h ⊢ <;> linarith
  · simp only [hj, if_false, mul_zero, sub_zero]
    exact centered_max_iff eps he xmin xmax (fun n => f.wu n j) (f.bu j)

/-- Cases of C45: the outputs `(3, 1)` with exact bounds, label 0; the bounds `(10^5, -1)` of the differences with output 0. -/
example (p : Fin 1 → ℚ) (hp : p ∈ Box (fun _ => 0) fun _ => 1) : (1 : ℚ) < 3 :=
  C45_radius_robust (1 / 10000000) (by norm_num) .affine rfl (fun _ => 0) (fun _ => 1) (looseConst ![3, 1] 0) 0 1 (by decide) (by decide +kernel) p hp ![3, 1]
    (looseConst_valid _ 0 le_rfl .affine p)

example (p : Fin 1 → ℚ) (hp : p ∈ Box (fun _ => 0) fun _ => 1) : (-1 : ℚ) < 0 :=
  C45_radius_backward (1 / 10000000) (by norm_num) .affine rfl (fun _ => 0) (fun _ => 1) (looseConst ![0, -1] 0) 0 1 (by decide) (by decide +kernel) p hp ![0, -1]
    (looseConst_valid _ 0 le_rfl .affine p)

example : ∀ j : Fin 2, j ≠ 0 → affEval (fun n => (looseConst ![3, 1] 0).wu n j) ((looseConst ![3, 1] 0).bu j) (fun _ => (0 + 1) / 2) + 1 / 10000000 <
    affEval (fun n => (looseConst (![3, 1] : Fin 2 → ℚ) 0).wl n 0) ((looseConst (![3, 1] : Fin 2 → ℚ) 0).bl 0) (fun _ => (0 + 1) / 2) := fun j hj =>
  (((C45_radius_iff (1 / 10000000) (by norm_num) (fun _ => 0) (fun _ => 1) (looseConst ![3, 1] 0) 0).mp (by decide +kernel)) j hj).1

example : ∀ j : Fin 2, j ≠ 0 → affEval (fun n => (looseConst ![0, -1] 0).wu n j) ((looseConst ![0, -1] 0).bu j) (fun _ => (0 + 1) / 2) < -(1 / 10000000 : ℚ) := fun j hj =>
  (((C45_radius_backward_iff (1 / 10000000) (by norm_num) (fun _ => 0) (fun _ => 1) (looseConst ![0, -1] 0) 0).mp (by decide +kernel)).2 j hj).1

end Radius

/-- Non-vacuity of C45: outputs `(3, 1)` known exactly; label 0 is certified, label 1 is not. -/
example : radiusRobust (1 / 10000000) (fun _ : Fin 1 => 0) (fun _ => 1) (looseConst ![3, 1] 0) 0 < 0 ∧
    0 ≤ radiusRobust (1 / 10000000) (fun _ : Fin 1 => 0) (fun _ => 1) (looseConst ![3, 1] 0) 1 := by
  constructor <;> decide +kernel

/-! ### C79: categorical cross-entropy -/

section Cce
variable {X ι κ ν : Type*} [Fintype ι] [Fintype ν] [Nonempty ν]

/-- C79: `categorical_cross_entropy` returns bounds of `-y + log (∑ exp y)`: unconditionally in ibp mode; in hybrid mode outside the
sliver of `exp`; in affine mode when moreover the lower bound of the sum is at least `eps`.
Missing with respect to the full claim: these two cases (C21 refutes `exp` and `log` there); a ball in hybrid mode (`sum` is then called
with a box domain). -/
theorem C79_cce_valid_partial (D Ds : PertDomain X ι ℝ) (m : Mode) (eps : ℝ) (he : 0 < eps) (f : Full X ι (κ × ν) ℝ) (S : Set (ι → ℝ))
    (hD : D.Sound f.x S) (hDs : Ds.Sound f.x S) (p : ι → ℝ) (hp : p ∈ S) (y : κ × ν → ℝ) (v : Valid m false f p y)
    (hs : getAffine m = true → ∀ k, ¬ ((f.tighten D m true true).lc k < (f.tighten D m true true).uc k ∧
      (f.tighten D m true true).uc k - (f.tighten D m true true).lc k < eps))
    (haff : m = .affine → ∀ k, eps ≤ ((sumT Ds m (fun q : κ × ν => q) (expT D m eps f)).tighten D m true true).lc k) :
    Valid m false (catCrossEntropy D Ds m eps f) p (fun k => - y k + Real.log (∑ n, Real.exp (y (k.1, n)))) := by
  have v1 := C21_exp_valid_partial D m eps he f S hD p hp y v hs
  have hx1 : (expT D m eps f).x = f.x := by simp [expT, tighten_x]
  have v2 := C59_sum_valid Ds m (fun q : κ × ν => q) (expT D m eps f) S (by rw [hx1]; exact hDs) p hp _ v1
  have hx2 : (sumT Ds m (fun q : κ × ν => q) (expT D m eps f)).x = f.x := by simp [sumT, tighten_x, hx1]
  have hpos : ∀ k, 0 < ((sumT Ds m (fun q : κ × ν => q) (expT D m eps f)).tighten D m true true).lc k := by
    intro k
    have base : getIbp m = true → 0 < (sumT Ds m (fun q : κ × ν => q) (expT D m eps f)).lc k := by
      intro hi
      simp only [sumT, hi, if_true]
      refine Finset.sum_pos (fun n _ => ?_) Finset.univ_nonempty
      have : 0 < (expT D m eps f).lc (k, n) := by simp only [expT]; exact Real.exp_pos _
      refine this.trans_le ?_
      cases m <;> simp [Full.tighten]
    cases m with
    | affine => exact he.trans_le (haff rfl k)
    | ibp => simpa [Full.tighten] using base rfl
    | hybrid =>
      refine (base rfl).trans_le ?_
      simp [Full.tighten]
  have v3 := C21_log_valid D m eps he _ S (by rw [hx2]; exact hD) p hp _ v2 hpos haff
  have v4 := valid_reindex_raw m false (Prod.fst : κ × ν → κ) _ p _ v3
  have v5 := valid_minus D m false f p y v
  have hx3 : (minusT D m f).x = f.x := by simp [minusT, tighten_x]
  have hx4 : ((logT D m eps (sumT Ds m (fun q : κ × ν => q) (expT D m eps f))).reindex (Prod.fst : κ × ν → κ)).x = f.x := by
    simp [Full.reindex, logT, tighten_x, hx2]
  exact valid_add D m false _ _ S (by rw [hx3]; exact hD) (by rw [hx4]; exact hD) p hp _ _ v5 v4

/-- C79: in ibp mode, unconditionally. -/
theorem C79_cce_ibp (D Ds : PertDomain X ι ℝ) (eps : ℝ) (he : 0 < eps) (f : Full X ι (κ × ν) ℝ) (S : Set (ι → ℝ))
    (hD : D.Sound f.x S) (hDs : Ds.Sound f.x S) (p : ι → ℝ) (hp : p ∈ S) (y : κ × ν → ℝ) (v : Valid .ibp false f p y) (k : κ × ν) :
    (catCrossEntropy D Ds .ibp eps f).lc k ≤ - y k + Real.log (∑ n, Real.exp (y (k.1, n))) ∧
      - y k + Real.log (∑ n, Real.exp (y (k.1, n))) ≤ (catCrossEntropy D Ds .ibp eps f).uc k :=
  (C79_cce_valid_partial D Ds .ibp eps he f S hD hDs p hp y v (by simp [getAffine]) (by simp)).const rfl k

/-- C79 with affine and constant bounds, for the exact constant outputs `(1, 0)`. -/
example (p : Fin 1 → ℝ) (hp : p ∈ Box (fun _ => 0) fun _ => 1) :
    let f : Full ((Fin 1 → ℝ) × (Fin 1 → ℝ)) (Fin 1) (Unit × Fin 2) ℝ :=
      ⟨(fun _ => 0, fun _ => 1), fun k => ![1, 0] k.2, fun _ _ => 0, fun k => ![1, 0] k.2, fun k => ![1, 0] k.2, fun _ _ => 0, fun k => ![1, 0] k.2, fun _ => 0,
        fun _ => 0⟩
    Valid .hybrid false (catCrossEntropy boxDomain boxDomain .hybrid (1 / 10000000) f) p
      fun k => -![1, 0] k.2 + Real.log (∑ n, Real.exp ((![1, 0] : Fin 2 → ℝ) n)) := by
  intro f
  refine C79_cce_valid_partial boxDomain boxDomain .hybrid _ (by norm_num) f (Box (fun _ => 0) fun _ => 1) (boxDomain_sound _ _) (boxDomain_sound _ _) p hp
    (fun k => ![1, 0] k.2) ⟨fun _ k => ⟨le_rfl, le_rfl⟩, fun _ k => by simp [f, affEval], by simp⟩ (fun _ k h => ?_) (fun h => by cases h)
  simp [f, Full.tighten, boxDomain, getUpperBox, getLowerBox] at h

end Cce

/-- Non-vacuity of C79: two classes with outputs `(1, 0)` known up to 1, in ibp mode. -/
example : ∀ k, (catCrossEntropy boxDomain boxDomain .ibp 1 (⟨(fun _ => 0, fun _ => 1), fun k => ![2, 1] k.2, fun _ _ => 0,
      fun _ => 0, fun k => ![0, -1] k.2, fun _ _ => 0, fun _ => 0, fun _ => 0, fun _ => 0⟩ :
      Full ((Fin 1 → ℝ) × (Fin 1 → ℝ)) (Fin 1) (Unit × Fin 2) ℝ)).lc k ≤
    - ![1, 0] k.2 + Real.log (∑ n, Real.exp ((![1, 0] : Fin 2 → ℝ) n)) := by
  intro k
  have v : Valid .ibp false (⟨(fun _ => 0, fun _ => 1), fun k => ![2, 1] k.2, fun _ _ => 0,
      fun _ => 0, fun k => ![0, -1] k.2, fun _ _ => 0, fun _ => 0, fun _ => 0, fun _ => 0⟩ :
      Full ((Fin 1 → ℝ) × (Fin 1 → ℝ)) (Fin 1) (Unit × Fin 2) ℝ) (fun _ => 0) (fun k => ![1, 0] k.2) := by
    refine ⟨fun _ k => ?_, by simp [getAffine], by simp⟩
    obtain ⟨-, k⟩ := k
    fin_cases k <;> norm_num
  have hs := boxDomain_sound (ι := Fin 1) (α := ℝ) (fun _ => 0) (fun _ => 1)
  have hp : (fun _ => 0) ∈ Box (fun _ : Fin 1 => (0 : ℝ)) fun _ => 1 := fun _ => ⟨le_rfl, zero_le_one⟩
  exact (C79_cce_ibp boxDomain boxDomain 1 one_pos _ _ hs hs _ hp _ v k).1

end Decomon
