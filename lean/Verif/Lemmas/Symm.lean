import Verif.SpecSymm
import Verif.Lemmas.Network

/-! Helper lemmas on changes of units. -/

namespace Decomon

section Basic
variable {κ κ' α : Type*} [Field α] [LinearOrder α] [IsStrictOrderedRing α]

/-- One term of a linear layer. -/
theorem image_term {c c' k k' : α} (hc : c ≠ 0) (hc' : c' ≠ 0) (h : k' * c = c' * k) (u l d : α) :
    max 0 k' * (c * (if 0 < c then u else l) + d) + min 0 k' * (c * (if 0 < c then l else u) + d) =
      c' * (if 0 < c' then max 0 k * u + min 0 k * l else max 0 k * l + min 0 k * u) + k' * d := by
  have e : k' = c' * k / c := by rw [← h, mul_div_cancel_right₀ _ hc]
  rcases lt_or_gt_of_ne hc with hc0 | hc0 <;> rcases lt_or_gt_of_ne hc' with hc1 | hc1 <;> rcases le_total 0 k with hk | hk
  · have h1 : 0 ≤ k' := by rw [e]; exact div_nonneg_of_nonpos (mul_nonpos_of_nonpos_of_nonneg hc1.le hk) hc0.le
    rw [if_neg hc0.not_gt, if_neg hc1.not_gt, max_eq_right h1, min_eq_left h1, max_eq_right hk, min_eq_left hk]
    linear_combination l * h
  · have h1 : k' ≤ 0 := by rw [e]; exact div_nonpos_of_nonneg_of_nonpos (mul_nonneg_of_nonpos_of_nonpos hc1.le hk) hc0.le
    rw [if_neg hc0.not_gt, if_neg hc0.not_gt, if_neg hc1.not_gt, max_eq_left h1, min_eq_right h1, max_eq_left hk, min_eq_right hk]
    linear_combination u * h
  · have h1 : k' ≤ 0 := by rw [e]; exact div_nonpos_of_nonneg_of_nonpos (mul_nonneg hc1.le hk) hc0.le
    rw [if_neg hc0.not_gt, if_neg hc0.not_gt, if_pos hc1, max_eq_left h1, min_eq_right h1, max_eq_right hk, min_eq_left hk]
    linear_combination u * h
  · have h1 : 0 ≤ k' := by rw [e]; exact div_nonneg_of_nonpos (mul_nonpos_of_nonneg_of_nonpos hc1.le hk) hc0.le
    rw [if_neg hc0.not_gt, if_pos hc1, max_eq_right h1, min_eq_left h1, max_eq_left hk, min_eq_right hk]
    linear_combination l * h
  · have h1 : k' ≤ 0 := by rw [e]; exact div_nonpos_of_nonpos_of_nonneg (mul_nonpos_of_nonpos_of_nonneg hc1.le hk) hc0.le
    rw [if_pos hc0, if_pos hc0, if_neg hc1.not_gt, max_eq_left h1, min_eq_right h1, max_eq_right hk, min_eq_left hk]
    linear_combination l * h
  · have h1 : 0 ≤ k' := by rw [e]; exact div_nonneg (mul_nonneg_of_nonpos_of_nonpos hc1.le hk) hc0.le
    rw [if_pos hc0, if_neg hc1.not_gt, max_eq_right h1, min_eq_left h1, max_eq_left hk, min_eq_right hk]
    linear_combination u * h
  · have h1 : 0 ≤ k' := by rw [e]; exact div_nonneg (mul_nonneg hc1.le hk) hc0.le
    rw [if_pos hc0, if_pos hc1, max_eq_right h1, min_eq_left h1, max_eq_right hk, min_eq_left hk]
    linear_combination u * h
  · have h1 : k' ≤ 0 := by rw [e]; exact div_nonpos_of_nonpos_of_nonneg (mul_nonpos_of_nonneg_of_nonpos hc1.le hk) hc0.le
    rw [if_pos hc0, if_pos hc0, if_pos hc1, max_eq_left h1, min_eq_right h1, max_eq_left hk, min_eq_right hk]
    linear_combination l * h

theorem image_term' {c c' k k' : α} (hc : c ≠ 0) (hc' : c' ≠ 0) (h : k' * c = c' * k) (u l d : α) :
    max 0 k' * (c * (if 0 < c then l else u) + d) + min 0 k' * (c * (if 0 < c then u else l) + d) =
      c' * (if 0 < c' then max 0 k * l + min 0 k * u else max 0 k * u + min 0 k * l) + k' * d :=
  image_term hc hc' h l u d

/-- The same for a sum of terms. -/
theorem image_sum {T T' : Type*} [Fintype T] [Fintype T'] (e : T ≃ T') (c d k u l : T → α) (c' : α) (k' u' l' : T' → α)
    (hc' : c' ≠ 0) (hk : ∀ t, k' (e t) * c t = c' * k t ∧ c t ≠ 0 ∨ u t = 0 ∧ l t = 0 ∧ c t = 0 ∧ d t = 0)
    (h : ImageBounds e c d u l u' l') (β β' δ : α) (hb : β' + ∑ t, k' (e t) * d t = c' * β + δ) :
    ∑ t, max 0 (k' t) * u' t + ∑ t, min 0 (k' t) * l' t + β' =
      c' * (if 0 < c' then ∑ t, max 0 (k t) * u t + ∑ t, min 0 (k t) * l t + β
        else ∑ t, max 0 (k t) * l t + ∑ t, min 0 (k t) * u t + β) + δ := by
  have e1 : ∑ t, max 0 (k' t) * u' t + ∑ t, min 0 (k' t) * l' t =
      ∑ t, (c' * (if 0 < c' then max 0 (k t) * u t + min 0 (k t) * l t else max 0 (k t) * l t + min 0 (k t) * u t) + k' (e t) * d t) := by
    rw [← Finset.sum_add_distrib, ← Equiv.sum_comp e]
    refine Finset.sum_congr rfl fun t _ => ?_
    rw [(h t).1, (h t).2]
    rcases hk t with ⟨h1, h2⟩ | ⟨h1, h2, h3, h4⟩
    · exact image_term h2 hc' h1 _ _ _
    · simp [h1, h2, h3, h4]
  rw [e1, Finset.sum_add_distrib, ← Finset.mul_sum]
  split_ifs
  · rw [Finset.sum_add_distrib]; linear_combination hb
  · rw [Finset.sum_add_distrib]; linear_combination hb

theorem image_swap {e : κ ≃ κ'} {c d u l : κ → α} {u' l' : κ' → α} (hc : ∀ k, c k ≠ 0) (h : ImageBounds e c d u l u' l') :
    ImageBounds e (fun k => - c k) (fun k => - d k) u l (fun k => - l' k) (fun k => - u' k) := by
  intro k
  dsimp only
  rw [(h k).1, (h k).2]
  rcases lt_or_gt_of_ne (hc k) with h0 | h0
  · simp only [neg_pos, h0, h0.not_gt, if_true, if_false]; constructor <;> ring
  · simp only [neg_pos, h0, h0.not_gt, if_true, if_false]; constructor <;> ring

theorem image_both {e : κ ≃ κ'} {c d u l : κ → α} {u' l' : κ' → α} (h : ImageBounds e c d u l u' l') :
    ImageBounds e c (fun k => - d k) (fun k => - l k) (fun k => - u k) (fun k => - l' k) (fun k => - u' k) := by
  intro k
  dsimp only
  rw [(h k).1, (h k).2]
  split_ifs <;> constructor <;> ring

theorem image_add {e : κ ≃ κ'} {c d d1 u l u1 l1 : κ → α} {u' l' u1' l1' : κ' → α} (h : ImageBounds e c d u l u' l')
    (h1 : ImageBounds e c d1 u1 l1 u1' l1') :
    ImageBounds e c (fun k => d k + d1 k) (fun k => u k + u1 k) (fun k => l k + l1 k) (fun k => u' k + u1' k) fun k => l' k + l1' k := by
  intro k
  simp only [(h k).1, (h k).2, (h1 k).1, (h1 k).2]
  split_ifs <;> constructor <;> ring

theorem mul_max_nonpos {c : α} (hc : c ≤ 0) (x y : α) : c * max x y = min (c * x) (c * y) := by
  rcases le_total x y with h | h
  · rw [max_eq_right h, min_eq_right (mul_le_mul_of_nonpos_left h hc)]
  · rw [max_eq_left h, min_eq_left (mul_le_mul_of_nonpos_left h hc)]

theorem mul_min_nonpos {c : α} (hc : c ≤ 0) (x y : α) : c * min x y = max (c * x) (c * y) := by
  rcases le_total x y with h | h
  · rw [min_eq_left h, max_eq_left (mul_le_mul_of_nonpos_left h hc)]
  · rw [min_eq_right h, max_eq_right (mul_le_mul_of_nonpos_left h hc)]

theorem image_minmax {e : κ ≃ κ'} {c d u l u1 l1 : κ → α} {u' l' u1' l1' : κ' → α} (hc : ∀ k, c k ≠ 0)
    (h : ImageBounds e c d u l u' l') (h1 : ImageBounds e c d u1 l1 u1' l1') :
    ImageBounds e c d (fun k => min (u k) (u1 k)) (fun k => max (l k) (l1 k)) (fun k => min (u' k) (u1' k))
      fun k => max (l' k) (l1' k) := by
  intro k
  simp only [(h k).1, (h k).2, (h1 k).1, (h1 k).2, min_add_add_right, max_add_add_right]
  rcases lt_or_gt_of_ne (hc k) with h0 | h0
  · rw [if_neg h0.not_gt, if_neg h0.not_gt, if_neg h0.not_gt, if_neg h0.not_gt, if_neg h0.not_gt, if_neg h0.not_gt,
      mul_max_nonpos h0.le, mul_min_nonpos h0.le]
    exact ⟨rfl, rfl⟩
  · simp only [if_pos h0]
    rw [mul_max_of_nonneg _ _ h0.le, mul_min_of_nonneg _ _ h0.le]
    exact ⟨rfl, rfl⟩

end Basic

section Full
variable {X X' ι ι' κ κ' α : Type*} [Fintype ι] [Fintype ι'] [Field α] [LinearOrder α] [IsStrictOrderedRing α]

/-- The values at `z` of the affine upper bounds. -/
def Full.evalU (f : Full X ι κ α) (z : ι → α) (k : κ) : α := affEval (fun i => f.wu i k) (f.bu k) z

/-- The values at `z` of the affine lower bounds. -/
def Full.evalL (f : Full X ι κ α) (z : ι → α) (k : κ) : α := affEval (fun i => f.wl i k) (f.bl k) z

/-- The concretisations of two domains correspond: an affine form over the new domain that is the image of one over the old domain has the
image of its bounds. -/
def DomImage (D : PertDomain X ι α) (x : X) (D' : PertDomain X' ι' α) (x' : X') (T : (ι → α) → ι' → α) : Prop :=
  ∀ (c d : α), c ≠ 0 → ∀ (wu wl : ι → α) (bu bl : α) (wu' wl' : ι' → α) (bu' bl' : α),
    (∀ z, affEval wu' bu' (T z) = c * (if 0 < c then affEval wu bu z else affEval wl bl z) + d) →
    (∀ z, affEval wl' bl' (T z) = c * (if 0 < c then affEval wl bl z else affEval wu bu z) + d) →
    D'.getUpper x' wu' bu' = c * (if 0 < c then D.getUpper x wu bu else D.getLower x wl bl) + d ∧
    D'.getLower x' wl' bl' = c * (if 0 < c then D.getLower x wl bl else D.getUpper x wu bu) + d

/-- The tensors `f'` are the image of the tensors `f`. -/
structure ImageFull (D : PertDomain X ι α) (D' : PertDomain X' ι' α) (m : Mode) (T : (ι → α) → ι' → α) (e : κ ≃ κ') (c d : κ → α)
    (f : Full X ι κ α) (f' : Full X' ι' κ' α) : Prop where
  ne : ∀ k, c k ≠ 0
  dom : DomImage D f.x D' f'.x T
  const : getIbp m = true → ImageBounds e c d f.uc f.lc f'.uc f'.lc
  aff : getAffine m = true → ∀ z, ImageBounds e c d (f.evalU z) (f.evalL z) (f'.evalU (T z)) (f'.evalL (T z))

variable {D : PertDomain X ι α} {D' : PertDomain X' ι' α} {m : Mode} {T : (ι → α) → ι' → α} {e : κ ≃ κ'} {c d : κ → α}
  {f : Full X ι κ α} {f' : Full X' ι' κ' α}

omit [IsStrictOrderedRing α] in
theorem ImageFull.concrete (h : ImageFull D D' m T e c d f f') (ha : getAffine m = true) :
    ImageBounds e c d (fun k => D.getUpper f.x (fun i => f.wu i k) (f.bu k)) (fun k => D.getLower f.x (fun i => f.wl i k) (f.bl k))
      (fun k => D'.getUpper f'.x (fun i => f'.wu i k) (f'.bu k)) (fun k => D'.getLower f'.x (fun i => f'.wl i k) (f'.bl k)) := fun k =>
  h.dom (c k) (d k) (h.ne k) _ _ _ _ _ _ _ _ (fun z => (h.aff ha z k).1) fun z => (h.aff ha z k).2

/-- The tightening of the constant bounds. -/
theorem ImageFull.tighten (h : ImageFull D D' m T e c d f f') (b1 b2 : Bool) :
    ImageFull D D' m T e c d (f.tighten D m b1 b2) (f'.tighten D' m b1 b2) := by
  cases m with
  | ibp => simpa [Full.tighten] using h
  | affine =>
    have hc := h.concrete rfl
    cases b1 with
    | false => simpa [Full.tighten] using h
    | true => exact ⟨h.ne, h.dom, fun hi => by simp [getIbp] at hi, h.aff⟩
  | hybrid =>
    have hc := h.concrete rfl
    cases b2 with
    | false => cases b1 <;> simpa [Full.tighten] using h
    | true =>
      have h1 := image_minmax h.ne (h.const rfl) hc
      cases b1 <;> exact ⟨h.ne, h.dom, fun _ => h1, h.aff⟩

/-- The constant bounds that the activations read. -/
theorem ImageFull.tight_const (h : ImageFull D D' m T e c d f f') :
    ImageBounds e c d (f.tighten D m true true).uc (f.tighten D m true true).lc (f'.tighten D' m true true).uc
      (f'.tighten D' m true true).lc := by
  cases m with
  | ibp => simpa [Full.tighten] using h.const rfl
  | affine => exact h.concrete rfl
  | hybrid => exact image_minmax h.ne (h.const rfl) (h.concrete rfl)

theorem ImageFull.minus (h : ImageFull D D' m T e c d f f') :
    ImageFull D D' m T e c (fun k => - d k) (minusT D m f) (minusT D' m f') := by
  have h := h.tighten false false
  refine ⟨h.ne, h.dom, fun hi => image_both (h.const hi), fun ha z k => ?_⟩
  have := image_both (h.aff ha z) k
  simpa only [Full.evalU, Full.evalL, minusT, affEval_neg] using this

omit [Fintype ι] [IsStrictOrderedRing α] [Field α] in
theorem tighten_none (D : PertDomain X ι α) (m : Mode) (f : Full X ι κ α) : f.tighten D m false false = f := by
  cases m <;> rfl

theorem ImageFull.minus_right (h : ImageFull D D' m T e c d f f') :
    ImageFull D D' m T e (fun k => - c k) (fun k => - d k) f (minusT D' m f') := by
  refine ⟨fun k => neg_ne_zero.2 (h.ne k), by simpa only [minusT, tighten_none] using h.dom, fun hi => ?_, fun ha z k => ?_⟩
  · have := image_swap h.ne (h.const hi)
    simpa only [minusT, tighten_none] using this
  · have := image_swap h.ne (h.aff ha z) k
    simpa only [Full.evalU, Full.evalL, minusT, affEval_neg, tighten_none] using this

theorem ImageFull.add {d1 : κ → α} {f1 : Full X ι κ α} {f1' : Full X' ι' κ' α} (h : ImageFull D D' m T e c d f f')
    (h1 : ImageFull D D' m T e c d1 f1 f1') :
    ImageFull D D' m T e c (fun k => d k + d1 k) (addT D m f f1) (addT D' m f' f1') := by
  have h := h.tighten true true
  have h1 := h1.tighten true true
  refine ⟨h.ne, h.dom, fun hi => image_add (h.const hi) (h1.const hi), fun ha z k => ?_⟩
  have := image_add (h.aff ha z) (h1.aff ha z) k
  simpa only [Full.evalU, Full.evalL, addT, affEval_add] using this

theorem ImageFull.sub {d1 : κ → α} {f1 : Full X ι κ α} {f1' : Full X' ι' κ' α} (h : ImageFull D D' m T e c d f f')
    (h1 : ImageFull D D' m T e c d1 f1 f1') :
    ImageFull D D' m T e c (fun k => d k - d1 k) (subtractT D m f f1) (subtractT D' m f' f1') := by
  simpa only [sub_eq_add_neg, subtractT] using h.add h1.minus

theorem ksign_mul {c : α} (hc : 0 < c) (x : α) : ksign (c * x) = ksign x := by
  unfold ksign
  rcases lt_trichotomy x 0 with h | h | h
  · rw [if_pos h, if_pos (mul_neg_of_pos_of_neg hc h)]
  · simp [h]
  · rw [if_neg h.not_gt, if_neg h.ne', if_neg (mul_pos hc h).not_gt, if_neg (mul_pos hc h).ne']

theorem relu_mul {c : α} (hc : 0 < c) (x : α) : relu (c * x) = c * relu x := by
  unfold relu
  rw [mul_max_of_nonneg _ _ hc.le, mul_zero]

/-- The hull of a neuron that is not in the sliver does not depend on the guard. -/
theorem hullRelu_scale {eps c u l : α} (slope : Slope) (g : α) (hc : 0 < c)
    (h : c = 1 ∨ ¬ (l < 0 ∧ 0 < u ∧ u - l < eps) ∧ ¬ (c * l < 0 ∧ 0 < c * u ∧ c * u - c * l < eps)) :
    linearHullRelu eps slope g (c * u) (c * l) =
      ⟨(linearHullRelu eps slope g u l).wu, c * (linearHullRelu eps slope g u l).bu, (linearHullRelu eps slope g u l).wl,
        c * (linearHullRelu eps slope g u l).bl⟩ := by
  rcases h with rfl | ⟨h1, h2⟩
  · simp
  have hd : indexDead (c * u) = indexDead u := by simp only [indexDead, ksign_mul hc]
  have hl : indexLinear (c * l) = indexLinear l := by simp only [indexLinear, ksign_mul hc]
  rcases le_or_gt u 0 with hu | hu
  · have e : indexDead u = 1 := by
      unfold indexDead ksign kclip
      rcases hu.lt_or_eq with h | h
      · simp [h]
      · simp [h]
    simp only [linearHullRelu, hd, hl, e, sub_self, zero_mul, mul_zero, zero_add]
  rcases le_or_gt 0 l with hl0 | hl0
  · have e : indexLinear l = 1 := by
      unfold indexLinear ksign kclip
      rcases hl0.lt_or_eq with h | h
      · simp [h.not_gt, h.ne']
      · simp [← h]
    simp only [linearHullRelu, hd, hl, e, sub_self, zero_mul, mul_zero, zero_add]
  · have g1 : eps ≤ u - l := not_lt.1 fun h => h1 ⟨hl0, hu, h⟩
    have g2 : eps ≤ c * u - c * l := not_lt.1 fun h => h2 ⟨mul_neg_of_pos_of_neg hc hl0, mul_pos hc hu, h⟩
    have hne : u - l ≠ 0 := by linarith
    have r1 : Decomon.relu l = 0 := max_eq_right hl0.le
    have r2 : Decomon.relu (c * l) = 0 := max_eq_right (mul_neg_of_pos_of_neg hc hl0).le
    have ea : (Decomon.relu (c * u) - 0) / max eps (c * u - c * l) = (Decomon.relu u - 0) / max eps (u - l) := by
      rw [max_eq_right g1, max_eq_right g2, relu_mul hc, sub_zero, sub_zero, ← mul_sub, mul_div_mul_left _ _ hc.ne']
    have es : ksign (c * u + c * l) = ksign (u + l) := by rw [← mul_add, ksign_mul hc]
    cases slope <;> simp only [linearHullRelu, hd, hl, r1, r2, ea, es] <;> congr 1 <;> ring

theorem evalU_relu (D : PertDomain X ι α) (ha : getAffine m = true) (eps : α) (slope : Slope) (f : Full X ι κ α)
    (g : κ → α) (z : ι → α) (k : κ) :
    (reluT D m false eps slope g f).evalU z k =
      (linearHullRelu eps slope (g k) ((f.tighten D m true true).uc k) ((f.tighten D m true true).lc k)).wu *
        (f.tighten D m true true).evalU z k +
      (linearHullRelu eps slope (g k) ((f.tighten D m true true).uc k) ((f.tighten D m true true).lc k)).bu := by
  simp only [Full.evalU, reluT, ha, if_true, affEval_add_const, affEval_smul]

theorem evalL_relu (D : PertDomain X ι α) (ha : getAffine m = true) (eps : α) (slope : Slope) (f : Full X ι κ α)
    (g : κ → α) (z : ι → α) (k : κ) :
    (reluT D m false eps slope g f).evalL z k =
      (linearHullRelu eps slope (g k) ((f.tighten D m true true).uc k) ((f.tighten D m true true).lc k)).wl *
        (f.tighten D m true true).evalL z k +
      (linearHullRelu eps slope (g k) ((f.tighten D m true true).uc k) ((f.tighten D m true true).lc k)).bl := by
  simp only [Full.evalL, reluT, ha, if_true, affEval_add_const, affEval_smul]

/-- ReLU. -/
theorem ImageFull.reluAct {eps : α} {slope : Slope} {g : κ → α} {g' : κ' → α} (h : ImageFull D D' m T e c (fun _ => 0) f f')
    (hc : ∀ k, 0 < c k) (hg : ∀ k, g' (e k) = g k)
    (hx : (∀ k, c k = 1) ∨ SliverFree D m eps f ∧ SliverFree D' m eps f') :
    ImageFull D D' m T e c (fun _ => 0) (reluT D m false eps slope g f) (reluT D' m false eps slope g' f') := by
  have ht := h.tight_const
  have h := h.tighten true true
  refine ⟨h.ne, h.dom, fun hi k => ?_, fun ha z k => ?_⟩
  · simp only [reluT, hi, if_true, (ht k).1, (ht k).2, if_pos (hc k), add_zero, relu_mul (hc k), and_self]
  · have hz := h.aff ha z k
    rw [if_pos (hc k), if_pos (hc k)] at hz
    have hk := ht k
    rw [if_pos (hc k), if_pos (hc k), add_zero, add_zero] at hk
    have hh := hullRelu_scale (eps := eps) slope (g k) (hc k) (u := (f.tighten D m true true).uc k) (l := (f.tighten D m true true).lc k)
      (hx.imp (fun h => h k) fun ⟨h1, h2⟩ => ⟨h1 ha k, by have := h2 ha (e k); rwa [hk.1, hk.2] at this⟩)
    simp only [if_pos (hc k)]
    rw [evalU_relu _ ha, evalU_relu _ ha, evalL_relu _ ha, evalL_relu _ ha, hg, hk.1, hk.2, hh, hz.1, hz.2]
    constructor <;> ring

/-- Maximum. -/
theorem ImageFull.maximum {eps : α} {f1 : Full X ι κ α} {f1' : Full X' ι' κ' α} (h : ImageFull D D' m T e c d f f')
    (h1 : ImageFull D D' m T e c d f1 f1') (hc : ∀ k, 0 < c k)
    (hx : (∀ k, c k = 1) ∨ SliverFree D m eps (subtractT D m f1 f) ∧ SliverFree D' m eps (subtractT D' m f1' f')) :
    ImageFull D D' m T e c d (maximumT D m false eps (fun _ => 1) f f1) (maximumT D' m false eps (fun _ => 1) f' f1') := by
  have hs := h1.sub h
  simp only [sub_self] at hs
  have := (hs.reluAct (eps := eps) (slope := .vSlope) (g := fun _ => 1) (g' := fun _ => 1) hc (fun _ => rfl) hx).add h
  simp only [zero_add] at this
  exact this

theorem ImageFull.minimum {eps : α} {f1 : Full X ι κ α} {f1' : Full X' ι' κ' α} (h : ImageFull D D' m T e c d f f')
    (h1 : ImageFull D D' m T e c d f1 f1') (hc : ∀ k, 0 < c k)
    (hx : (∀ k, c k = 1) ∨ SliverFree D m eps (subtractT D m (minusT D m f1) (minusT D m f)) ∧
      SliverFree D' m eps (subtractT D' m (minusT D' m f1') (minusT D' m f'))) :
    ImageFull D D' m T e c d (minimumT D m false eps (fun _ => 1) f f1) (minimumT D' m false eps (fun _ => 1) f' f1') := by
  have := (h.minus.maximum (eps := eps) h1.minus hc hx).minus
  simp only [neg_neg] at this
  exact this

theorem ImageFull.maxMin {eps : α} {f1 : Full X ι κ α} {f1' : Full X' ι' κ' α} (h : ImageFull D D' m T e c d f f')
    (h1 : ImageFull D D' m T e c d f1 f1') (hc : ∀ k, c k < 0)
    (hx : (∀ k, c k = -1) ∨ SliverFree D m eps (subtractT D m f1 f) ∧
      SliverFree D' m eps (subtractT D' m (minusT D' m f1') (minusT D' m f'))) :
    ImageFull D D' m T e c d (maximumT D m false eps (fun _ => 1) f f1) (minimumT D' m false eps (fun _ => 1) f' f1') := by
  have := (h.minus_right.maximum (eps := eps) h1.minus_right (fun k => neg_pos.2 (hc k))
    (hx.imp (fun h k => by rw [h k, neg_neg]) id)).minus_right
  simp only [neg_neg] at this
  exact this

theorem ImageFull.dense {n n' μ μ' : Type*} [Fintype n] [Fintype n'] {e : n ≃ n'} {c d : n → α} {f : Full X ι n α} {f' : Full X' ι' n' α}
    (h : ImageFull D D' m T e c d f f') (e' : μ ≃ μ') (c' d' : μ → α) (hc : ∀ j, c' j ≠ 0) (K : n → μ → α) (b : μ → α)
    (K' : n' → μ' → α) (b' : μ' → α) (hK : ∀ i j, K' (e i) (e' j) * c i = c' j * K i j)
    (hb : ∀ j, b' (e' j) + ∑ i, K' (e i) (e' j) * d i = c' j * b j + d' j) :
    ImageFull D D' m T e' c' d' (denseT D m false K b f) (denseT D' m false K' b' f') := by
  have h := h.tighten false true
  have key : ∀ (u l : n → α) (u' l' : n' → α), ImageBounds e c d u l u' l' →
      ImageBounds e' c' d' (fun j => ∑ t, max 0 (K t j) * u t + ∑ t, min 0 (K t j) * l t + b j)
        (fun j => ∑ t, max 0 (K t j) * l t + ∑ t, min 0 (K t j) * u t + b j)
        (fun j => ∑ t, max 0 (K' t j) * u' t + ∑ t, min 0 (K' t j) * l' t + b' j)
        (fun j => ∑ t, max 0 (K' t j) * l' t + ∑ t, min 0 (K' t j) * u' t + b' j) := fun u l u' l' hi j =>
    ⟨image_sum e c d (fun t => K t j) u l (c' j) (fun t => K' t (e' j)) u' l' (hc j) (fun t => .inl ⟨hK t j, h.ne t⟩) hi _ _ _ (hb j),
      image_sum e c d (fun t => K t j) l u (c' j) (fun t => K' t (e' j)) l' u' (hc j) (fun t => .inl ⟨hK t j, h.ne t⟩)
        (fun k => (hi k).symm) _ _ _ (hb j)⟩
  refine ⟨hc, h.dom, fun hi => ?_, fun ha z j => ?_⟩
  · simpa only [denseT, hi, if_true] using key _ _ _ _ (h.const hi)
  · have := key _ _ _ _ (h.aff ha z) j
    simpa only [Full.evalU, Full.evalL, denseT, ha, if_true, taps_aff] using this

theorem ImageFull.linear {S S' O O' U U' Q Q' : Type*} [Fintype U] [Fintype U'] {e : S ≃ S'} {c d : S → α} {f : Full X ι S α}
    {f' : Full X' ι' S' α} (h : ImageFull D D' m T e c d f f') (e' : O ≃ O') (c' d' : O → α) (hc : ∀ j, c' j ≠ 0)
    (L : LinIndex S O U Q) (K : Q → α) (b : O → α) (L' : LinIndex S' O' U' Q') (K' : Q' → α) (b' : O' → α) (taps : O → U ≃ U')
    (hsrc : ∀ o t, L'.src (e' o) (taps o t) = (L.src o t).map e)
    (hK : ∀ o t r, L.src o t = some r → K' (L'.kidx (e' o) (taps o t)) * c r = c' o * K (L.kidx o t))
    (hb : ∀ o, b' (e' o) + ∑ t, K' (L'.kidx (e' o) (taps o t)) * (L.src o t).elim 0 d = c' o * b o + d' o) :
    ImageFull D D' m T e' c' d' (linearLayerT D m false L K b f) (linearLayerT D' m false L' K' b' f') := by
  have h := h.tighten false true
  have key : ∀ (u l : S → α) (u' l' : S' → α), ImageBounds e c d u l u' l' → ∀ o,
      (∑ t, max 0 (K' (L'.kidx (e' o) t)) * (L'.src (e' o) t).elim 0 u' + ∑ t, min 0 (K' (L'.kidx (e' o) t)) * (L'.src (e' o) t).elim 0 l'
        + b' (e' o) =
      c' o * (if 0 < c' o then ∑ t, max 0 (K (L.kidx o t)) * (L.src o t).elim 0 u + ∑ t, min 0 (K (L.kidx o t)) * (L.src o t).elim 0 l + b o
        else ∑ t, max 0 (K (L.kidx o t)) * (L.src o t).elim 0 l + ∑ t, min 0 (K (L.kidx o t)) * (L.src o t).elim 0 u + b o) + d' o) := by
    intro u l u' l' hi o
    refine image_sum (taps o) (fun t => (L.src o t).elim 0 c) (fun t => (L.src o t).elim 0 d) (fun t => K (L.kidx o t))
      (fun t => (L.src o t).elim 0 u) (fun t => (L.src o t).elim 0 l) (c' o) (fun t => K' (L'.kidx (e' o) t))
      (fun t => (L'.src (e' o) t).elim 0 u') (fun t => (L'.src (e' o) t).elim 0 l') (hc o) (fun t => ?_) (fun t => ?_) _ _ _ (hb o)
    · cases hs : L.src o t with
      | none => right; simp
      | some r => left; exact ⟨hK o t r hs, h.ne r⟩
    · simp only [hsrc]
      cases L.src o t with
      | none => simp
      | some r => exact hi r
  refine ⟨hc, h.dom, fun hi o => ?_, fun ha z o => ?_⟩
  · have h1 := key _ _ _ _ (h.const hi) o
    have h2 := key _ _ _ _ (fun k => (h.const hi k).symm) o
    simp only [linearLayerT, hi, if_true, LinIndex.apply]
    exact ⟨h1, h2⟩
  · have h1 := key _ _ _ _ (h.aff ha z) o
    have h2 := key _ _ _ _ (fun k => (h.aff ha z k).symm) o
    simp only [Full.evalU, Full.evalL, linearLayerT, ha, if_true, LinIndex.apply, taps_aff, affEval_elim]
    exact ⟨h1, h2⟩

omit [LinearOrder α] [IsStrictOrderedRing α] in
theorem affEval_norm (g1 g2 s μ b : α) (w v : ι → α) (bw bv : α) (z : ι → α) :
    affEval (fun i => g1 * (w i / s) + g2 * (v i / s)) (g1 * ((bw - μ) / s) + g2 * ((bv - μ) / s) + b) z =
      g1 * ((affEval w bw z - μ) / s) + g2 * ((affEval v bv z - μ) / s) + b := by
  simp only [affEval, add_mul, Finset.sum_add_distrib]
  have : ∀ (g : α) (w : ι → α), ∑ i, g * (w i / s) * z i = g * ((∑ i, w i * z i) / s) := by
    intro g w
    rw [Finset.sum_div, Finset.mul_sum]
    exact Finset.sum_congr rfl fun i _ => by ring
  rw [this, this]; ring

theorem ImageFull.batchNorm (h : ImageFull D D' m T e c d f f') (c' d' : κ → α) (hc : ∀ j, c' j ≠ 0)
    (gamma beta mean sd : κ → α) (gamma' beta' mean' sd' : κ' → α) (hsd : ∀ k, 0 < sd k) (hsd' : ∀ k, 0 < sd' k)
    (hw : ∀ k, gamma' (e k) / sd' (e k) * c k = c' k * (gamma k / sd k))
    (hb : ∀ k, gamma' (e k) / sd' (e k) * (d k - mean' (e k)) + beta' (e k) = c' k * (beta k - gamma k / sd k * mean k) + d' k) :
    ImageFull D D' m T e c' d' (batchNormT D m gamma beta mean sd f) (batchNormT D' m gamma' beta' mean' sd' f') := by
  have h := h.tighten false true
  have pos : ∀ {g s : α}, 0 < s → max 0 (g / s) = max 0 g / s ∧ min 0 (g / s) = min 0 g / s := by
    intro g s hs
    rcases le_total 0 g with hg | hg
    · rw [max_eq_right hg, min_eq_left hg, max_eq_right (div_nonneg hg hs.le), min_eq_left (div_nonneg hg hs.le), zero_div]
      exact ⟨rfl, rfl⟩
    · rw [max_eq_left hg, min_eq_right hg, max_eq_left (div_nonpos_of_nonpos_of_nonneg hg hs.le),
        min_eq_right (div_nonpos_of_nonpos_of_nonneg hg hs.le), zero_div]
      exact ⟨rfl, rfl⟩
  have key : ∀ (u l : κ → α) (u' l' : κ' → α), ImageBounds e c d u l u' l' → ∀ k,
      max 0 (gamma' (e k)) * ((u' (e k) - mean' (e k)) / sd' (e k)) + min 0 (gamma' (e k)) * ((l' (e k) - mean' (e k)) / sd' (e k)) + beta' (e k) =
      c' k * (if 0 < c' k then max 0 (gamma k) * ((u k - mean k) / sd k) + min 0 (gamma k) * ((l k - mean k) / sd k) + beta k
        else max 0 (gamma k) * ((l k - mean k) / sd k) + min 0 (gamma k) * ((u k - mean k) / sd k) + beta k) + d' k := by
    intro u l u' l' hi k
    have h1 := image_term (h.ne k) (hc k) (hw k) (u k) (l k) (d k)
    rw [← (hi k).1, ← (hi k).2, (pos (hsd' _)).1, (pos (hsd' _)).2, (pos (hsd _)).1, (pos (hsd _)).2] at h1
    have h2 : ∀ g : α, max 0 g + min 0 g = g := fun g => by rw [max_comm, min_comm, pos_add_neg]
    have h3 := h2 (gamma' (e k))
    have h4 := h2 (gamma k)
    have h5 := hb k
    have e1 : ∀ x y μ g1 g2 s b : α, g1 * ((x - μ) / s) + g2 * ((y - μ) / s) + b = (g1 / s * x + g2 / s * y) - (g1 + g2) / s * μ + b := by
      intros; ring
    simp only [e1, h3, h4, h1]
    split_ifs <;> linear_combination h5
  refine ⟨hc, h.dom, fun hi k => ?_, fun ha z k => ?_⟩
  · simp only [batchNormT, hi, if_true]
    exact ⟨key _ _ _ _ (h.const hi) k, key _ _ _ _ (fun k => (h.const hi k).symm) k⟩
  · have h1 := key _ _ _ _ (h.aff ha z) k
    have h2 := key _ _ _ _ (fun k => (h.aff ha z k).symm) k
    simp only [Full.evalU, Full.evalL, batchNormT, ha, if_true, affEval_norm]
    exact ⟨h1, h2⟩

theorem ImageFull.reindex {μ μ' : Type*} (h : ImageFull D D' m T e c d f f') (e' : μ ≃ μ') (r : μ → κ) (r' : μ' → κ')
    (hr : ∀ k, r' (e' k) = e (r k)) :
    ImageFull D D' m T e' (fun k => c (r k)) (fun k => d (r k)) (reindexT D m false r f) (reindexT D' m false r' f') := by
  have h := h.tighten false true
  refine ⟨fun k => h.ne _, h.dom, fun hi k => ?_, fun ha z k => ?_⟩
  · simp only [reindexT, hi, if_true, hr]
    exact h.const hi (r k)
  · simp only [Full.evalU, Full.evalL, reindexT, ha, if_true, hr]
    exact h.aff ha z (r k)

theorem ImageFull.addLayer {d1 : κ → α} {f1 : Full X ι κ α} {f1' : Full X' ι' κ' α} (h : ImageFull D D' m T e c d f f')
    (h1 : ImageFull D D' m T e c d1 f1 f1') :
    ImageFull D D' m T e c (fun k => d k + d1 k) (addLayerT D m f [f1]) (addLayerT D' m f' [f1']) := by
  have hx := h.dom
  have h := h.tighten false true
  have h1 := h1.tighten false true
  refine ⟨h.ne, hx, fun hi => ?_, fun ha z k => ?_⟩
  · simpa [addLayerT, hi] using image_add (h.const hi) (h1.const hi)
  · have := image_add (h.aff ha z) (h1.aff ha z) k
    simpa [Full.evalU, Full.evalL, addLayerT, ha, affEval_add] using this

theorem ImageFull.averageLayer {d1 : κ → α} {f1 : Full X ι κ α} {f1' : Full X' ι' κ' α} (h : ImageFull D D' m T e c d f f')
    (h1 : ImageFull D D' m T e c d1 f1 f1') :
    ImageFull D D' m T e c (fun k => (d k + d1 k) / 2) (averageLayerT D m f [f1]) (averageLayerT D' m f' [f1']) := by
  have hx := h.dom
  have h := h.tighten false true
  have h1 := h1.tighten false true
  have key : ∀ {u l : κ → α} {u' l' : κ' → α} {d : κ → α}, ImageBounds e c d u l u' l' →
      ImageBounds e c (fun k => d k / 2) (fun k => u k / 2) (fun k => l k / 2) (fun k => u' k / 2) fun k => l' k / 2 := by
    intro u l u' l' d hi k
    dsimp only
    rw [(hi k).1, (hi k).2]
    split_ifs <;> constructor <;> ring
  refine ⟨h.ne, hx, fun hi => ?_, fun ha z k => ?_⟩
  · have := key (image_add (h.const hi) (h1.const hi))
    simpa [averageLayerT, hi] using this
  · have := key (image_add (h.aff ha z) (h1.aff ha z)) k
    simpa [Full.evalU, Full.evalL, averageLayerT, ha, affEval_add, affEval_div] using this

theorem ImageFull.mul {c1 : κ → α} {f1 : Full X ι κ α} {f1' : Full X' ι' κ' α} (h : ImageFull D D' m T e c (fun _ => 0) f f')
    (h1 : ImageFull D D' m T e c1 (fun _ => 0) f1 f1') (hc : ∀ k, 0 < c k) (hc1 : ∀ k, 0 < c1 k) :
    ImageFull D D' m T e (fun k => c k * c1 k) (fun _ => 0) (multiplyT D m f f1) (multiplyT D' m f' f1') := by
  have t := h.tight_const
  have t1 := h1.tight_const
  have h := h.tighten true true
  have h1 := h1.tighten true true
  refine ⟨fun k => (mul_pos (hc k) (hc1 k)).ne', h.dom, fun hi k => ?_, fun ha z k => ?_⟩
  · have p := mul_pos (hc k) (hc1 k)
    have q := fun x y : α => show c k * x * (c1 k * y) = (c k * c1 k) * (x * y) by ring
    have q' := fun x y : α => show c1 k * x * (c k * y) = (c k * c1 k) * (x * y) by ring
    simp only [multiplyT, hi, if_true, (t k).1, (t k).2, (t1 k).1, (t1 k).2, if_pos (hc k), if_pos (hc1 k), if_pos p, add_zero, q, q',
      ← mul_max_of_nonneg _ _ p.le, ← mul_min_of_nonneg _ _ p.le, ← mul_add, ← mul_sub, and_self]
  · have p := mul_pos (hc k) (hc1 k)
    have a := h.aff ha z k
    have a1 := h1.aff ha z k
    rw [if_pos (hc k), if_pos (hc k), add_zero, add_zero] at a
    rw [if_pos (hc1 k), if_pos (hc1 k), add_zero, add_zero] at a1
    simp only [Full.evalU, Full.evalL] at a a1
    have g : ∀ x : α, max (c k * x) 0 = c k * max x 0 ∧ min (c k * x) 0 = c k * min x 0 := fun x => by
      rw [mul_max_of_nonneg _ _ (hc k).le, mul_min_of_nonneg _ _ (hc k).le, mul_zero]; exact ⟨rfl, rfl⟩
    have g1 : ∀ x : α, max (c1 k * x) 0 = c1 k * max x 0 ∧ min (c1 k * x) 0 = c1 k * min x 0 := fun x => by
      rw [mul_max_of_nonneg _ _ (hc1 k).le, mul_min_of_nonneg _ _ (hc1 k).le, mul_zero]; exact ⟨rfl, rfl⟩
    simp only [Full.evalU, Full.evalL, multiplyT, ha, if_true, affEval_comb4, a.1, a.2, a1.1, a1.2, (t k).1, (t k).2, (t1 k).1, (t1 k).2,
      if_pos (hc k), if_pos (hc1 k), if_pos p, add_zero, (g _).1, (g _).2, (g1 _).1, (g1 _).2]
    constructor <;> ring

end Full

/-! ### Domains -/

section Domains
variable {ι ι' α : Type*} [Fintype ι] [Fintype ι'] [Field α] [LinearOrder α] [IsStrictOrderedRing α]

omit [LinearOrder α] [IsStrictOrderedRing α] in
/-- The coefficients of an affine form are determined by its values. -/
theorem affEval_inj {w w' : ι → α} {b b' : α} (h : ∀ z, affEval w b z = affEval w' b' z) : w = w' ∧ b = b' := by
  classical
  have h0 : b = b' := by simpa [affEval] using h fun _ => 0
  refine ⟨funext fun i => ?_, h0⟩
  have := h fun j => if j = i then 1 else 0
  simpa [affEval, h0] using this

omit [LinearOrder α] [IsStrictOrderedRing α] in
theorem affEval_image (s : ι ≃ ι') (a t : ι → α) (w' : ι' → α) (b' : α) (z : ι → α) :
    affEval w' b' (imagePoint s a t z) = affEval (fun i => w' (s i) * a i) (b' + ∑ i, w' (s i) * t i) z := by
  simp only [affEval, imagePoint]
  rw [← Equiv.sum_comp s]
  simp only [Equiv.symm_apply_apply, mul_add, Finset.sum_add_distrib]
  rw [show (∑ i, w' (s i) * (a i * z i)) = ∑ i, w' (s i) * a i * z i from Finset.sum_congr rfl fun i _ => by ring]
  ring

/-- The coefficients of an affine form that is the image of another one. -/
theorem image_coeff {s : ι ≃ ι'} {a t : ι → α} {w' : ι' → α} {b' c d : α} {w : ι → α} {b : α}
    (h : ∀ z, affEval w' b' (imagePoint s a t z) = c * affEval w b z + d) :
    (∀ i, w' (s i) * a i = c * w i) ∧ b' + ∑ i, w' (s i) * t i = c * b + d := by
  have := affEval_inj (w := fun i => w' (s i) * a i) (b := b' + ∑ i, w' (s i) * t i) (w' := fun i => c * w i) (b' := c * b + d)
    fun z => by rw [← affEval_image, h, affEval_add_const, affEval_smul]
  exact ⟨fun i => congrFun this.1 i, this.2⟩

/-- Boxes. -/
theorem domImage_box (s : ι ≃ ι') (a t : ι → α) (ha : ∀ i, a i ≠ 0) (xmin xmax : ι → α) (xmin' xmax' : ι' → α)
    (h : ImageBounds s a t xmax xmin xmax' xmin') :
    DomImage boxDomain (xmin, xmax) boxDomain (xmin', xmax') (imagePoint s a t) := by
  have up : ∀ (w : ι → α) (w' : ι' → α) (b b' c d : α), c ≠ 0 → (∀ i, w' (s i) * a i = c * w i) →
      b' + ∑ i, w' (s i) * t i = c * b + d → getUpperBox xmin' xmax' w' b' =
        c * (if 0 < c then getUpperBox xmin xmax w b else getLowerBox xmin xmax w b) + d := by
    intro w w' b b' c d hc h1 h2
    have := image_sum s a t w xmax xmin c w' xmax' xmin' hc (fun i => .inl ⟨h1 i, ha i⟩) h b b' d h2
    simpa only [getUpperBox, getLowerBox, Finset.sum_add_distrib, max_comm, min_comm] using this
  have low : ∀ (w : ι → α) (w' : ι' → α) (b b' c d : α), c ≠ 0 → (∀ i, w' (s i) * a i = c * w i) →
      b' + ∑ i, w' (s i) * t i = c * b + d → getLowerBox xmin' xmax' w' b' =
        c * (if 0 < c then getLowerBox xmin xmax w b else getUpperBox xmin xmax w b) + d := by
    intro w w' b b' c d hc h1 h2
    have := image_sum s a t w xmin xmax c w' xmin' xmax' hc (fun i => .inl ⟨h1 i, ha i⟩) (fun k => (h k).symm) b b' d h2
    simpa only [getUpperBox, getLowerBox, Finset.sum_add_distrib, max_comm, min_comm] using this
  intro c d hc wu wl bu bl wu' wl' bu' bl' hu hl
  simp only [boxDomain]
  by_cases h0 : 0 < c
  · simp only [if_pos h0] at hu hl ⊢
    obtain ⟨u1, u2⟩ := image_coeff hu
    obtain ⟨l1, l2⟩ := image_coeff hl
    have r1 := up wu wu' bu bu' c d hc u1 u2
    have r2 := low wl wl' bl bl' c d hc l1 l2
    rw [if_pos h0] at r1 r2
    exact ⟨r1, r2⟩
  · simp only [if_neg h0] at hu hl ⊢
    obtain ⟨u1, u2⟩ := image_coeff hu
    obtain ⟨l1, l2⟩ := image_coeff hl
    have r1 := up wl wu' bl bu' c d hc u1 u2
    have r2 := low wu wl' bu bl' c d hc l1 l2
    rw [if_neg h0] at r1 r2
    exact ⟨r1, r2⟩

end Domains

/-! ### Networks -/

section Networks
variable {X X' ι ι' α : Type} [Fintype ι] [Fintype ι'] [Field α] [LinearOrder α] [IsStrictOrderedRing α]

theorem Net.Reparam.image {exact : Prop} {s : ι ≃ ι'} {a t : ι → α} {κ κ' : Type} {n : Net α ι κ} {n' : Net α ι' κ'} {e : κ ≃ κ'}
    {c d : κ → α} (h : n.Reparam exact s a t n' e c d) (D : PertDomain X ι α) (D' : PertDomain X' ι' α) (m : Mode) (T : (ι → α) → ι' → α)
    (eps : α) (slope : Slope) (inp : Full X ι ι α) (inp' : Full X' ι' ι' α) (hi : ImageFull D D' m T s a t inp inp')
    (hx : exact ∨ n.SliverOK D m eps slope inp ∧ n'.SliverOK D' m eps slope inp') :
    ImageFull D D' m T e c d (n.forward D m eps slope inp) (n'.forward D' m eps slope inp') := by
  induction h with
  | input => exact hi
  | dense h e' c' d' hc K b K' b' hK hb ih => exact (ih (hx.imp id fun h => ⟨h.1.1, h.2.1⟩)).dense e' c' d' hc K b K' b' hK hb
  | linear h e' c' d' hc L K b L' K' b' taps hsrc hK hb ih =>
    exact (ih (hx.imp id fun h => ⟨h.1.1, h.2.1⟩)).linear e' c' d' hc L K b L' K' b' taps hsrc hK hb
  | relu h hc hx1 gf gb gf' gb' hf hg ih =>
    exact (ih (hx.imp id fun h => ⟨h.1.1, h.2.1⟩)).reluAct hc hf (hx.imp hx1 fun h => ⟨h.1.2, h.2.2⟩)
  | batchNorm h c' d' hc gamma beta mean sd gamma' beta' mean' sd' hsd hsd' hw hb ih =>
    exact (ih (hx.imp id fun h => ⟨h.1.1, h.2.1⟩)).batchNorm c' d' hc _ _ _ _ _ _ _ _ hsd hsd' hw hb
  | reshape h e' r r' hr ih => exact (ih (hx.imp id fun h => ⟨h.1.1, h.2.1⟩)).reindex e' r r' hr
  | skip h ih => exact ih (hx.imp id fun h => ⟨h.1.1, h.2.1⟩)
  | add h0 h1 ih0 ih1 =>
    exact (ih0 (hx.imp id fun h => ⟨h.1.1, h.2.1⟩)).addLayer (ih1 (hx.imp id fun h => ⟨h.1.2.1, h.2.2.1⟩))
  | average h0 h1 ih0 ih1 =>
    exact (ih0 (hx.imp id fun h => ⟨h.1.1, h.2.1⟩)).averageLayer (ih1 (hx.imp id fun h => ⟨h.1.2.1, h.2.2.1⟩))
  | subtract h0 h1 ih0 ih1 =>
    exact (ih0 (hx.imp id fun h => ⟨h.1.1, h.2.1⟩)).sub (ih1 (hx.imp id fun h => ⟨h.1.2.1, h.2.2.1⟩))
  | maximum h0 h1 hc hx1 ih0 ih1 =>
    exact (ih0 (hx.imp id fun h => ⟨h.1.1, h.2.1⟩)).maximum (ih1 (hx.imp id fun h => ⟨h.1.2.1, h.2.2.1⟩)) hc
      (hx.imp hx1 fun h => ⟨h.1.2.2.1, h.2.2.2.1⟩)
  | minimum h0 h1 hc hx1 ih0 ih1 =>
    exact (ih0 (hx.imp id fun h => ⟨h.1.1, h.2.1⟩)).minimum (ih1 (hx.imp id fun h => ⟨h.1.2.1, h.2.2.1⟩)) hc
      (hx.imp hx1 fun h => ⟨h.1.2.2.1, h.2.2.2.1⟩)
  | maxMin h0 h1 hc hx1 ih0 ih1 =>
    exact (ih0 (hx.imp id fun h => ⟨h.1.1, h.2.1⟩)).maxMin (ih1 (hx.imp id fun h => ⟨h.1.2.1, h.2.2.1⟩)) hc
      (hx.imp hx1 fun h => ⟨h.1.2.2.1, h.2.2.2.1⟩)
  | multiply h0 h1 hc0 hc1 ih0 ih1 =>
    exact (ih0 (hx.imp id fun h => ⟨h.1.1, h.2.1⟩)).mul (ih1 (hx.imp id fun h => ⟨h.1.2.1, h.2.2.1⟩)) hc0 hc1

end Networks

end Decomon
