import Verif.Lemmas.Drift
import Verif.Lemmas.Kink
import Verif.Props.Exact

/-! Theorems about small changes of the box and of the weights (C121). -/

namespace Decomon

section
variable {β ι κ κ' α : Type} [Field α] [LinearOrder α] [IsStrictOrderedRing α]

/-- Corners of absolute value at most `A`. -/
def BoxOf.Bounded (b : BoxOf ι α) (A : ι → α) : Prop := ∀ i, |b.1 i| ≤ A i ∧ |b.2 i| ≤ A i

/-- Boxes whose corners are within `s`. -/
def BoxOf.Within (b b' : BoxOf ι α) (s : ι → α) : Prop := ∀ i, |b.1 i - b'.1 i| ≤ s i ∧ |b.2 i - b'.2 i| ≤ s i

/-- C121, interval mode: when every parameter of the network moves by at most `δ` and the corners of the box by at most `s`, the bounds of
`forward-ibp` move by at most `N.drift`, a number computed from the weights and the box. -/
theorem C121_ibp_partial [Fintype ι] [DecidableEq ι] (eps eps' : α) (sl sl' : Slope) (N : Net β ι κ) (M M' : β → α) (δ : α)
    (hM : ∀ c, |M c - M' c| ≤ δ) (σ : α) (hσ : 0 < σ) (hN : (N.map M).SdAbove σ) (hN' : (N.map M').SdAbove σ) (b b' : BoxOf ι α) (A s : ι → α)
    (hA : b.Bounded A) (hs : b.Within b' s) (k : κ) :
    |((N.map M).onBox .ibp eps sl b).uc k - ((N.map M').onBox .ibp eps' sl' b').uc k| ≤ N.drift M δ σ A s k ∧
      |((N.map M).onBox .ibp eps sl b).lc k - ((N.map M').onBox .ibp eps' sl' b').lc k| ≤ N.drift M δ σ A s k := by
  refine N.drift_bounds boxDomain boxDomain eps eps' sl sl' M M' δ hM σ hσ hN hN' _ _ A s ?_ ?_ k
  · exact fun i => by simpa only [inputTensorsBox, getIbp, if_true] using (hA i).symm
  · exact fun i => by simpa only [inputTensorsBox, getIbp, if_true] using (hs i).symm

/-- C121: the same number bounds the change of the model itself. -/
theorem C121_eval [Fintype ι] [DecidableEq ι] (N : Net β ι κ) (M M' : β → α) (δ : α) (hM : ∀ c, |M c - M' c| ≤ δ) (σ : α) (hσ : 0 < σ)
    (hN : (N.map M).SdAbove σ) (hN' : (N.map M').SdAbove σ) (p p' A s : ι → α) (hA : ∀ i, |p i| ≤ A i) (hs : ∀ i, |p i - p' i| ≤ s i) (k : κ) :
    |(N.map M).eval p k - (N.map M').eval p' k| ≤ N.drift M δ σ A s k := by
  have h := (C121_ibp_partial 1 1 .vSlope .vSlope N M M' δ hM σ hσ hN hN' (p, p) (p', p') A s (fun i => ⟨hA i, hA i⟩) (fun i => ⟨hs i, hs i⟩) k).1
  rwa [((C84_forward_box_values .ibp 1 .vSlope p (N.map M) k _ rfl).1 rfl).2.symm, ((C84_forward_box_values .ibp 1 .vSlope p' (N.map M') k _ rfl).1 rfl).2.symm]

/-- C121: a certificate survives small changes.  The difference of two interval bounds of the network, plus the drifts, bounds the margin of
the changed network on the changed box. -/
theorem C121_transfer [Fintype ι] [DecidableEq ι] (eps : α) (sl : Slope) (N : Net β ι κ) (M M' : β → α) (δ : α)
    (hM : ∀ c, |M c - M' c| ≤ δ) (σ : α) (hσ : 0 < σ) (hN : (N.map M).SdAbove σ) (hN' : (N.map M').SdAbove σ) (hw : (N.map M').WF)
    (b b' : BoxOf ι α) (A s : ι → α) (hA : b.Bounded A) (hs : b.Within b' s) (t r : κ) (p : ι → α) (hp : p ∈ Box b'.1 b'.2) :
    (N.map M').eval p t - (N.map M').eval p r ≤ ((N.map M).onBox .ibp eps sl b).uc t - ((N.map M).onBox .ibp eps sl b).lc r +
      (N.drift M δ σ A s t + N.drift M δ σ A s r) := by
  have h1 := (abs_le.1 (C121_ibp_partial eps 1 sl .vSlope N M M' δ hM σ hσ hN hN' b b' A s hA hs t).1).1
  have h2 := (abs_le.1 (C121_ibp_partial eps 1 sl .vSlope N M M' δ hM σ hσ hN hN' b b' A s hA hs r).2).2
  have h3 := (C27_box_ibp 1 one_pos .vSlope b'.1 b'.2 (N.map M') hw p hp t).2
  have h4 := (C27_box_ibp 1 one_pos .vSlope b'.1 b'.2 (N.map M') hw p hp r).1
  unfold Net.onBox at *
  linarith

theorem Lay.size_nonneg [Fintype κ] (l : Lay β κ κ') (M : β → α) (σ : α) (hσ : 0 < σ) (A : κ → α) (hA : ∀ k, 0 ≤ A k) (k : κ') : 0 ≤ l.size M σ A k := by
  cases l with
  | dense kernel bias => exact add_nonneg (Finset.sum_nonneg fun t _ => mul_nonneg (abs_nonneg _) (hA t)) (abs_nonneg _)
  | linear I kernel bias =>
    refine add_nonneg (Finset.sum_nonneg fun t _ => mul_nonneg (abs_nonneg _) ?_) (abs_nonneg _)
    cases I.src k t with
    | none => exact le_rfl
    | some a => exact hA a
  | relu gf gb => exact hA k
  | batchNorm gamma beta mean sd =>
    have := hA k
    simp only [Lay.size]
    positivity
  | reshape e => exact hA _
  | skip => exact hA k

theorem Net.size_nonneg (N : Net β ι κ) (M : β → α) (σ : α) (hσ : 0 < σ) (A : ι → α) (hA : ∀ k, 0 ≤ A k) (k : κ) : 0 ≤ N.size M σ A k := by
  induction N with
  | input => exact hA k
  | layer n l ih => exact l.size_nonneg M σ hσ _ ih k
  | merge op n0 n1 ih0 ih1 =>
    have h0 := ih0 k
    have h1 := ih1 k
    simp only [Net.size]
    cases op <;> simp only [MergeOp.size] <;> positivity

theorem term_lipschitz (w K r δ s A : α) (hs : s ≤ K * r) (hr : 0 ≤ r) (hK : 0 ≤ K) (hδ : 0 ≤ δ) (h1 : δ ≤ 1) (hd : δ ≤ r) (hA : 0 ≤ A) :
    (|w| + δ) * s + δ * A ≤ ((|w| + 1) * K + A) * r := by
  have h2 : (|w| + δ) * s ≤ (|w| + δ) * (K * r) := mul_le_mul_of_nonneg_left hs (by positivity)
  have h3 : (|w| + δ) * (K * r) ≤ (|w| + 1) * (K * r) := mul_le_mul_of_nonneg_right (by linarith) (by positivity)
  have h4 : δ * A ≤ r * A := mul_le_mul_of_nonneg_right hd hA
  linarith

/-- The drift is at most proportional to the sizes of the changes. -/
theorem Net.drift_lipschitz [Fintype ι] (N : Net β ι κ) (M : β → α) (σ : α) (hσ : 0 < σ) (A : ι → α) (hA : ∀ i, 0 ≤ A i) :
    ∃ K : κ → α, (∀ k, 0 ≤ K k) ∧ ∀ δ r : α, 0 ≤ δ → δ ≤ r → r ≤ 1 → ∀ k,
      0 ≤ N.drift M δ σ A (fun _ => r) k ∧ N.drift M δ σ A (fun _ => r) k ≤ K k * r := by
  induction N with
  | input => exact ⟨fun _ => 1, fun _ => zero_le_one, fun δ r h0 h1 _ k => ⟨h0.trans h1, by simp [Net.drift]⟩⟩
  | layer n l ih =>
    obtain ⟨K, hK, h⟩ := ih
    have hS := n.size_nonneg M σ hσ A hA
    cases l with
    | dense kernel bias =>
      refine ⟨fun o => (∑ t, ((|M (kernel t o)| + 1) * K t + n.size M σ A t)) + 1, fun o => ?_, fun δ r h0 h1 h2 o => ⟨?_, ?_⟩⟩
      · exact add_nonneg (Finset.sum_nonneg fun t _ => add_nonneg (mul_nonneg (by positivity) (hK t)) (hS t)) zero_le_one
      · refine add_nonneg (Finset.sum_nonneg fun t _ => ?_) h0
        exact add_nonneg (mul_nonneg (add_nonneg (abs_nonneg _) h0) (h δ r h0 h1 h2 t).1) (mul_nonneg h0 (hS t))
      · simp only [Net.drift, Lay.drift]
        rw [add_mul, one_mul, Finset.sum_mul]
        refine add_le_add (Finset.sum_le_sum fun t _ => ?_) h1
        exact term_lipschitz _ _ _ _ _ _ (h δ r h0 h1 h2 t).2 (h0.trans h1) (hK t) h0 (h1.trans h2) h1 (hS t)
    | linear I kernel bias =>
      have hK' : ∀ o t, 0 ≤ (I.src o t).elim 0 K := fun o t => by cases I.src o t with
        | none => exact le_rfl
        | some a => exact hK a
      have hS' : ∀ o t, 0 ≤ (I.src o t).elim 0 (n.size M σ A) := fun o t => by cases I.src o t with
        | none => exact le_rfl
        | some a => exact hS a
      have h' : ∀ δ r : α, 0 ≤ δ → δ ≤ r → r ≤ 1 → ∀ o t, 0 ≤ (I.src o t).elim 0 (n.drift M δ σ A fun _ => r) ∧
          (I.src o t).elim 0 (n.drift M δ σ A fun _ => r) ≤ (I.src o t).elim 0 K * r := fun δ r h0 h1 h2 o t => by cases I.src o t with
        | none => simp
        | some a => exact h δ r h0 h1 h2 a
      refine ⟨fun o => (∑ t, ((|M (kernel (I.kidx o t))| + 1) * (I.src o t).elim 0 K + (I.src o t).elim 0 (n.size M σ A))) + 1, fun o => ?_,
        fun δ r h0 h1 h2 o => ⟨?_, ?_⟩⟩
      · exact add_nonneg (Finset.sum_nonneg fun t _ => add_nonneg (mul_nonneg (by positivity) (hK' o t)) (hS' o t)) zero_le_one
      · refine add_nonneg (Finset.sum_nonneg fun t _ => ?_) h0
        exact add_nonneg (mul_nonneg (add_nonneg (abs_nonneg _) h0) (h' δ r h0 h1 h2 o t).1) (mul_nonneg h0 (hS' o t))
      · simp only [Net.drift, Lay.drift]
        rw [add_mul, one_mul, Finset.sum_mul]
        refine add_le_add (Finset.sum_le_sum fun t _ => ?_) h1
        exact term_lipschitz _ _ _ _ _ _ (h' δ r h0 h1 h2 o t).2 (h0.trans h1) (hK' o t) h0 (h1.trans h2) h1 (hS' o t)
    | relu gf gb => exact ⟨K, hK, h⟩
    | batchNorm gamma beta mean sd =>
      refine ⟨fun k => ((|M (gamma k)| + 1) * ((K k + 1) / σ + (n.size M σ A k + |M (mean k)|) / σ * (1 / σ)) +
          (n.size M σ A k + |M (mean k)|) / σ) + 1, fun k => ?_, fun δ r h0 h1 h2 k => ⟨?_, ?_⟩⟩
      · have := hK k
        have := hS k
        positivity
      · have := (h δ r h0 h1 h2 k).1
        have := hS k
        simp only [Net.drift, Lay.drift]
        positivity
      · simp only [Net.drift, Lay.drift]
        rw [add_mul _ 1, one_mul]
        have a := hK k
        have b := hS k
        have hr := h0.trans h1
        refine add_le_add (term_lipschitz _ _ _ _ _ _ ?_ hr (by positivity) h0 (h1.trans h2) h1 (by positivity)) h1
        have e : ((K k + 1) / σ + (n.size M σ A k + |M (mean k)|) / σ * (1 / σ)) * r =
            (K k * r + r) / σ + (n.size M σ A k + |M (mean k)|) / σ * (r / σ) := by ring
        rw [e]
        have := (h δ r h0 h1 h2 k).2
        gcongr
    | reshape e => exact ⟨fun k => K (e k), fun k => hK _, fun δ r h0 h1 h2 k => h δ r h0 h1 h2 (e k)⟩
    | skip => exact ⟨K, hK, h⟩
  | merge op n0 n1 ih0 ih1 =>
    obtain ⟨K0, hK0, h0⟩ := ih0
    obtain ⟨K1, hK1, h1⟩ := ih1
    have hS0 := n0.size_nonneg M σ hσ A hA
    have hS1 := n1.size_nonneg M σ hσ A hA
    refine ⟨fun k => 3 * ((n0.size M σ A k + 1) * K1 k + K0 k * (n1.size M σ A k + K1 k) + K0 k + K1 k), fun k => ?_, fun δ r d0 d1 d2 k => ?_⟩
    · have := hK0 k
      have := hK1 k
      have := hS0 k
      have := hS1 k
      positivity
    · have hr : 0 ≤ r := d0.trans d1
      obtain ⟨a0, a1⟩ := h0 δ r d0 d1 d2 k
      obtain ⟨b0, b1⟩ := h1 δ r d0 d1 d2 k
      have k0 := hK0 k
      have k1 := hK1 k
      have s0 := hS0 k
      have s1 := hS1 k
      simp only [Net.drift]
      generalize n0.drift M δ σ A (fun _ => r) k = s at *
      generalize n1.drift M δ σ A (fun _ => r) k = t at *
      generalize n0.size M σ A k = a at *
      generalize n1.size M σ A k = b at *
      generalize K0 k = x at *
      generalize K1 k = y at *
      have p1 : 0 ≤ a * y * r := by positivity
      have p2 : 0 ≤ x * b * r := by positivity
      have p3 : 0 ≤ x * y * r := by positivity
      have p4 : 0 ≤ x * r := by positivity
      have p5 : 0 ≤ y * r := by positivity
      have e : 3 * ((a + 1) * y + x * (b + y) + x + y) * r = 3 * (a * y * r + x * b * r + x * y * r + x * r + 2 * (y * r)) := by ring
      rw [e]
      cases op with
      | multiply =>
        refine ⟨by simp only [MergeOp.drift]; positivity, ?_⟩
        simp only [MergeOp.drift]
        have q1 : a * t ≤ a * (y * r) := mul_le_mul_of_nonneg_left b1 s0
        have q2 : s * b ≤ x * r * b := mul_le_mul_of_nonneg_right a1 s1
        have q3 : s * t ≤ x * r * (y * r) := mul_le_mul a1 b1 b0 p4
        have q4 : x * r * (y * r) ≤ x * y * r * 1 := by
          have : x * r * (y * r) = x * y * r * r := by ring
          rw [this]
          exact mul_le_mul_of_nonneg_left d2 p3
        linarith
      | _ =>
        refine ⟨by simp only [MergeOp.drift]; positivity, ?_⟩
        simp only [MergeOp.drift]
        linarith

/-- C121: the interval bounds are continuous: for every tolerance there is a size of the changes that moves them less than the tolerance. -/
theorem C121_continuous [Fintype ι] [DecidableEq ι] (eps : α) (sl : Slope) (N : Net β ι κ) (M : β → α) (σ : α) (hσ : 0 < σ)
    (hN : (N.map M).SdAbove σ) (b : BoxOf ι α) (k : κ) (τ : α) (hτ : 0 < τ) :
    ∃ ρ, 0 < ρ ∧ ∀ (M' : β → α) (b' : BoxOf ι α), (N.map M').SdAbove σ → (∀ c, |M c - M' c| ≤ ρ) → b.Within b' (fun _ => ρ) →
      |((N.map M).onBox .ibp eps sl b).uc k - ((N.map M').onBox .ibp eps sl b').uc k| ≤ τ ∧
        |((N.map M).onBox .ibp eps sl b).lc k - ((N.map M').onBox .ibp eps sl b').lc k| ≤ τ := by
  obtain ⟨K, hK, h⟩ := N.drift_lipschitz M σ hσ (fun i => max |b.1 i| |b.2 i|) (fun i => (abs_nonneg _).trans (le_max_left _ _))
  have hK1 : 0 < K k + 1 := by linarith [hK k]
  refine ⟨min 1 (τ / (K k + 1)), lt_min one_pos (by positivity), fun M' b' hN' hM hb => ?_⟩
  set ρ := min 1 (τ / (K k + 1)) with hρ
  have h0 : 0 < ρ := lt_min one_pos (by positivity)
  have h1 := C121_ibp_partial eps eps sl sl N M M' ρ hM σ hσ hN hN' b b' _ _ (fun i => ⟨le_max_left _ _, le_max_right _ _⟩) hb k
  have h2 := (h ρ ρ h0.le le_rfl (min_le_left _ _) k).2
  have h3 : K k * ρ ≤ τ := by
    have : ρ ≤ τ / (K k + 1) := min_le_right _ _
    rw [le_div_iff₀ hK1] at this
    linarith
  exact ⟨h1.1.trans (h2.trans h3), h1.2.trans (h2.trans h3)⟩

end

/-- The box `[-1, 1 + d]`. -/
def kinkBox (d : ℚ) : BoxOf (Fin 1) ℚ := (fun _ => -1, fun _ => 1 + d)

theorem kinkBox_within (d : ℚ) (h : 0 ≤ d) : (kinkBox 0).Within (kinkBox d) (fun _ => d) := fun i => by
  simp [kinkBox, abs_of_nonneg h, h]

/-- C121 is false for `forward-affine` and `forward-hybrid`: on `ReLU(x) + ReLU(10 - x)` the lower bound is 9 on `[-1, 1]` and 10 on every
slightly longer box, and 10 or more when the first bias is slightly raised. -/
theorem C121_forward_refuted (m : Mode) (hm : m ≠ .ibp) :
    (¬ ∃ ρ, 0 < ρ ∧ ∀ b', (kinkBox 0).Within b' (fun _ => ρ) →
      |rangeLower m (kinkBox 0) ((kinkNet 0).onBox m (1 / 10000000) .vSlope (kinkBox 0)) 0 -
        rangeLower m b' ((kinkNet 0).onBox m (1 / 10000000) .vSlope b') 0| < 1) ∧
    ¬ ∃ ρ, 0 < ρ ∧ ∀ c, |0 - c| ≤ ρ →
      |rangeLower m (kinkBox 0) ((kinkNet 0).onBox m (1 / 10000000) .vSlope (kinkBox 0)) 0 -
        rangeLower m (kinkBox 0) ((kinkNet c).onBox m (1 / 10000000) .vSlope (kinkBox 0)) 0| < 1 := by
  have base : rangeLower m (kinkBox 0) ((kinkNet 0).onBox m (1 / 10000000) .vSlope (kinkBox 0)) 0 = 9 := by
    cases m with
    | ibp => exact absurd rfl hm
    | affine => decide +kernel
    | hybrid => decide +kernel
  have moved : ∀ c d : ℚ, 0 ≤ c → c < 1 → d < 1 → 0 < c + d →
      rangeLower m (kinkBox d) ((kinkNet c).onBox m (1 / 10000000) .vSlope (kinkBox d)) 0 = 10 + c := fun c d a b e f => by
    cases m with
    | ibp => exact absurd rfl hm
    | affine => exact kink_affine c d a b e f
    | hybrid => exact kink_hybrid c d a b e f
  refine ⟨fun ⟨ρ, h0, h⟩ => ?_, fun ⟨ρ, h0, h⟩ => ?_⟩
  · have hd : 0 < min ρ (1 / 2) := lt_min h0 (by norm_num)
    have h1 : min ρ (1 / 2) < 1 := (min_le_right _ _).trans_lt (by norm_num)
    have hw : (kinkBox 0).Within (kinkBox (min ρ (1 / 2))) (fun _ => ρ) := fun i =>
      ⟨((kinkBox_within _ hd.le) i).1.trans (min_le_left _ _), ((kinkBox_within _ hd.le) i).2.trans (min_le_left _ _)⟩
    have := h _ hw
    rw [base, moved 0 _ le_rfl one_pos h1 (by linarith)] at this
    norm_num at this
  · have hd : 0 < min ρ (1 / 2) := lt_min h0 (by norm_num)
    have h1 : min ρ (1 / 2) < 1 := (min_le_right _ _).trans_lt (by norm_num)
    have := h (min ρ (1 / 2)) (by rw [zero_sub, abs_neg, abs_of_pos hd]; exact min_le_left _ _)
    rw [base, moved _ 0 hd.le h1 one_pos (by linarith)] at this
    linarith [(abs_lt.1 this).1]

/-- C121 is false for `crown` too, in every mode of the output, with and without the forward pass. -/
theorem C121_crown_refuted (m : Mode) (uf : Bool) :
    ∃ out, (boxCrown m (1 / 10000000) .vSlope uf (kinkBox 0).1 (kinkBox 0).2).model (kinkNet 0) = .ok out ∧ rangeLower m (kinkBox 0) out 0 = 9 ∧
      (∀ ρ, 0 < ρ → ∃ b' out', (kinkBox 0).Within b' (fun _ => ρ) ∧
        (boxCrown m (1 / 10000000) .vSlope uf b'.1 b'.2).model (kinkNet 0) = .ok out' ∧ rangeLower m b' out' 0 = 10) ∧
      ∀ ρ, 0 < ρ → ∃ c out', |0 - c| ≤ ρ ∧
        (boxCrown m (1 / 10000000) .vSlope uf (kinkBox 0).1 (kinkBox 0).2).model (kinkNet c) = .ok out' ∧ 10 ≤ rangeLower m (kinkBox 0) out' 0 := by
  have base : ((boxCrown m (1 / 10000000) .vSlope uf (kinkBox 0).1 (kinkBox 0).2).model (kinkNet 0)).toOption.map (fun o => rangeLower m (kinkBox 0) o 0) =
      some 9 := by
    cases m <;> cases uf <;> decide +kernel
  cases e : (boxCrown m (1 / 10000000) .vSlope uf (kinkBox 0).1 (kinkBox 0).2).model (kinkNet 0) with
  | error x => rw [e] at base; simp [Except.toOption] at base
  | ok out =>
    refine ⟨out, rfl, ?_, fun ρ h0 => ?_, fun ρ h0 => ?_⟩
    · rw [e] at base
      simpa [Except.toOption] using base
    · have hd : 0 < min ρ (1 / 2) := lt_min h0 (by norm_num)
      have h1 : min ρ (1 / 2) < 1 := (min_le_right _ _).trans_lt (by norm_num)
      obtain ⟨out', h2, h3⟩ := kink_crown m uf 0 (min ρ (1 / 2)) le_rfl one_pos h1 (by linarith)
      exact ⟨kinkBox (min ρ (1 / 2)), out', fun i => ⟨((kinkBox_within _ hd.le) i).1.trans (min_le_left _ _),
        ((kinkBox_within _ hd.le) i).2.trans (min_le_left _ _)⟩, h2, h3.trans (by norm_num)⟩
    · have hd : 0 < min ρ (1 / 2) := lt_min h0 (by norm_num)
      have h1 : min ρ (1 / 2) < 1 := (min_le_right _ _).trans_lt (by norm_num)
      obtain ⟨out', h2, h3⟩ := kink_crown m uf (min ρ (1 / 2)) 0 hd.le h1 one_pos (by linarith)
      exact ⟨min ρ (1 / 2), out', by rw [zero_sub, abs_neg, abs_of_pos hd]; exact min_le_left _ _, h2, by
        have h3' : rangeLower m (kinkBox 0) out' 0 = _ := h3
        rw [h3']; linarith⟩

/-- The network `ReLU(p x + q) r + q` over the names of its parameters; the fourth is the slope parameter of the ReLU layer. -/
def driftNet : Net (Fin 4) (Fin 1) (Fin 1) :=
  .layer (.layer (.layer .input (.dense (fun (_ : Fin 1) (_ : Fin 1) => 0) (fun _ => 1))) (.relu (fun _ => 3) (fun _ => 3)))
    (.dense (fun (_ : Fin 1) _ => 2) (fun _ => 1))

/-- Its drift on `[-1, 1]` when the parameters move by at most 1/100 and the corners by at most 1/10. -/
example : driftNet.drift ![2, 1, -1, 1] (1 / 100 : ℚ) 1 (fun _ => 1) (fun _ => 1 / 10) 0 = 26321 / 100000 ∧
    (driftNet.map ![2, 1, -1, 1]).SdAbove (1 : ℚ) ∧ (∀ c, |(![2, 1, -1, 1] : Fin 4 → ℚ) c - ![2, 101 / 100, -1, 1] c| ≤ 1 / 100) := by
  refine ⟨by decide +kernel, by simp [driftNet, Net.map, Lay.map, Net.SdAbove, Lay.SdAbove], by decide +kernel⟩

/-- The bounds on `[-1, 1]` and those of the changed network on the changed box, which are within the drift but not equal. -/
example : (((driftNet.map ![2, 1, -1, 1]).onBox .ibp (1 / 10000000 : ℚ) .vSlope (fun _ => -1, fun _ => 1)).lc 0,
      ((driftNet.map ![2, 101 / 100, -1, 1]).onBox .ibp (1 / 10000000 : ℚ) .vSlope (fun _ => -1, fun _ => 11 / 10)).lc 0) = (-2, -11 / 5) := by
  decide +kernel

/-- `C121_transfer` applied to this network: its output on `[-1, 11/10]` with the changed bias stays below the bound of the original plus the drift. -/
example (p : Fin 1 → ℚ) (hp : p ∈ Box (fun _ => (-1 : ℚ)) (fun _ => 11 / 10)) :
    (driftNet.map ![2, 101 / 100, -1, 1]).eval p 0 - (driftNet.map ![2, 101 / 100, -1, 1]).eval p 0 ≤
      ((driftNet.map ![2, 1, -1, 1]).onBox .ibp (1 / 10000000) .vSlope (fun _ => -1, fun _ => 1)).uc 0 -
        ((driftNet.map ![2, 1, -1, 1]).onBox .ibp (1 / 10000000) .vSlope (fun _ => -1, fun _ => 1)).lc 0 + (26321 / 100000 + 26321 / 100000) := by
  have h := C121_transfer (1 / 10000000) .vSlope driftNet ![2, 1, -1, 1] ![2, 101 / 100, -1, 1] (1 / 100) (by decide +kernel) 1 one_pos
    (by simp [driftNet, Net.map, Lay.map, Net.SdAbove, Lay.SdAbove]) (by simp [driftNet, Net.map, Lay.map, Net.SdAbove, Lay.SdAbove])
    (by simp [driftNet, Net.map, Lay.map, Net.WF, Lay.WF]) (fun _ => -1, fun _ => 1) (fun _ => -1, fun _ => 11 / 10) (fun _ => 1) (fun _ => 1 / 10)
    (fun i => by norm_num) (fun i => by norm_num [abs_of_nonpos]) 0 0 p hp
  have e : driftNet.drift ![2, 1, -1, 1] (1 / 100 : ℚ) 1 (fun _ => 1) (fun _ => 1 / 10) 0 = 26321 / 100000 := by decide +kernel
  rwa [e] at h

end Decomon
