import Verif.SpecDrift
import Verif.Props.Refine

/-! Lemmas about the stability of interval bounds (C121). -/

namespace Decomon

section
variable {β X ι κ κ' α : Type} [Field α] [LinearOrder α] [IsStrictOrderedRing α]

/-- One term of a linear layer. -/
theorem term_size (w u l A : α) (hu : |u| ≤ A) (hl : |l| ≤ A) :
    |max 0 w * u + min 0 w * l| ≤ |w| * A := by
  rcases le_total 0 w with h | h
  · rw [max_eq_right h, min_eq_left h, zero_mul, add_zero, abs_mul]; gcongr
  · rw [max_eq_left h, min_eq_right h, zero_mul, zero_add, abs_mul]; gcongr

theorem term_drift (w w' u u' l l' A s δ : α) (hw : |w - w'| ≤ δ) (hu : |u| ≤ A) (hl : |l| ≤ A) (du : |u - u'| ≤ s) (dl : |l - l'| ≤ s) :
    |(max 0 w * u + min 0 w * l) - (max 0 w' * u' + min 0 w' * l')| ≤ (|w| + δ) * s + δ * A := by
  have hA : 0 ≤ A := (abs_nonneg _).trans hu
  have hs : 0 ≤ s := (abs_nonneg _).trans du
  have e : (max 0 w * u + min 0 w * l) - (max 0 w' * u' + min 0 w' * l') =
      (max 0 w' * (u - u') + min 0 w' * (l - l')) + ((max 0 w - max 0 w') * u + (min 0 w - min 0 w') * l) := by ring
  rw [e]
  refine (abs_add_le _ _).trans (add_le_add ?_ ?_)
  · refine (term_size w' _ _ s du dl).trans ?_
    have : |w'| ≤ |w| + δ := by
      have := abs_sub_abs_le_abs_sub w' w
      rw [abs_sub_comm] at this
      linarith
    gcongr
  · have e2 : |max 0 w - max 0 w'| + |min 0 w - min 0 w'| = |w - w'| := by
      rcases le_total 0 w with h | h <;> rcases le_total 0 w' with h' | h' <;> simp only [max_eq_right, max_eq_left, min_eq_left, min_eq_right, h, h']
      · simp
      · rw [sub_zero, zero_sub, abs_neg, abs_of_nonneg h, abs_of_nonpos h', abs_of_nonneg (by linarith)]; ring
      · rw [sub_zero, zero_sub, abs_neg, abs_of_nonneg h', abs_of_nonpos h, abs_of_nonpos (by linarith)]; ring
      · simp
    refine (abs_add_le _ _).trans ?_
    rw [abs_mul, abs_mul]
    calc |max 0 w - max 0 w'| * |u| + |min 0 w - min 0 w'| * |l| ≤ |max 0 w - max 0 w'| * A + |min 0 w - min 0 w'| * A := by gcongr
      _ = |w - w'| * A := by rw [← e2]; ring
      _ ≤ δ * A := by gcongr

theorem sum_size {T : Type*} [Fintype T] (w u l A : T → α) (c : α) (hu : ∀ t, |u t| ≤ A t) (hl : ∀ t, |l t| ≤ A t) :
    |((∑ t, max 0 (w t) * u t) + ∑ t, min 0 (w t) * l t) + c| ≤ (∑ t, |w t| * A t) + |c| := by
  refine (abs_add_le _ _).trans (add_le_add ?_ le_rfl)
  rw [← Finset.sum_add_distrib]
  exact (Finset.abs_sum_le_sum_abs _ _).trans (Finset.sum_le_sum fun t _ => term_size _ _ _ _ (hu t) (hl t))

theorem sum_drift {T : Type*} [Fintype T] (w w' u u' l l' A s : T → α) (c c' δ : α) (hw : ∀ t, |w t - w' t| ≤ δ) (hc : |c - c'| ≤ δ)
    (hu : ∀ t, |u t| ≤ A t) (hl : ∀ t, |l t| ≤ A t) (du : ∀ t, |u t - u' t| ≤ s t) (dl : ∀ t, |l t - l' t| ≤ s t) :
    |(((∑ t, max 0 (w t) * u t) + ∑ t, min 0 (w t) * l t) + c) - (((∑ t, max 0 (w' t) * u' t) + ∑ t, min 0 (w' t) * l' t) + c')| ≤
      (∑ t, ((|w t| + δ) * s t + δ * A t)) + δ := by
  rw [← Finset.sum_add_distrib, ← Finset.sum_add_distrib, add_sub_add_comm, ← Finset.sum_sub_distrib]
  refine (abs_add_le _ _).trans (add_le_add ?_ hc)
  exact (Finset.abs_sum_le_sum_abs _ _).trans (Finset.sum_le_sum fun t _ => term_drift _ _ _ _ _ _ _ _ _ (hw t) (hu t) (hl t) (du t) (dl t))

theorem relu_abs (a : α) : |relu a| ≤ |a| := by
  unfold relu
  rcases le_total 0 a with h | h
  · rw [max_eq_left h]
  · rw [max_eq_right h]; simp

theorem relu_drift (a b : α) : |relu a - relu b| ≤ |a - b| := by
  unfold relu
  exact abs_max_sub_max_le_abs a b 0

theorem norm_size (u mean sd A σ : α) (hσ : 0 < σ) (hsd : σ ≤ sd) (hu : |u| ≤ A) : |(u - mean) / sd| ≤ (A + |mean|) / σ := by
  have h1 : |u - mean| ≤ A + |mean| := (abs_sub _ _).trans (by gcongr)
  rw [abs_div, abs_of_pos (hσ.trans_le hsd)]
  have : 0 ≤ A + |mean| := (abs_nonneg _).trans h1
  gcongr

theorem norm_drift (u u' mean mean' sd sd' A s δ σ : α) (hσ : 0 < σ) (hsd : σ ≤ sd) (hsd' : σ ≤ sd') (hu : |u| ≤ A) (du : |u - u'| ≤ s)
    (dm : |mean - mean'| ≤ δ) (ds : |sd - sd'| ≤ δ) :
    |(u - mean) / sd - (u' - mean') / sd'| ≤ (s + δ) / σ + (A + |mean|) / σ * (δ / σ) := by
  have p := hσ.trans_le hsd
  have p' := hσ.trans_le hsd'
  have e : (u - mean) / sd - (u' - mean') / sd' = ((u - u') - (mean - mean')) / sd' + (u - mean) / sd * ((sd' - sd) / sd') := by
    field_simp; ring
  have hs : 0 ≤ s := (abs_nonneg _).trans du
  have hδ : 0 ≤ δ := (abs_nonneg _).trans dm
  rw [e]
  refine (abs_add_le _ _).trans (add_le_add ?_ ?_)
  · rw [abs_div, abs_of_pos p']
    have : |(u - u') - (mean - mean')| ≤ s + δ := (abs_sub _ _).trans (by gcongr)
    gcongr
  · rw [abs_mul, abs_div (sd' - sd), abs_of_pos p', abs_sub_comm sd' sd]
    have h1 := norm_size u mean sd A σ hσ hsd hu
    have : 0 ≤ (A + |mean|) / σ := (abs_nonneg _).trans h1
    gcongr

theorem mul_drift (a a' b b' A B s t : α) (ha : |a| ≤ A) (hb : |b| ≤ B) (da : |a - a'| ≤ s) (db : |b - b'| ≤ t) :
    |a * b - a' * b'| ≤ A * t + s * B + s * t := by
  have e : a * b - a' * b' = a * (b - b') + (a - a') * b - (a - a') * (b - b') := by ring
  have hA : 0 ≤ A := (abs_nonneg _).trans ha
  have hs : 0 ≤ s := (abs_nonneg _).trans da
  rw [e]
  refine (abs_sub _ _).trans (add_le_add ((abs_add_le _ _).trans (add_le_add ?_ ?_)) ?_) <;> rw [abs_mul] <;> gcongr

theorem max_drift {a a' b b' d : α} (h : |a - a'| ≤ d) (h' : |b - b'| ≤ d) : |max a b - max a' b'| ≤ d :=
  (abs_max_sub_max_le_max _ _ _ _).trans (max_le h h')

theorem min_drift {a a' b b' d : α} (h : |a - a'| ≤ d) (h' : |b - b'| ≤ d) : |min a b - min a' b'| ≤ d :=
  (abs_min_sub_min_le_max _ _ _ _).trans (max_le h h')

theorem three_drift {a a' b b' c c' d : α} (h : |a - a'| ≤ d) (h' : |b - b'| ≤ d) (h'' : |c - c'| ≤ d) :
    |(a + b - c) - (a' + b' - c')| ≤ 3 * d := by
  rw [abs_le] at *
  constructor <;> linarith [h.1, h.2, h'.1, h'.2, h''.1, h''.2]

theorem Lay.size_bounds [Fintype κ] (D : PertDomain X ι α) (eps : α) (sl : Slope) (l : Lay β κ κ') (M : β → α) (σ : α) (hσ : 0 < σ)
    (hl : (l.map M).SdAbove σ) (f : Full X ι κ α) (A : κ → α) (h : Bounded f A) :
    Bounded ((l.map M).forward D .ibp eps sl f) (l.size M σ A) := by
  have hib : getIbp .ibp = true := rfl
  intro k
  cases l with
  | dense kernel bias =>
    simp only [Lay.map, Lay.forward, Lay.size, denseT, hib, if_true, tighten_ibp_eq]
    exact ⟨sum_size (fun t => M (kernel t k)) _ _ _ _ (fun t => (h t).1) (fun t => (h t).2),
      sum_size (fun t => M (kernel t k)) _ _ _ _ (fun t => (h t).2) (fun t => (h t).1)⟩
  | linear I kernel bias =>
    simp only [Lay.map, Lay.forward, Lay.size, linearLayerT, hib, if_true, LinIndex.apply, tighten_ibp_eq]
    have h' : ∀ t, |(I.src k t).elim 0 f.uc| ≤ (I.src k t).elim 0 A ∧ |(I.src k t).elim 0 f.lc| ≤ (I.src k t).elim 0 A := by
      intro t
      cases I.src k t with
      | none => simp
      | some a => exact h a
    exact ⟨sum_size (fun t => M (kernel (I.kidx k t))) _ _ _ _ (fun t => (h' t).1) (fun t => (h' t).2),
      sum_size (fun t => M (kernel (I.kidx k t))) _ _ _ _ (fun t => (h' t).2) (fun t => (h' t).1)⟩
  | relu gf gb =>
    simp only [Lay.map, Lay.forward, Lay.size, reluT, hib, if_true, tighten_ibp_eq]
    exact ⟨(relu_abs _).trans (h k).1, (relu_abs _).trans (h k).2⟩
  | batchNorm gamma beta mean sd =>
    simp only [Lay.map, Lay.forward, Lay.size, batchNormT, hib, if_true, tighten_ibp_eq]
    have a := norm_size _ (M (mean k)) _ _ σ hσ (hl k) (h k).1
    have b := norm_size _ (M (mean k)) _ _ σ hσ (hl k) (h k).2
    exact ⟨(abs_add_le _ _).trans (add_le_add (term_size _ _ _ _ a b) le_rfl), (abs_add_le _ _).trans (add_le_add (term_size _ _ _ _ b a) le_rfl)⟩
  | reshape e =>
    simp only [Lay.map, Lay.forward, Lay.size, reindexT, hib, if_true, tighten_ibp_eq]
    exact h (e k)
  | skip => exact h k

theorem Lay.drift_bounds [Fintype κ] (D D' : PertDomain X ι α) (eps eps' : α) (sl sl' : Slope) (l : Lay β κ κ') (M M' : β → α) (δ : α)
    (hM : ∀ c, |M c - M' c| ≤ δ) (σ : α) (hσ : 0 < σ) (hl : (l.map M).SdAbove σ) (hl' : (l.map M').SdAbove σ) (f f' : Full X ι κ α)
    (A s : κ → α) (h : Bounded f A) (hs : Within f f' s) :
    Within ((l.map M).forward D .ibp eps sl f) ((l.map M').forward D' .ibp eps' sl' f') (l.drift M δ σ A s) := by
  have hib : getIbp .ibp = true := rfl
  intro k
  cases l with
  | dense kernel bias =>
    simp only [Lay.map, Lay.forward, Lay.drift, denseT, hib, if_true, tighten_ibp_eq]
    exact ⟨sum_drift (fun t => M (kernel t k)) (fun t => M' (kernel t k)) _ _ _ _ _ _ _ _ _ (fun t => hM _) (hM _) (fun t => (h t).1)
        (fun t => (h t).2) (fun t => (hs t).1) (fun t => (hs t).2),
      sum_drift (fun t => M (kernel t k)) (fun t => M' (kernel t k)) _ _ _ _ _ _ _ _ _ (fun t => hM _) (hM _) (fun t => (h t).2)
        (fun t => (h t).1) (fun t => (hs t).2) (fun t => (hs t).1)⟩
  | linear I kernel bias =>
    simp only [Lay.map, Lay.forward, Lay.drift, linearLayerT, hib, if_true, LinIndex.apply, tighten_ibp_eq]
    have h' : ∀ t, |(I.src k t).elim 0 f.uc| ≤ (I.src k t).elim 0 A ∧ |(I.src k t).elim 0 f.lc| ≤ (I.src k t).elim 0 A := by
      intro t
      cases I.src k t with
      | none => simp
      | some a => exact h a
    have hs' : ∀ t, |(I.src k t).elim 0 f.uc - (I.src k t).elim 0 f'.uc| ≤ (I.src k t).elim 0 s ∧
        |(I.src k t).elim 0 f.lc - (I.src k t).elim 0 f'.lc| ≤ (I.src k t).elim 0 s := by
      intro t
      cases I.src k t with
      | none => simp
      | some a => exact hs a
    exact ⟨sum_drift (fun t => M (kernel (I.kidx k t))) (fun t => M' (kernel (I.kidx k t))) _ _ _ _ _ _ _ _ _ (fun t => hM _) (hM _)
        (fun t => (h' t).1) (fun t => (h' t).2) (fun t => (hs' t).1) (fun t => (hs' t).2),
      sum_drift (fun t => M (kernel (I.kidx k t))) (fun t => M' (kernel (I.kidx k t))) _ _ _ _ _ _ _ _ _ (fun t => hM _) (hM _)
        (fun t => (h' t).2) (fun t => (h' t).1) (fun t => (hs' t).2) (fun t => (hs' t).1)⟩
  | relu gf gb =>
    simp only [Lay.map, Lay.forward, Lay.drift, reluT, hib, if_true, tighten_ibp_eq]
    exact ⟨(relu_drift _ _).trans (hs k).1, (relu_drift _ _).trans (hs k).2⟩
  | batchNorm gamma beta mean sd =>
    simp only [Lay.map, Lay.forward, Lay.drift, batchNormT, hib, if_true, tighten_ibp_eq]
    have a := norm_size _ (M (mean k)) _ _ σ hσ (hl k) (h k).1
    have b := norm_size _ (M (mean k)) _ _ σ hσ (hl k) (h k).2
    have a' := norm_drift _ _ _ _ _ _ _ _ δ σ hσ (hl k) (hl' k) (h k).1 (hs k).1 (hM (mean k)) (hM (sd k))
    have b' := norm_drift _ _ _ _ _ _ _ _ δ σ hσ (hl k) (hl' k) (h k).2 (hs k).2 (hM (mean k)) (hM (sd k))
    constructor
    · rw [add_sub_add_comm]
      exact (abs_add_le _ _).trans (add_le_add (term_drift _ _ _ _ _ _ _ _ δ (hM _) a b a' b') (hM _))
    · rw [add_sub_add_comm]
      exact (abs_add_le _ _).trans (add_le_add (term_drift _ _ _ _ _ _ _ _ δ (hM _) b a b' a') (hM _))
  | reshape e =>
    simp only [Lay.map, Lay.forward, Lay.drift, reindexT, hib, if_true, tighten_ibp_eq]
    exact hs (e k)
  | skip => exact hs k

theorem MergeOp.size_bounds (D : PertDomain X ι α) (eps : α) (op : MergeOp) (f0 f1 : Full X ι κ α) (k : κ) (a b : α)
    (h0 : |f0.uc k| ≤ a ∧ |f0.lc k| ≤ a) (h1 : |f1.uc k| ≤ b ∧ |f1.lc k| ≤ b) :
    |(op.forward D .ibp eps f0 f1).uc k| ≤ op.size a b ∧ |(op.forward D .ibp eps f0 f1).lc k| ≤ op.size a b := by
  have hib : getIbp .ibp = true := rfl
  obtain ⟨h0u, h0l⟩ := h0
  obtain ⟨h1u, h1l⟩ := h1
  have ab : ∀ x y : α, |x| ≤ a → |y| ≤ b → |x + y| ≤ a + b := fun x y hx hy => (abs_add_le _ _).trans (add_le_add hx hy)
  have ba : ∀ x y : α, |x| ≤ a → |y| ≤ b → |relu (y + -x) + x| ≤ 2 * a + b := by
    intro x y hx hy
    refine (abs_add_le _ _).trans ?_
    have h1 := relu_abs (y + -x)
    have h2 := abs_add_le y (-x)
    rw [abs_neg] at h2
    linarith
  have ba' : ∀ x x' y : α, |x| ≤ a → |x'| ≤ a → |y| ≤ b → |relu (y + -x) + x'| ≤ 2 * a + b := by
    intro x x' y hx hx' hy
    refine (abs_add_le _ _).trans ?_
    have h1 := relu_abs (y + -x)
    have h2 := abs_add_le y (-x)
    rw [abs_neg] at h2
    linarith
  have ha : 0 ≤ a := (abs_nonneg _).trans h0u
  have ml : ∀ x y : α, |x| ≤ a → |y| ≤ b → |x * y - 0| ≤ a * b := by
    intro x y hx hy
    rw [sub_zero, abs_mul]; gcongr
  have mr : ∀ x y : α, |x| ≤ a → |y| ≤ b → |y * x - 0| ≤ a * b := by
    intro x y hx hy
    rw [mul_comm]; exact ml x y hx hy
  cases op with
  | add =>
    simp only [MergeOp.forward, MergeOp.size, addLayerT, hib, if_true, List.map_cons, List.map_nil, List.sum_cons, List.sum_nil, add_zero,
      tighten_ibp_eq]
    exact ⟨ab _ _ h0u h1u, ab _ _ h0l h1l⟩
  | average =>
    simp only [MergeOp.forward, MergeOp.size, averageLayerT, hib, if_true, List.map_cons, List.map_nil, List.sum_cons, List.sum_nil, add_zero,
      tighten_ibp_eq, List.length_cons, List.length_nil]
    push_cast
    norm_num [abs_div]
    have e1 := ab _ _ h0u h1u
    have e2 := ab _ _ h0l h1l
    constructor <;> gcongr
  | subtract =>
    simp only [MergeOp.forward, MergeOp.size, subtractT, addT, minusT, hib, if_true, tighten_ibp_eq]
    exact ⟨ab _ _ h0u (by rwa [abs_neg]), ab _ _ h0l (by rwa [abs_neg])⟩
  | maximum =>
    simp only [MergeOp.forward, MergeOp.size, maximumLayerT, List.foldl_cons, List.foldl_nil, maximumT, reluT, subtractT, addT, minusT, hib,
      if_true, tighten_ibp_eq]
    exact ⟨ba' _ _ _ h0l h0u h1u, ba' _ _ _ h0u h0l h1l⟩
  | minimum =>
    simp only [MergeOp.forward, MergeOp.size, minimumLayerT, List.map_cons, List.map_nil, maximumLayerT, List.foldl_cons, List.foldl_nil,
      maximumT, reluT, subtractT, addT, minusT, hib, if_true, tighten_ibp_eq]
    rw [abs_neg, abs_neg]
    exact ⟨ba' _ _ _ (by rwa [abs_neg]) (by rwa [abs_neg]) (by rwa [abs_neg]), ba' _ _ _ (by rwa [abs_neg]) (by rwa [abs_neg]) (by rwa [abs_neg])⟩
  | multiply =>
    simp only [MergeOp.forward, MergeOp.size, multiplyLayerT, List.foldl_cons, List.foldl_nil, multiplyT, hib, if_true, tighten_ibp_eq]
    have mx : ∀ x y : α, |x - 0| ≤ a * b → |y - 0| ≤ a * b → |max x y - 0| ≤ a * b := by
      intro x y hx hy
      have := max_drift hx hy
      rwa [max_self] at this
    have mn : ∀ x y : α, |x - 0| ≤ a * b → |y - 0| ≤ a * b → |min x y - 0| ≤ a * b := by
      intro x y hx hy
      have := min_drift hx hy
      rwa [min_self] at this
    constructor
    · have e1 := three_drift (mx _ _ (ml _ _ h0u h1u) (ml _ _ h0u h1l)) (mx _ _ (ml _ _ h0u h1l) (ml _ _ h0l h1l)) (ml _ _ h0u h1l)
      have e2 := three_drift (mx _ _ (mr _ _ h0u h1u) (mr _ _ h0l h1u)) (mx _ _ (mr _ _ h0l h1u) (mr _ _ h0l h1l)) (mr _ _ h0l h1u)
      have := min_drift e1 e2
      rwa [min_self, add_zero, sub_zero, sub_zero] at this
    · have := three_drift (mn _ _ (ml _ _ h0l h1l) (ml _ _ h0l h1u)) (mn _ _ (ml _ _ h0l h1l) (ml _ _ h0u h1l)) (ml _ _ h0l h1l)
      rwa [add_zero, sub_zero, sub_zero] at this

theorem MergeOp.drift_bounds (D D' : PertDomain X ι α) (eps eps' : α) (op : MergeOp) (f0 f1 f0' f1' : Full X ι κ α) (k : κ) (a b s t : α)
    (h0 : |f0.uc k| ≤ a ∧ |f0.lc k| ≤ a) (h1 : |f1.uc k| ≤ b ∧ |f1.lc k| ≤ b)
    (d0 : |f0.uc k - f0'.uc k| ≤ s ∧ |f0.lc k - f0'.lc k| ≤ s) (d1 : |f1.uc k - f1'.uc k| ≤ t ∧ |f1.lc k - f1'.lc k| ≤ t) :
    |(op.forward D .ibp eps f0 f1).uc k - (op.forward D' .ibp eps' f0' f1').uc k| ≤ op.drift a b s t ∧
      |(op.forward D .ibp eps f0 f1).lc k - (op.forward D' .ibp eps' f0' f1').lc k| ≤ op.drift a b s t := by
  have hib : getIbp .ibp = true := rfl
  obtain ⟨h0u, h0l⟩ := h0
  obtain ⟨h1u, h1l⟩ := h1
  obtain ⟨d0u, d0l⟩ := d0
  obtain ⟨d1u, d1l⟩ := d1
  have ab : ∀ x x' y y' : α, |x - x'| ≤ s → |y - y'| ≤ t → |(x + y) - (x' + y')| ≤ s + t := by
    intro x x' y y' hx hy
    rw [add_sub_add_comm]
    exact (abs_add_le _ _).trans (add_le_add hx hy)
  have ng : ∀ x x' : α, |-x - -x'| = |x - x'| := by
    intro x x'
    rw [neg_sub_neg, abs_sub_comm]
  have ba : ∀ x x' z z' y y' : α, |x - x'| ≤ s → |z - z'| ≤ s → |y - y'| ≤ t →
      |(relu (y + -x) + z) - (relu (y' + -x') + z')| ≤ 2 * s + t := by
    intro x x' z z' y y' hx hz hy
    rw [add_sub_add_comm]
    refine (abs_add_le _ _).trans ?_
    have h1 := relu_drift (y + -x) (y' + -x')
    have h2 := ab (-x) (-x') y y' (by rwa [ng]) hy
    rw [add_comm (-x), add_comm (-x')] at h2
    linarith
  have ml : ∀ x x' y y' : α, |x| ≤ a → |y| ≤ b → |x - x'| ≤ s → |y - y'| ≤ t → |x * y - x' * y'| ≤ a * t + s * b + s * t :=
    fun x x' y y' hx hy dx dy => mul_drift x x' y y' a b s t hx hy dx dy
  have mr : ∀ x x' y y' : α, |x| ≤ a → |y| ≤ b → |x - x'| ≤ s → |y - y'| ≤ t → |y * x - y' * x'| ≤ a * t + s * b + s * t := by
    intro x x' y y' hx hy dx dy
    rw [mul_comm y, mul_comm y']
    exact ml x x' y y' hx hy dx dy
  cases op with
  | add =>
    simp only [MergeOp.forward, MergeOp.drift, addLayerT, hib, if_true, List.map_cons, List.map_nil, List.sum_cons, List.sum_nil, add_zero,
      tighten_ibp_eq]
    exact ⟨ab _ _ _ _ d0u d1u, ab _ _ _ _ d0l d1l⟩
  | average =>
    simp only [MergeOp.forward, MergeOp.drift, averageLayerT, hib, if_true, List.map_cons, List.map_nil, List.sum_cons, List.sum_nil, add_zero,
      tighten_ibp_eq, List.length_cons, List.length_nil, ← sub_div, abs_div]
    have e1 := ab _ _ _ _ d0u d1u
    have e2 := ab _ _ _ _ d0l d1l
    have e3 : |((0 + 1 + 1 : ℕ) : α)| = 2 := by norm_num
    rw [e3]
    constructor <;> gcongr
  | subtract =>
    simp only [MergeOp.forward, MergeOp.drift, subtractT, addT, minusT, hib, if_true, tighten_ibp_eq]
    exact ⟨ab _ _ _ _ d0u (by rwa [ng]), ab _ _ _ _ d0l (by rwa [ng])⟩
  | maximum =>
    simp only [MergeOp.forward, MergeOp.drift, maximumLayerT, List.foldl_cons, List.foldl_nil, maximumT, reluT, subtractT, addT, minusT, hib,
      if_true, tighten_ibp_eq]
    exact ⟨ba _ _ _ _ _ _ d0l d0u d1u, ba _ _ _ _ _ _ d0u d0l d1l⟩
  | minimum =>
    simp only [MergeOp.forward, MergeOp.drift, minimumLayerT, List.map_cons, List.map_nil, maximumLayerT, List.foldl_cons, List.foldl_nil,
      maximumT, reluT, subtractT, addT, minusT, hib, if_true, tighten_ibp_eq]
    rw [ng, ng]
    exact ⟨ba _ _ _ _ _ _ (by rwa [ng]) (by rwa [ng]) (by rwa [ng]), ba _ _ _ _ _ _ (by rwa [ng]) (by rwa [ng]) (by rwa [ng])⟩
  | multiply =>
    simp only [MergeOp.forward, MergeOp.drift, multiplyLayerT, List.foldl_cons, List.foldl_nil, multiplyT, hib, if_true, tighten_ibp_eq]
    have uu := ml _ _ _ _ h0u h1u d0u d1u
    have ul := ml _ _ _ _ h0u h1l d0u d1l
    have lu := ml _ _ _ _ h0l h1u d0l d1u
    have ll := ml _ _ _ _ h0l h1l d0l d1l
    have uu' := mr _ _ _ _ h0u h1u d0u d1u
    have lu' := mr _ _ _ _ h0l h1u d0l d1u
    have ll' := mr _ _ _ _ h0l h1l d0l d1l
    exact ⟨min_drift (three_drift (max_drift uu ul) (max_drift ul ll) ul) (three_drift (max_drift uu' lu') (max_drift lu' ll') lu'),
      three_drift (min_drift ll lu) (min_drift ll ul) ll⟩

theorem Net.size_bounds [Fintype ι] (D : PertDomain X ι α) (eps : α) (sl : Slope) (N : Net β ι κ) (M : β → α) (σ : α) (hσ : 0 < σ)
    (hN : (N.map M).SdAbove σ) (inp : Full X ι ι α) (A : ι → α) (h : Bounded inp A) :
    Bounded ((N.map M).forward D .ibp eps sl inp) (N.size M σ A) := by
  induction N with
  | input => exact h
  | layer n l ih => exact l.size_bounds D eps sl M σ hσ hN.2 _ _ (ih hN.1)
  | merge op n0 n1 ih0 ih1 => exact fun k => op.size_bounds D eps _ _ k _ _ (ih0 hN.1 k) (ih1 hN.2 k)

theorem Net.drift_bounds [Fintype ι] (D D' : PertDomain X ι α) (eps eps' : α) (sl sl' : Slope) (N : Net β ι κ) (M M' : β → α) (δ : α)
    (hM : ∀ c, |M c - M' c| ≤ δ) (σ : α) (hσ : 0 < σ) (hN : (N.map M).SdAbove σ) (hN' : (N.map M').SdAbove σ) (inp inp' : Full X ι ι α)
    (A s : ι → α) (h : Bounded inp A) (hs : Within inp inp' s) :
    Within ((N.map M).forward D .ibp eps sl inp) ((N.map M').forward D' .ibp eps' sl' inp') (N.drift M δ σ A s) := by
  induction N with
  | input => exact hs
  | layer n l ih =>
    exact l.drift_bounds D D' eps eps' sl sl' M M' δ hM σ hσ hN.2 hN'.2 _ _ _ _ (n.size_bounds D eps sl M σ hσ hN.1 inp A h) (ih hN.1 hN'.1)
  | merge op n0 n1 ih0 ih1 =>
    exact fun k => op.drift_bounds D D' eps eps' _ _ _ _ k _ _ _ _ (n0.size_bounds D eps sl M σ hσ hN.1 inp A h k)
      (n1.size_bounds D eps sl M σ hσ hN.2 inp A h k) (ih0 hN.1 hN'.1 k) (ih1 hN.2 hN'.2 k)

end

end Decomon
