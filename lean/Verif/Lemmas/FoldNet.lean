import Verif.Lemmas.Fold

/-! Helper lemmas on the merging of linear layers: layers as `Dense` layers, networks. -/

namespace Decomon

section Layers
variable {X ι κ κ' α : Type} [Fintype κ] [DecidableEq κ] [Field α] [LinearOrder α] [IsStrictOrderedRing α] {D : PertDomain X ι α} {m : Mode}

/-- The value at zero of a layer. -/
def Lay.offset (l : Lay α κ κ') (k : κ') : α := l.eval (fun _ => 0) k

omit [IsStrictOrderedRing α] in
theorem coef_dense (K : κ → κ' → α) (b : κ' → α) (i : κ) (o : κ') : (Lay.dense K b).coef i o = K i o := by
  simp [Lay.coef, Lay.eval]

omit [IsStrictOrderedRing α] in
theorem coef_batchNorm (g b mu sd : κ → α) (i o : κ) : (Lay.batchNorm g b mu sd).coef i o = if i = o then g o / sd o else 0 := by
  simp only [Lay.coef, Lay.eval, eq_comm (a := o)]
  split_ifs <;> ring

omit [IsStrictOrderedRing α] in
theorem coef_reshape (e : κ' → κ) (i : κ) (o : κ') : (Lay.reshape e : Lay α κ κ').coef i o = if i = e o then 1 else 0 := by
  simp [Lay.coef, Lay.eval, eq_comm]

omit [IsStrictOrderedRing α] in
theorem coef_skip (i o : κ) : (Lay.skip : Lay α κ κ).coef i o = if i = o then 1 else 0 := by
  simp [Lay.coef, Lay.eval, eq_comm]

omit [IsStrictOrderedRing α] in
theorem coef_linear {O T Q : Type} [Fintype T] (L : LinIndex κ O T Q) (K : Q → α) (b : O → α) (i : κ) (o : O) :
    (Lay.linear L K b).coef i o = ∑ t, K (L.kidx o t) * (if L.src o t = some i then 1 else 0) := by
  simp only [Lay.coef, Lay.eval, add_sub_add_right_eq_sub, ← Finset.sum_sub_distrib, ← mul_sub]
  refine Finset.sum_congr rfl fun t _ => ?_
  cases L.src o t with
  | none => simp
  | some s => simp

/-- The taps of a convolution, gathered by input entry. -/
theorem linear_gather {O T Q : Type} [Fintype T] (L : LinIndex κ O T Q) (K : Q → α) (o : O)
    (hL : ∀ t t' s, L.src o t = some s → L.src o t' = some s → t = t') (F : α → α) (hF : F 0 = 0) (u : κ → α) :
    ∑ i, F (∑ t, K (L.kidx o t) * (if L.src o t = some i then 1 else 0)) * u i = ∑ t, F (K (L.kidx o t)) * (L.src o t).elim 0 u := by
  have h1 : ∀ i, F (∑ t, K (L.kidx o t) * (if L.src o t = some i then 1 else 0)) =
      ∑ t, F (K (L.kidx o t)) * (if L.src o t = some i then 1 else 0) := by
    intro i
    by_cases h : ∃ t, L.src o t = some i
    · obtain ⟨t, ht⟩ := h
      have hz : ∀ t', t' ≠ t → L.src o t' ≠ some i := fun t' hne h' => hne (hL _ _ _ h' ht)
      rw [Finset.sum_eq_single t (fun t' _ hne => by rw [if_neg (hz t' hne), mul_zero]) (fun h => absurd (Finset.mem_univ _) h),
        Finset.sum_eq_single t (fun t' _ hne => by rw [if_neg (hz t' hne), mul_zero]) (fun h => absurd (Finset.mem_univ _) h), if_pos ht, mul_one,
        mul_one]
    · push Not at h
      simp [h, hF]
  simp only [h1, Finset.sum_mul]
  rw [Finset.sum_comm]
  refine Finset.sum_congr rfl fun t _ => ?_
  cases L.src o t with
  | none => simp
  | some s => simp [mul_assoc]

theorem diag_max (o : κ) (c : α) (u : κ → α) : ∑ t, max 0 (if t = o then c else 0) * u t = max 0 c * u o := by
  rw [Finset.sum_eq_single o (fun t _ hne => by rw [if_neg hne]; simp) (fun h => absurd (Finset.mem_univ _) h), if_pos rfl]

theorem diag_min (o : κ) (c : α) (u : κ → α) : ∑ t, min 0 (if t = o then c else 0) * u t = min 0 c * u o := by
  rw [Finset.sum_eq_single o (fun t _ hne => by rw [if_neg hne]; simp) (fun h => absurd (Finset.mem_univ _) h), if_pos rfl]

/-- Every linear layer is the `Dense` layer with the same coefficients. -/
theorem plain_forward (l : Lay α κ κ') (hl : l.Plain) (eps : α) (s : Slope) (f : Full X ι κ α) :
    SameInfo D m (l.forward D m eps s f) (denseT D m false l.coef l.offset f) := by
  cases l with
  | dense K b =>
    have : denseT D m false (Lay.dense K b).coef (Lay.dense K b).offset f = denseT D m false K b f := by
      congr 1
      · funext i o; exact coef_dense K b i o
      · funext o; simp [Lay.offset, Lay.eval]
    rw [this]; exact SameInfo.rfl'
  | @linear O T Q _ L K b =>
    have ho : (Lay.linear L K b).offset = b := by
      funext o
      simp only [Lay.offset, Lay.eval]
      rw [Finset.sum_eq_zero, zero_add]
      intro t _
      cases L.src o t <;> simp
    have e1 : ∀ (u : κ → α) o, ∑ t, max 0 ((Lay.linear L K b).coef t o) * u t = L.apply (fun q => max 0 (K q)) u o := by
      intro u o
      simp only [coef_linear, LinIndex.apply]
      exact linear_gather L K o (hl o) (max 0) (max_self 0) u
    have e2 : ∀ (u : κ → α) o, ∑ t, min 0 ((Lay.linear L K b).coef t o) * u t = L.apply (fun q => min 0 (K q)) u o := by
      intro u o
      simp only [coef_linear, LinIndex.apply]
      exact linear_gather L K o (hl o) (min 0) (min_self 0) u
    have : denseT D m false (Lay.linear L K b).coef (Lay.linear L K b).offset f = linearLayerT D m false L K b f := by
      simp only [denseT, linearLayerT, e1, e2, ho]
    rw [this]; exact SameInfo.rfl'
  | relu gf gb => exact hl.elim
  | batchNorm g b mu sd =>
    have pos : ∀ o, max 0 (g o / sd o) = max 0 (g o) / sd o ∧ min 0 (g o / sd o) = min 0 (g o) / sd o := by
      intro o
      have hs := hl o
      rcases le_total 0 (g o) with hg | hg
      · rw [max_eq_right hg, min_eq_left hg, max_eq_right (div_nonneg hg hs.le), min_eq_left (div_nonneg hg hs.le), zero_div]
        exact ⟨rfl, rfl⟩
      · rw [max_eq_left hg, min_eq_right hg, max_eq_left (div_nonpos_of_nonpos_of_nonneg hg hs.le),
          min_eq_right (div_nonpos_of_nonpos_of_nonneg hg hs.le), zero_div]
        exact ⟨rfl, rfl⟩
    have e : ∀ o (u l : α), max 0 (g o) * (u / sd o) + min 0 (g o) * (l / sd o) + (Lay.batchNorm g b mu sd).offset o =
        max 0 (g o) * ((u - mu o) / sd o) + min 0 (g o) * ((l - mu o) / sd o) + b o := by
      intro o u l
      have h := pos_add_neg (g o)
      rw [max_comm, min_comm] at h
      simp only [Lay.offset, Lay.eval]
      have : g o * ((0 - mu o) / sd o) = max 0 (g o) * ((0 - mu o) / sd o) + min 0 (g o) * ((0 - mu o) / sd o) := by rw [← add_mul, h]
      rw [this]; ring
    have ew : ∀ o (a c : α), max 0 (g o) / sd o * a + min 0 (g o) / sd o * c = max 0 (g o) * (a / sd o) + min 0 (g o) * (c / sd o) := by
      intros; ring
    have : denseT D m false (Lay.batchNorm g b mu sd).coef (Lay.batchNorm g b mu sd).offset f = batchNormT D m g b mu sd f := by
      simp only [denseT, batchNormT, coef_batchNorm, diag_max, diag_min, pos, ew, e]
      simp
    rw [this]; exact SameInfo.rfl'
  | reshape e =>
    have e1 : ∀ (u : κ → α) o, ∑ t, max 0 ((Lay.reshape e : Lay α κ κ').coef t o) * u t = u (e o) := by
      intro u o
      simp only [coef_reshape, diag_max]; simp
    have e2 : ∀ (u : κ → α) o, ∑ t, min 0 ((Lay.reshape e : Lay α κ κ').coef t o) * u t = 0 := by
      intro u o
      simp only [coef_reshape, diag_min]; simp
    have : denseT D m false (Lay.reshape e : Lay α κ κ').coef (Lay.reshape e).offset f = reindexT D m false e f := by
      simp only [denseT, reindexT, e1, e2, Lay.offset, Lay.eval, add_zero]; simp
    rw [this]; exact SameInfo.rfl'
  | skip =>
    have e1 : ∀ (u : κ → α) o, ∑ t, max 0 ((Lay.skip : Lay α κ κ).coef t o) * u t = u o := by
      intro u o
      simp only [coef_skip, diag_max]; simp
    have e2 : ∀ (u : κ → α) o, ∑ t, min 0 ((Lay.skip : Lay α κ κ).coef t o) * u t = 0 := by
      intro u o
      simp only [coef_skip, diag_min]; simp
    have : denseT D m false (Lay.skip : Lay α κ κ).coef Lay.skip.offset f = reindexT D m false id f := by
      simp only [denseT, reindexT, e1, e2, Lay.offset, Lay.eval, add_zero, id]; simp
    rw [this]
    unfold SameInfo
    have : Agree m (f.tighten D m false true) (reindexT D m false id f) := by
      refine ⟨rfl, fun a => ?_, fun a => ?_, fun a => ?_, fun a => ?_, fun a => ?_, fun a => ?_⟩ <;> simp only [reindexT, a, if_true, id] <;> rfl
    have h2 := agree_tighten (D := D) this true
    rwa [tighten_twice] at h2

/-- A linear layer as a function. -/
theorem plain_eval (l : Lay α κ κ') (hl : l.Plain) (y : κ → α) (k : κ') : l.eval y k = ∑ i, l.coef i k * y i + l.offset k := by
  cases l with
  | dense K b => simp [coef_dense, Lay.offset, Lay.eval]
  | @linear O T Q _ L K b =>
    have h := linear_gather L K k (hl k) id rfl y
    have e1 : ∀ y : κ → α, (Lay.linear L K b).eval y k = ∑ t, K (L.kidx k t) * (L.src k t).elim 0 y + b k := fun y => by
      simp only [Lay.eval]
      congr 1
      exact Finset.sum_congr rfl fun t _ => by cases L.src k t <;> rfl
    have e2 : ∑ t, K (L.kidx k t) * (L.src k t).elim (0 : α) (fun _ => 0) = 0 :=
      Finset.sum_eq_zero fun t _ => by cases L.src k t <;> simp
    simp only [id] at h
    simp only [coef_linear, h, Lay.offset, e1, e2, zero_add]
  | relu gf gb => exact hl.elim
  | batchNorm g b mu sd =>
    simp only [coef_batchNorm, ite_mul, zero_mul, Finset.sum_ite_eq', Finset.mem_univ, if_true, Lay.offset, Lay.eval]
    ring
  | reshape e => simp [coef_reshape, Lay.offset, Lay.eval]
  | skip => simp [coef_skip, Lay.offset, Lay.eval]

/-- The coefficients of a composition. -/
theorem coef_comp {μ ν : Type} [Fintype μ] [DecidableEq μ] (l1 : Lay α κ μ) (l2 : Lay α μ ν) (l : Lay α κ ν) (h2 : l2.Plain)
    (hl : ∀ y, l.eval y = l2.eval (l1.eval y)) :
    (l.coef = fun i o => ∑ t, l1.coef i t * l2.coef t o) ∧ l.offset = fun o => ∑ t, l2.coef t o * l1.offset t + l2.offset o := by
  constructor
  · funext i o
    unfold Lay.coef
    rw [hl, hl, plain_eval l2 h2, plain_eval l2 h2, add_sub_add_right_eq_sub, ← Finset.sum_sub_distrib]
    refine Finset.sum_congr rfl fun t _ => ?_
    simp only [Lay.coef]; ring
  · funext o
    unfold Lay.offset
    rw [hl, plain_eval l2 h2]; rfl

omit [DecidableEq κ] [IsStrictOrderedRing α] in
/-- The layers read their inputs after the tightening. -/
theorem layer_same (l : Lay α κ κ') (eps : α) (s : Slope) {f g : Full X ι κ α} (h : SameInfo D m f g) :
    SameInfo D m (l.forward D m eps s f) (l.forward D m eps s g) := by
  cases l with
  | dense K b =>
    simp only [Lay.forward, denseT_eq, linMap_agree K b h]
    exact SameInfo.rfl'
  | linear L K b =>
    have : linearLayerT D m false L K b f = linearLayerT D m false L K b g := by
      unfold linearLayerT
      cases m <;> simp only [getIbp, getAffine, if_true, if_false, Bool.false_eq_true]
      · rw [h.x, h.uc rfl, h.lc rfl]
      · rw [h.x, h.wu rfl, h.bu rfl, h.wl rfl, h.bl rfl]
      · rw [h.x, h.uc rfl, h.lc rfl, h.wu rfl, h.bu rfl, h.wl rfl, h.bl rfl]
    simp only [Lay.forward, this]
    exact SameInfo.rfl'
  | relu gf gb =>
    have h := h.tight
    have : reluT D m false eps s gf f = reluT D m false eps s gf g := by
      unfold reluT
      have hx := h.x
      cases m <;> simp only [getIbp, getAffine, if_true, if_false, Bool.false_eq_true]
      · rw [hx, h.tuc, h.tlc]
      · rw [hx, h.tuc, h.tlc, h.wu rfl, h.bu rfl, h.wl rfl, h.bl rfl]
      · rw [hx, h.tuc, h.tlc, h.wu rfl, h.bu rfl, h.wl rfl, h.bl rfl]
    simp only [Lay.forward, this]
    exact SameInfo.rfl'
  | batchNorm ga b mu sd =>
    have : batchNormT D m ga b mu sd f = batchNormT D m ga b mu sd g := by
      unfold batchNormT
      cases m <;> simp only [getIbp, getAffine, if_true, if_false, Bool.false_eq_true]
      · rw [h.x, h.uc rfl, h.lc rfl]
      · rw [h.x, h.wu rfl, h.bu rfl, h.wl rfl, h.bl rfl]
      · rw [h.x, h.uc rfl, h.lc rfl, h.wu rfl, h.bu rfl, h.wl rfl, h.bl rfl]
    simp only [Lay.forward, this]
    exact SameInfo.rfl'
  | reshape e =>
    have : reindexT D m false e f = reindexT D m false e g := by
      unfold reindexT
      cases m <;> simp only [getIbp, getAffine, if_true, if_false, Bool.false_eq_true]
      · rw [h.x, h.uc rfl, h.lc rfl]
      · rw [h.x, h.wu rfl, h.bu rfl, h.wl rfl, h.bl rfl]
      · rw [h.x, h.uc rfl, h.lc rfl, h.wu rfl, h.bu rfl, h.wl rfl, h.bl rfl]
    simp only [Lay.forward, this]
    exact SameInfo.rfl'
  | skip => exact h

omit [Fintype κ] [DecidableEq κ] [IsStrictOrderedRing α] in
theorem add_same {f g f' g' : Full X ι κ α} (h : SameInfo D m f f') (h' : SameInfo D m g g') :
    SameInfo D m (addT D m f g) (addT D m f' g') := by
  have a := h.tight
  have b := h'.tight
  refine SameInfo.of_agree ⟨a.x, fun _ => ?_, fun _ => ?_, fun ha => ?_, fun ha => ?_, fun ha => ?_, fun ha => ?_⟩
  · simp only [addT, a.tuc, b.tuc]
  · simp only [addT, a.tlc, b.tlc]
  · simp only [addT, a.wu ha, b.wu ha]
  · simp only [addT, a.bu ha, b.bu ha]
  · simp only [addT, a.wl ha, b.wl ha]
  · simp only [addT, a.bl ha, b.bl ha]

omit [Fintype κ] [DecidableEq κ] in
theorem tighten_minus (f : Full X ι κ α) (hD : D.Scales f.x) :
    Agree m ((minusT D m f).tighten D m false true) (minusT D m (f.tighten D m false true)) := by
  have e : ∀ f : Full X ι κ α, minusT D m f = ⟨f.x, fun k => -f.lc k, fun i k => -f.wl i k, fun k => -f.bl k, fun k => -f.uc k, fun i k => -f.wu i k,
      fun k => -f.bu k, fun k => -f.g k, fun k => -f.h k⟩ := fun f => by cases m <;> rfl
  rw [e, e]
  cases m with
  | ibp => exact Agree.rfl'
  | affine => exact Agree.rfl'
  | hybrid =>
    have h := fun w b => (hD (-1) 0 w b).2 (by norm_num)
    simp only [neg_one_mul, add_zero] at h
    refine ⟨rfl, fun _ => ?_, fun _ => ?_, fun _ => rfl, fun _ => rfl, fun _ => rfl, fun _ => rfl⟩
    · funext k
      simp only [Full.tighten, Bool.false_and, Bool.true_and, beq_self_eq_true, Bool.or_true, if_true,
        show (Mode.hybrid == Mode.affine) = false from rfl, Bool.false_eq_true, if_false, (h _ _).1, max_neg_neg, min_neg_neg]
    · funext k
      simp only [Full.tighten, Bool.false_and, Bool.true_and, beq_self_eq_true, Bool.or_true, if_true,
        show (Mode.hybrid == Mode.affine) = false from rfl, Bool.false_eq_true, if_false, (h _ _).2, max_neg_neg, min_neg_neg]

omit [Fintype κ] [DecidableEq κ] in
theorem minus_same {f g : Full X ι κ α} (hD : D.Scales f.x) (hD' : D.Scales g.x) (h : SameInfo D m f g) :
    SameInfo D m (minusT D m f) (minusT D m g) := by
  refine (tighten_minus f hD).trans (Agree.trans ?_ (tighten_minus g hD').symm)
  have e : ∀ f : Full X ι κ α, minusT D m f = ⟨f.x, fun k => -f.lc k, fun i k => -f.wl i k, fun k => -f.bl k, fun k => -f.uc k, fun i k => -f.wu i k,
      fun k => -f.bu k, fun k => -f.g k, fun k => -f.h k⟩ := fun f => by cases m <;> rfl
  rw [e, e]
  refine ⟨h.x, fun a => ?_, fun a => ?_, fun a => ?_, fun a => ?_, fun a => ?_, fun a => ?_⟩
  · simp only [h.lc a]
  · simp only [h.uc a]
  · simp only [h.wl a]
  · simp only [h.bl a]
  · simp only [h.wu a]
  · simp only [h.bu a]

omit [Fintype κ] [DecidableEq κ] in
theorem maximum_same (eps : α) {f g f' g' : Full X ι κ α} (hD : D.Scales f.x) (hD' : D.Scales f'.x) (h : SameInfo D m f f')
    (h' : SameInfo D m g g') : SameInfo D m (maximumT D m false eps (fun _ => 1) f g) (maximumT D m false eps (fun _ => 1) f' g') := by
  have hs := add_same h' (minus_same hD hD' h)
  have h1 := hs.tight
  refine add_same ?_ h
  have : reluT D m false eps .vSlope (fun _ => 1) (subtractT D m g f) = reluT D m false eps .vSlope (fun _ => 1) (subtractT D m g' f') := by
    unfold reluT
    have hx := h1.x
    unfold subtractT
    cases m <;> simp only [getIbp, getAffine, if_true, if_false, Bool.false_eq_true]
    · rw [hx, h1.tuc, h1.tlc]
    · rw [hx, h1.tuc, h1.tlc, h1.wu rfl, h1.bu rfl, h1.wl rfl, h1.bl rfl]
    · rw [hx, h1.tuc, h1.tlc, h1.wu rfl, h1.bu rfl, h1.wl rfl, h1.bl rfl]
  rw [this]
  exact SameInfo.rfl'

omit [Fintype κ] [DecidableEq κ] in
theorem merge_same (op : MergeOp) (eps : α) {f g f' g' : Full X ι κ α} (hf : D.Scales f.x) (hf' : D.Scales f'.x) (hg : D.Scales g.x)
    (hg' : D.Scales g'.x) (h : SameInfo D m f f') (h' : SameInfo D m g g') :
    SameInfo D m (op.forward D m eps f g) (op.forward D m eps f' g') := by
  have hx : f.x = f'.x := by
    have := h.x
    cases m <;> exact this
  have mx : ∀ f : Full X ι κ α, (minusT D m f).x = f.x := fun f => by cases m <;> rfl
  cases op with
  | add =>
    refine SameInfo.of_agree ⟨hx, fun a => ?_, fun a => ?_, fun a => ?_, fun a => ?_, fun a => ?_, fun a => ?_⟩ <;>
      simp only [MergeOp.forward, addLayerT, List.map_cons, List.map_nil, a, if_true]
    · rw [h.uc a, h'.uc a]
    · rw [h.lc a, h'.lc a]
    · rw [h.wu a, h'.wu a]
    · rw [h.bu a, h'.bu a]
    · rw [h.wl a, h'.wl a]
    · rw [h.bl a, h'.bl a]
  | average =>
    refine SameInfo.of_agree ⟨hx, fun a => ?_, fun a => ?_, fun a => ?_, fun a => ?_, fun a => ?_, fun a => ?_⟩ <;>
      simp only [MergeOp.forward, averageLayerT, List.map_cons, List.map_nil, a, if_true, List.length_cons, List.length_nil]
    · rw [h.uc a, h'.uc a]
    · rw [h.lc a, h'.lc a]
    · rw [h.wu a, h'.wu a]
    · rw [h.bu a, h'.bu a]
    · rw [h.wl a, h'.wl a]
    · rw [h.bl a, h'.bl a]
  | subtract => exact add_same h (minus_same hg hg' h')
  | maximum => exact maximum_same eps hf hf' h h'
  | minimum =>
    have hx1 : ∀ f g : Full X ι κ α, (maximumT D m false eps (fun _ => 1) f g).x = g.x := fun f g => by cases m <;> rfl
    have hx2 : ∀ f g : Full X ι κ α, (maximumLayerT D m eps f (List.map (minusT D m) [g])).x = g.x := fun f g => (hx1 _ _).trans (mx g)
    exact minus_same (by rw [hx2]; exact hg) (by rw [hx2]; exact hg')
      (maximum_same eps (by rw [mx]; exact hf) (by rw [mx]; exact hf') (minus_same hf hf' h) (minus_same hg hg' h'))
  | multiply =>
    have a := h.tight
    have b := h'.tight
    have hx := a.x
    have : multiplyT D m f g = multiplyT D m f' g' := by
      unfold multiplyT
      cases m <;> simp only [getIbp, getAffine, if_true, if_false, Bool.false_eq_true]
      · rw [hx, a.tuc, a.tlc, b.tuc, b.tlc]
      · rw [hx, a.tuc, a.tlc, b.tlc, a.wu rfl, a.bu rfl, a.wl rfl, a.bl rfl, b.wu rfl, b.bu rfl, b.wl rfl, b.bl rfl]
      · rw [hx, a.tuc, a.tlc, b.tuc, b.tlc, a.wu rfl, a.bu rfl, a.wl rfl, a.bl rfl, b.wu rfl, b.bu rfl, b.wl rfl, b.bl rfl]
    simp only [MergeOp.forward, multiplyLayerT, List.foldl_cons, List.foldl_nil, this]
    exact SameInfo.rfl'

end Layers

end Decomon
