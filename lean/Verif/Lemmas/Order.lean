import Verif.Lemmas.FoldCrown
import Verif.Lemmas.SymmBack
import Verif.SpecOrder

/-! Helper lemmas on the comparison of the backward and the forward bounds. -/

namespace Decomon

section Back
variable {ι κ ν μ α : Type} [Fintype ι] [Fintype κ] [Fintype μ] [Field α] [LinearOrder α] [IsStrictOrderedRing α]

/-- A point between the bounds at which the upper bound of an affine form is attained. -/
theorem pick_upper (c u l : κ → α) (h : ∀ k, l k ≤ u k) :
    ∃ v : κ → α, (∀ k, l k ≤ v k ∧ v k ≤ u k) ∧ ∑ k, max 0 (c k) * u k + ∑ k, min 0 (c k) * l k = ∑ k, c k * v k := by
  refine ⟨fun k => if 0 ≤ c k then u k else l k, fun k => ?_, ?_⟩
  · dsimp only; split_ifs <;> simp [h k]
  · rw [← Finset.sum_add_distrib]
    refine Finset.sum_congr rfl fun k _ => ?_
    dsimp only
    split_ifs with h0
    · rw [max_eq_right h0, min_eq_left h0]; ring
    · have h1 : c k ≤ 0 := (not_le.1 h0).le
      rw [max_eq_left h1, min_eq_right h1]; ring

/-- The upper bound of a composition is the upper bound of the second map at a point between the bounds of the first. -/
theorem merge_upper_at (F : Back ι κ α) (b : Back κ ν α) (p : ι → α) (h : ∀ k, F.evalL p k ≤ F.evalU p k) (n : ν) :
    ∃ v : κ → α, (∀ k, F.evalL p k ≤ v k ∧ v k ≤ F.evalU p k) ∧ (mergeWithPrevious F b).evalU p n = b.evalU v n := by
  obtain ⟨v, hv, e⟩ := pick_upper (fun k => b.wu k n) _ _ h
  refine ⟨v, hv, ?_⟩
  rw [evalU_merge, e]; rfl

theorem merge_lower_at (F : Back ι κ α) (b : Back κ ν α) (p : ι → α) (h : ∀ k, F.evalL p k ≤ F.evalU p k) (n : ν) :
    ∃ v : κ → α, (∀ k, F.evalL p k ≤ v k ∧ v k ≤ F.evalU p k) ∧ (mergeWithPrevious F b).evalL p n = b.evalL v n := by
  obtain ⟨v, hv, e⟩ := pick_upper (fun k => b.wl k n) (fun k => -F.evalL p k) (fun k => -F.evalU p k) fun k => neg_le_neg (h k)
  refine ⟨fun k => -v k, fun k => ⟨by linarith [(hv k).2], by linarith [(hv k).1]⟩, ?_⟩
  rw [evalL_merge]
  simp only [mul_neg, Finset.sum_neg_distrib] at e
  simp only [Back.evalL, affEval, mul_neg, Finset.sum_neg_distrib] at e ⊢
  linarith

theorem upper_at_le (F : Back ι κ α) (b : Back κ ν α) (p : ι → α) (v : κ → α) (hv : ∀ k, F.evalL p k ≤ v k ∧ v k ≤ F.evalU p k) (n : ν) :
    b.evalU v n ≤ (mergeWithPrevious F b).evalU p n := by
  rw [evalU_merge, ← Finset.sum_add_distrib]
  unfold Back.evalU affEval
  gcongr with k
  rw [max_comm, min_comm]
  exact mul_le_posneg (hv k).1 (hv k).2

theorem le_lower_at (F : Back ι κ α) (b : Back κ ν α) (p : ι → α) (v : κ → α) (hv : ∀ k, F.evalL p k ≤ v k ∧ v k ≤ F.evalU p k) (n : ν) :
    (mergeWithPrevious F b).evalL p n ≤ b.evalL v n := by
  rw [evalL_merge, ← Finset.sum_add_distrib]
  conv_rhs => unfold Back.evalL affEval
  gcongr with k
  rw [max_comm, min_comm]
  exact posneg_le_mul (hv k).1 (hv k).2

/-- Composition keeps the order of the bounds. -/
theorem merge_mono (F G : Back ι κ α) (b : Back κ ν α) (p : ι → α) (hu : ∀ k, F.evalU p k ≤ G.evalU p k)
    (hl : ∀ k, G.evalL p k ≤ F.evalL p k) (n : ν) :
    (mergeWithPrevious F b).evalU p n ≤ (mergeWithPrevious G b).evalU p n ∧
      (mergeWithPrevious G b).evalL p n ≤ (mergeWithPrevious F b).evalL p n := by
  have a1 : ∀ c : α, 0 ≤ max 0 c := fun c => le_max_left _ _
  have a2 : ∀ c : α, min 0 c ≤ 0 := fun c => min_le_left _ _
  rw [evalU_merge, evalU_merge, evalL_merge, evalL_merge]
  constructor
  · refine add_le_add (add_le_add (Finset.sum_le_sum fun k _ => ?_) (Finset.sum_le_sum fun k _ => ?_)) le_rfl
    · exact mul_le_mul_of_nonneg_left (hu k) (a1 _)
    · exact mul_le_mul_of_nonpos_left (hl k) (a2 _)
  · refine add_le_add (add_le_add (Finset.sum_le_sum fun k _ => ?_) (Finset.sum_le_sum fun k _ => ?_)) le_rfl
    · exact mul_le_mul_of_nonneg_left (hl k) (a1 _)
    · exact mul_le_mul_of_nonpos_left (hu k) (a2 _)

/-- Composing from the output is at least as tight as composing from the input. -/
theorem merge_right_le (F : Back ι κ α) (a : Back κ μ α) (b : Back μ ν α) (p : ι → α) (h : ∀ k, F.evalL p k ≤ F.evalU p k) (n : ν) :
    (mergeWithPrevious F (mergeWithPrevious a b)).evalU p n ≤ (mergeWithPrevious (mergeWithPrevious F a) b).evalU p n ∧
      (mergeWithPrevious (mergeWithPrevious F a) b).evalL p n ≤ (mergeWithPrevious F (mergeWithPrevious a b)).evalL p n := by
  have a1 : ∀ c : α, 0 ≤ max 0 c := fun c => le_max_left _ _
  have a2 : ∀ c : α, min 0 c ≤ 0 := fun c => min_le_left _ _
  constructor
  · obtain ⟨v, hv, e⟩ := merge_upper_at F (mergeWithPrevious a b) p h n
    rw [e, evalU_merge, evalU_merge]
    refine add_le_add (add_le_add (Finset.sum_le_sum fun k _ => ?_) (Finset.sum_le_sum fun k _ => ?_)) le_rfl
    · exact mul_le_mul_of_nonneg_left (upper_at_le F a p v hv k) (a1 _)
    · exact mul_le_mul_of_nonpos_left (le_lower_at F a p v hv k) (a2 _)
  · obtain ⟨v, hv, e⟩ := merge_lower_at F (mergeWithPrevious a b) p h n
    rw [e, evalL_merge, evalL_merge]
    refine add_le_add (add_le_add (Finset.sum_le_sum fun k _ => ?_) (Finset.sum_le_sum fun k _ => ?_)) le_rfl
    · exact mul_le_mul_of_nonneg_left (le_lower_at F a p v hv k) (a1 _)
    · exact mul_le_mul_of_nonpos_left (upper_at_le F a p v hv k) (a2 _)

end Back

section Layers
variable {X ι κ κ' α : Type} [Fintype ι] [DecidableEq ι] [Field α] [LinearOrder α] [IsStrictOrderedRing α]

/-- The affine bounds of a full list of tensors. -/
def Full.toBack (f : Full X ι κ α) : Back ι κ α := ⟨f.wu, f.bu, f.wl, f.bl⟩

theorem toBack_ordered {m : Mode} (hm : getAffine m = true) {f : Full X ι κ α} {p : ι → α} {y : κ → α} (v : Valid m false f p y) (k : κ) :
    f.toBack.evalL p k ≤ f.toBack.evalU p k := (v.aff hm k).1.trans (v.aff hm k).2

/-- No activation. -/
def Lay.NoRelu : Lay α κ κ' → Prop
  | .dense _ _ => True
  | @Lay.linear _ _ _ _ _ _ _ _ _ => True
  | .relu _ _ => False
  | .batchNorm _ _ _ _ => True
  | .reshape _ => True
  | .skip => True

omit [Fintype ι] [DecidableEq ι] [IsStrictOrderedRing α] in
/-- The affine bounds of a layer without activation depend on the affine bounds of its input only. -/
theorem forward_toBack [Fintype κ] (D : PertDomain X ι α) (m : Mode) (hm : getAffine m = true) (eps : α) (s : Slope) (l : Lay α κ κ')
    (hr : l.NoRelu) (f : Full X ι κ α) : (l.forward D m eps s f).toBack = (l.forward D .affine eps s f).toBack := by
  have ha : getAffine .affine = true := rfl
  cases l with
  | dense K b => simp only [Lay.forward, denseT, Full.toBack, hm, ha, tighten_wu, tighten_wl, tighten_bu, tighten_bl]
  | linear L K b => simp only [Lay.forward, linearLayerT, Full.toBack, hm, ha, tighten_wu, tighten_wl, tighten_bu, tighten_bl]
  | relu gf gb => exact hr.elim
  | batchNorm g b mu sd => simp only [Lay.forward, batchNormT, Full.toBack, hm, ha, tighten_wu, tighten_wl, tighten_bu, tighten_bl]
  | reshape e => simp only [Lay.forward, reindexT, Full.toBack, hm, ha, tighten_wu, tighten_wl, tighten_bu, tighten_bl]
  | skip => rfl

theorem noRelu_backward [Fintype κ] [DecidableEq κ] (D : PertDomain X ι α) (m : Mode) (eps : α) (he : 0 < eps) (s : Slope) (l : Lay α κ κ')
    (hr : l.NoRelu) (hl : l.WF) (f : Full X ι κ α) (v : κ → α) (k : κ') :
    (l.backward D m eps s f).evalU v k = l.eval v k ∧ (l.backward D m eps s f).evalL v k = l.eval v k := by
  have e : (l.backward D m eps s f).evalU v k = (l.backward D m eps s f).evalL v k := by
    cases l <;> first | rfl | exact hr.elim
  have h : (l.backward D m eps s f).Holds v (l.eval v) := by
    cases l with
    | dense kernel bias => exact holds_dense kernel bias v
    | linear L kernel bias => exact holds_conv L kernel bias v
    | relu gf gb => exact hr.elim
    | batchNorm g b mu sd => exact holds_batchNorm g b mu sd v
    | reshape r => exact holds_reindex r v
    | skip => exact holds_identity v
  have h' := h k
  change (l.backward D m eps s f).evalL v k ≤ _ ∧ _ ≤ (l.backward D m eps s f).evalU v k at h'
  exact ⟨le_antisymm (e ▸ h'.1) h'.2, le_antisymm h'.1 (e ▸ h'.2)⟩

/-- One layer: composing its backward bounds with the affine bounds of its input is at least as tight as the forward layer. -/
theorem layer_inside [Fintype κ] [DecidableEq κ] (D : PertDomain X ι α) (m : Mode) (hm : getAffine m = true) (eps : α) (he : 0 < eps)
    (s : Slope) (l : Lay α κ κ') (hl : l.WF) (hg : l.SameAlpha) (f : Full X ι κ α) (S : Set (ι → α)) (hD : D.Sound f.x S) (p : ι → α)
    (hp : p ∈ S) (y : κ → α) (hv : Valid m false f p y) (k : κ') :
    (mergeWithPrevious f.toBack (l.backward D m eps s f)).evalU p k ≤ (l.forward D m eps s f).toBack.evalU p k ∧
      (l.forward D m eps s f).toBack.evalL p k ≤ (mergeWithPrevious f.toBack (l.backward D m eps s f)).evalL p k := by
  have ho := toBack_ordered hm hv
  have key : l.NoRelu → (mergeWithPrevious f.toBack (l.backward D m eps s f)).evalU p k ≤ (l.forward D m eps s f).toBack.evalU p k ∧
      (l.forward D m eps s f).toBack.evalL p k ≤ (mergeWithPrevious f.toBack (l.backward D m eps s f)).evalL p k := by
    intro hr
    have hs : l.SliverOK D .affine eps f := by cases l <;> first | trivial | exact hr.elim
    have hval : ∀ v : κ → α, (∀ k, f.toBack.evalL p k ≤ v k ∧ v k ≤ f.toBack.evalU p k) →
        (l.forward D .affine eps s f).toBack.evalL p k ≤ l.eval v k ∧ l.eval v k ≤ (l.forward D .affine eps s f).toBack.evalU p k :=
      fun v h => (l.forward_valid D .affine eps he s hl f S hD hs p hp v
        ⟨fun h => absurd h (by decide), fun _ => h, fun h => absurd h (by decide)⟩).aff rfl k
    rw [forward_toBack D m hm eps s l hr f]
    constructor
    · obtain ⟨v, h1, h2⟩ := merge_upper_at f.toBack (l.backward D m eps s f) p ho k
      rw [h2, (noRelu_backward D m eps he s l hr hl f v k).1]
      exact (hval v h1).2
    · obtain ⟨v, h1, h2⟩ := merge_lower_at f.toBack (l.backward D m eps s f) p ho k
      rw [h2, (noRelu_backward D m eps he s l hr hl f v k).2]
      exact (hval v h1).1
  cases l with
  | relu gf gb =>
    obtain rfl : gf = gb := hg
    have ht := tighten_const D m false f S hD p hp y hv k
    obtain ⟨n1, n2⟩ := hullRelu_nonneg s he (hl k).1.1 (hl k).1.2 (ht.1.trans ht.2)
    have eu : ((Lay.relu gf gf).forward D m eps s f).toBack.evalU p k =
        (linearHullRelu eps s (gf k) ((f.tighten D m true true).uc k) ((f.tighten D m true true).lc k)).wu * f.toBack.evalU p k +
        (linearHullRelu eps s (gf k) ((f.tighten D m true true).uc k) ((f.tighten D m true true).lc k)).bu := by
      simp only [Lay.forward, reluT, Full.toBack, Back.evalU, hm, if_true, tighten_wu, tighten_bu]
      rw [affEval_add_const, affEval_smul]
    have el : ((Lay.relu gf gf).forward D m eps s f).toBack.evalL p k =
        (linearHullRelu eps s (gf k) ((f.tighten D m true true).uc k) ((f.tighten D m true true).lc k)).wl * f.toBack.evalL p k +
        (linearHullRelu eps s (gf k) ((f.tighten D m true true).uc k) ((f.tighten D m true true).lc k)).bl := by
      simp only [Lay.forward, reluT, Full.toBack, Back.evalL, hm, if_true, tighten_wl, tighten_bl]
      rw [affEval_add_const, affEval_smul]
    rw [eu, el]
    constructor
    · obtain ⟨v, h1, h2⟩ := merge_upper_at f.toBack ((Lay.relu gf gf).backward D m eps s f) p ho k
      rw [h2]
      simp only [Lay.backward, backwardRelu, evalU_diag]
      exact add_le_add (mul_le_mul_of_nonneg_left (h1 k).2 n1) le_rfl
    · obtain ⟨v, h1, h2⟩ := merge_lower_at f.toBack ((Lay.relu gf gf).backward D m eps s f) p ho k
      rw [h2]
      simp only [Lay.backward, backwardRelu, evalU_diag]
      exact add_le_add (mul_le_mul_of_nonneg_left (h1 k).1 n2) le_rfl
  | _ => exact key trivial

end Layers

section Crown
variable {X ι α : Type} [fi : Fintype ι] [DecidableEq ι] [Field α] [LinearOrder α] [IsStrictOrderedRing α]

/-- The backward pass with the bounds of a forward pass is at least as tight as composing with the forward bounds. -/
theorem node_inside (C : CrownCfg X ι α) (hm : getAffine C.m = true) (he : 0 < C.eps) (hu : C.useForward = true) (S : Set (ι → α))
    (hS : C.D.Sound C.inp.x S) (hi : ∀ p ∈ S, Valid C.m false C.inp p p) {κ : Type} (n : Net α ι κ) (hc : n.Chain) (hw : n.WF)
    (hg : n.SameAlpha) (hs : n.SliverOK C.D C.m C.eps C.slope C.inp) : ∀ (_ : Fintype κ) (ν : Type) (b : Back κ ν α),
    ∃ r, (C.node n).next ν b = .ok r ∧ ∀ p ∈ S, ∀ k,
      r.evalU p k ≤ (mergeWithPrevious (n.forward C.D C.m C.eps C.slope C.inp).toBack b).evalU p k ∧
      (mergeWithPrevious (n.forward C.D C.m C.eps C.slope C.inp).toBack b).evalL p k ≤ r.evalL p k := by
  induction n with
  | input =>
    intro ft ν b
    obtain rfl : ft = fi := Subsingleton.elim _ _
    refine ⟨_, rfl, fun p hp k => ?_⟩
    rw [merge_identity_left, fuse, if_pos hm]
    exact ⟨le_rfl, le_rfl⟩
  | @layer κ κ' fk dk fk' n l ih =>
    intro ft ν b
    obtain rfl : ft = fk' := Subsingleton.elim _ _
    obtain ⟨r, h1, h2⟩ := ih hc hw.1 hg.1 hs.1 fk ν (mergeWithPrevious (l.backward C.D C.m C.eps C.slope (n.forward C.D C.m C.eps C.slope C.inp)) b)
    refine ⟨r, ?_, fun p hp k => ?_⟩
    · simp only [CrownCfg.node, CrownCfg.childInput, if_pos hu]
      exact h1
    · have hv := Net.forward_valid C.D C.m C.eps he C.slope C.inp S hS p hp (hi p hp) n hw.1 hs.1
      have a := merge_right_le _ (l.backward C.D C.m C.eps C.slope (n.forward C.D C.m C.eps C.slope C.inp)) b p (toBack_ordered hm hv) k
      have hL := layer_inside C.D C.m hm C.eps he C.slope l hw.2 hg.2 _ S (by rw [Net.forward_x]; exact hS) p hp _ hv
      have c := merge_mono _ _ b p (fun k => (hL k).1) (fun k => (hL k).2) k
      exact ⟨(h2 p hp k).1.trans (a.1.trans c.1), c.2.trans (a.2.trans (h2 p hp k).2)⟩
  | merge op n0 n1 => exact hc.elim

end Crown

end Decomon
