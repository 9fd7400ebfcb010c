import Verif.Props.Wrapper
import Mathlib.Algebra.Order.Archimedean.Basic

/-! Refinement of the boxes: width of the interval bounds, and the wrapper functions as maps over the sub-boxes. -/

namespace Decomon

section Width
variable {X ι κ κ' α : Type} [Field α] [LinearOrder α] [IsStrictOrderedRing α]

theorem tighten_ibp_eq (D : PertDomain X ι α) (c t : Bool) (f : Full X ι κ α) : f.tighten D .ibp c t = f := by simp [Full.tighten]

theorem relu_sub_le (a b w : α) (hw : 0 ≤ w) (h : a - b ≤ w) : relu a - relu b ≤ w := by
  unfold relu
  rcases max_cases a 0 with ⟨e, _⟩ | ⟨e, _⟩ <;> rcases max_cases b 0 with ⟨e', _⟩ | ⟨e', _⟩ <;> rw [e, e'] <;> linarith

theorem posneg_width {T : Type*} [Fintype T] (c l u w : T → α) (h : ∀ t, u t - l t ≤ w t) :
    ((∑ t, max 0 (c t) * u t) + ∑ t, min 0 (c t) * l t) - ((∑ t, max 0 (c t) * l t) + ∑ t, min 0 (c t) * u t) ≤
      ∑ t, |c t| * w t := by
  rw [← Finset.sum_add_distrib, ← Finset.sum_add_distrib, ← Finset.sum_sub_distrib]
  refine Finset.sum_le_sum fun t _ => ?_
  have e : max 0 (c t) * u t + min 0 (c t) * l t - (max 0 (c t) * l t + min 0 (c t) * u t) = |c t| * (u t - l t) := by
    rcases le_total 0 (c t) with h0 | h0
    · rw [max_eq_right h0, min_eq_left h0, abs_of_nonneg h0]; ring
    · rw [max_eq_left h0, min_eq_right h0, abs_of_nonpos h0]; ring
  rw [e]
  exact mul_le_mul_of_nonneg_left (h t) (abs_nonneg _)

/-- A layer multiplies the width of the constant bounds by at most a constant. -/
theorem Lay.width [Fintype κ] (D : PertDomain X ι α) (eps : α) (s : Slope) (l : Lay α κ κ') (hl : l.WF) (L : κ → α) (hL : ∀ k, 0 ≤ L k)
    (k : κ') : ∃ L', 0 ≤ L' ∧ ∀ (f : Full X ι κ α) (w : α), 0 ≤ w → (∀ t, f.uc t - f.lc t ≤ L t * w) →
      (l.forward D .ibp eps s f).uc k - (l.forward D .ibp eps s f).lc k ≤ L' * w := by
  have hib : getIbp .ibp = true := rfl
  cases l with
  | dense kernel bias =>
    refine ⟨∑ t, |kernel t k| * L t, Finset.sum_nonneg fun t _ => mul_nonneg (abs_nonneg _) (hL t), fun f w _ h => ?_⟩
    simp only [Lay.forward, denseT, hib, if_true, tighten_ibp_eq]
    have := posneg_width (fun t => kernel t k) _ _ _ h
    rw [Finset.sum_mul]
    simp only [mul_assoc]
    linarith
  | linear I kernel bias =>
    refine ⟨∑ t, |kernel (I.kidx k t)| * (I.src k t).elim 0 L, Finset.sum_nonneg fun t _ => mul_nonneg (abs_nonneg _) ?_, fun f w _ h => ?_⟩
    · cases I.src k t with
      | none => exact le_rfl
      | some a => exact hL a
    · simp only [Lay.forward, linearLayerT, hib, if_true, LinIndex.apply, tighten_ibp_eq]
      have h' : ∀ t, (I.src k t).elim 0 f.uc - (I.src k t).elim 0 f.lc ≤ (I.src k t).elim 0 L * w := by
        intro t
        cases I.src k t with
        | none => simp
        | some a => exact h a
      have := posneg_width (fun t => kernel (I.kidx k t)) _ _ _ h'
      rw [Finset.sum_mul]
      simp only [mul_assoc]
      linarith
  | relu gf gb =>
    refine ⟨L k, hL k, fun f w hw h => ?_⟩
    simp only [Lay.forward, reluT, hib, if_true, tighten_ibp_eq]
    exact relu_sub_le _ _ _ (mul_nonneg (hL k) hw) (h k)
  | batchNorm gamma beta mean sd =>
    have hsd : 0 < sd k := hl k
    refine ⟨|gamma k| * (L k / sd k), by have := hL k; positivity, fun f w hw h => ?_⟩
    simp only [Lay.forward, batchNormT, hib, if_true, tighten_ibp_eq]
    have e : ∀ u l : α, max 0 (gamma k) * ((u - mean k) / sd k) + min 0 (gamma k) * ((l - mean k) / sd k) + beta k -
        (max 0 (gamma k) * ((l - mean k) / sd k) + min 0 (gamma k) * ((u - mean k) / sd k) + beta k) = |gamma k| * ((u - l) / sd k) := by
      intro u l
      rcases le_total 0 (gamma k) with h0 | h0
      · rw [max_eq_right h0, min_eq_left h0, abs_of_nonneg h0]; ring
      · rw [max_eq_left h0, min_eq_right h0, abs_of_nonpos h0]; ring
    rw [e, mul_assoc, div_mul_eq_mul_div]
    have := h k
    gcongr
  | reshape e =>
    refine ⟨L (e k), hL _, fun f w _ h => ?_⟩
    simp only [Lay.forward, reindexT, hib, if_true, tighten_ibp_eq]
    exact h (e k)
  | skip => exact ⟨L k, hL k, fun f w _ h => h k⟩

/-- Width of the McCormick product of two intervals. -/
theorem mcc_width {u0 l0 u1 l1 U0 L0 U1 L1 w0 w1 : α} (hu0 : u0 ≤ U0) (hl0 : L0 ≤ l0) (hu1 : u1 ≤ U1) (hl1 : L1 ≤ l1)
    (h0 : l0 ≤ u0) (h1 : l1 ≤ u1) (hw0 : u0 - l0 ≤ w0) (hw1 : u1 - l1 ≤ w1) :
    (max (u0 * u1) (u0 * l1) + max (u0 * l1) (l0 * l1) - u0 * l1) - (min (l0 * l1) (l0 * u1) + min (l0 * l1) (u0 * l1) - l0 * l1) ≤
      3 * (|U1| + |L1|) * w0 + 2 * (|U0| + |L0|) * w1 := by
  have ab : ∀ {x lo hi : α}, lo ≤ x → x ≤ hi → |x| ≤ |hi| + |lo| := by
    intro x lo hi h2 h3
    rw [abs_le]
    constructor
    · linarith [neg_abs_le lo, abs_nonneg hi]
    · linarith [le_abs_self hi, abs_nonneg lo]
  have a1 := ab (hl0.trans h0) hu0
  have a2 := ab hl0 (h0.trans hu0)
  have a3 := ab hl1 (h1.trans hu1)
  have d0 : 0 ≤ u0 - l0 := sub_nonneg.2 h0
  have d1 : 0 ≤ u1 - l1 := sub_nonneg.2 h1
  have b1 : max (u0 * u1) (u0 * l1) ≤ u0 * l1 + |u0| * (u1 - l1) := by
    refine max_le ?_ ?_ <;> nlinarith [mul_le_mul_of_nonneg_right (le_abs_self u0) d1, mul_nonneg (abs_nonneg u0) d1]
  have b2 : max (u0 * l1) (l0 * l1) ≤ u0 * l1 + |l1| * (u0 - l0) := by
    refine max_le ?_ ?_ <;> nlinarith [mul_le_mul_of_nonneg_right (neg_abs_le l1) d0, mul_nonneg (abs_nonneg l1) d0]
  have b3 : l0 * l1 - |l0| * (u1 - l1) ≤ min (l0 * l1) (l0 * u1) := by
    refine le_min ?_ ?_ <;> nlinarith [mul_le_mul_of_nonneg_right (neg_abs_le l0) d1, mul_nonneg (abs_nonneg l0) d1]
  have b4 : l0 * l1 - |l1| * (u0 - l0) ≤ min (l0 * l1) (u0 * l1) := by
    refine le_min ?_ ?_ <;> nlinarith [mul_le_mul_of_nonneg_right (neg_abs_le l1) d0, mul_nonneg (abs_nonneg l1) d0]
  have b5 : (u0 - l0) * l1 ≤ |l1| * (u0 - l0) := by nlinarith [mul_le_mul_of_nonneg_right (le_abs_self l1) d0]
  have c1 : |u0| * (u1 - l1) ≤ (|U0| + |L0|) * w1 := mul_le_mul a1 hw1 d1 (by positivity)
  have c2 : |l0| * (u1 - l1) ≤ (|U0| + |L0|) * w1 := mul_le_mul a2 hw1 d1 (by positivity)
  have c3 : |l1| * (u0 - l0) ≤ (|U1| + |L1|) * w0 := mul_le_mul a3 hw0 d0 (by positivity)
  nlinarith

/-- Constant bounds of two tensors that lie in an interval and are not reversed. -/
structure Inside (f : Full X ι κ α) (g : Full X ι κ α) : Prop where
  tight : Tighter f g
  order : ∀ k, f.lc k ≤ f.uc k

theorem MergeOp.width (D : PertDomain X ι α) (eps : α) (op : MergeOp) (L0 L1 : α) (h0 : 0 ≤ L0) (h1 : 0 ≤ L1) (g0 g1 : Full X ι κ α)
    (k : κ) : ∃ L', 0 ≤ L' ∧ ∀ (f0 f1 : Full X ι κ α) (w : α), 0 ≤ w → Inside f0 g0 → Inside f1 g1 →
      f0.uc k - f0.lc k ≤ L0 * w → f1.uc k - f1.lc k ≤ L1 * w →
      (op.forward D .ibp eps f0 f1).uc k - (op.forward D .ibp eps f0 f1).lc k ≤ L' * w := by
  have hib : getIbp .ibp = true := rfl
  have key : ∀ a b c d w : α, 0 ≤ w → a - b ≤ L0 * w → c - d ≤ L1 * w → relu (c - b) - relu (d - a) ≤ (L1 + L0) * w := by
    intro a b c d w hw h2 h3
    exact relu_sub_le _ _ _ (by positivity) (by linarith)
  cases op with
  | add =>
    refine ⟨L0 + L1, by positivity, fun f0 f1 w _ _ _ h2 h3 => ?_⟩
    simp only [MergeOp.forward, addLayerT, hib, if_true, List.map_cons, List.map_nil, List.sum_cons, List.sum_nil, add_zero, tighten_ibp_eq]
    linarith
  | average =>
    refine ⟨(L0 + L1) / 2, by positivity, fun f0 f1 w _ _ _ h2 h3 => ?_⟩
    simp only [MergeOp.forward, averageLayerT, hib, if_true, List.map_cons, List.map_nil, List.sum_cons, List.sum_nil, add_zero, tighten_ibp_eq,
      List.length_cons, List.length_nil]
    push_cast
    linarith
  | subtract =>
    refine ⟨L0 + L1, by positivity, fun f0 f1 w _ _ _ h2 h3 => ?_⟩
    simp only [MergeOp.forward, subtractT, addT, minusT, hib, if_true, tighten_ibp_eq]
    linarith
  | maximum =>
    refine ⟨L1 + 2 * L0, by positivity, fun f0 f1 w hw _ _ h2 h3 => ?_⟩
    simp only [MergeOp.forward, maximumLayerT, List.foldl_cons, List.foldl_nil, maximumT, reluT, subtractT, addT, minusT, hib, if_true, tighten_ibp_eq]
    have := key (f0.uc k) (f0.lc k) (f1.uc k) (f1.lc k) w hw h2 h3
    simp only [sub_eq_add_neg] at this ⊢
    linarith
  | minimum =>
    refine ⟨L1 + 2 * L0, by positivity, fun f0 f1 w hw _ _ h2 h3 => ?_⟩
    simp only [MergeOp.forward, minimumLayerT, List.map_cons, List.map_nil, maximumLayerT, List.foldl_cons, List.foldl_nil, maximumT, reluT, subtractT, addT, minusT, hib, if_true, tighten_ibp_eq]
    have := key (-f0.lc k) (-f0.uc k) (-f1.lc k) (-f1.uc k) w hw (by linarith) (by linarith)
    simp only [sub_eq_add_neg, neg_neg] at this ⊢
    linarith
  | multiply =>
    refine ⟨3 * (|g1.uc k| + |g1.lc k|) * L0 + 2 * (|g0.uc k| + |g0.lc k|) * L1, by positivity, fun f0 f1 w hw i0 i1 h2 h3 => ?_⟩
    simp only [MergeOp.forward, multiplyT, hib, if_true, tighten_ibp_eq]
    have := mcc_width (i0.tight k).2 (i0.tight k).1 (i1.tight k).2 (i1.tight k).1 (i0.order k) (i1.order k) h2 h3
    refine le_trans (sub_le_sub_right (min_le_left _ _) _) (this.trans (le_of_eq ?_))
    ring

/-- The interval bounds of a network are Lipschitz in the width of the box, inside a fixed box. -/
theorem Net.width [Fintype ι] [DecidableEq ι] (eps : α) (he : 0 < eps) (s : Slope) (b : BoxOf ι α) (n : Net α ι κ) (hn : n.WF) (k : κ) :
    ∃ L, 0 ≤ L ∧ ∀ (c : BoxOf ι α) (w : α), GoodBox c → SubBox c b → 0 ≤ w → (∀ i, c.2 i - c.1 i ≤ w) →
      (n.forward boxDomain .ibp eps s (inputTensorsBox .ibp c.1 c.2)).uc k -
        (n.forward boxDomain .ibp eps s (inputTensorsBox .ibp c.1 c.2)).lc k ≤ L * w := by
  induction n with
  | input =>
    refine ⟨1, zero_le_one, fun c w _ _ _ h => ?_⟩
    simp only [Net.forward, inputTensorsBox, getIbp, if_true, one_mul]
    exact h k
  | layer n l ih =>
    choose L hL h using fun k => ih hn.1 k
    obtain ⟨L', h1, h2⟩ := Lay.width (X := (ι → α) × (ι → α)) (ι := ι) boxDomain eps s l hn.2 L hL k
    exact ⟨L', h1, fun c w hc hs hw hcw => h2 _ w hw fun t => h t c w hc hs hw hcw⟩
  | merge op n0 n1 ih0 ih1 =>
    obtain ⟨L0, h0, i0⟩ := ih0 hn.1 k
    obtain ⟨L1, h1, i1⟩ := ih1 hn.2 k
    obtain ⟨L', h2, h3⟩ := MergeOp.width (X := (ι → α) × (ι → α)) (ι := ι) boxDomain eps op L0 L1 h0 h1
      (n0.forward boxDomain .ibp eps s (inputTensorsBox .ibp b.1 b.2)) (n1.forward boxDomain .ibp eps s (inputTensorsBox .ibp b.1 b.2)) k
    refine ⟨L', h2, fun c w hc hs hw hcw => ?_⟩
    have sub : Box c.1 c.2 ⊆ Box b.1 b.2 := fun p hp i => ⟨(hs i).1.trans (hp i).1, (hp i).2.trans (hs i).2⟩
    have ins : ∀ {κ' : Type} (n' : Net α ι κ'), n'.WF → Inside (n'.forward boxDomain .ibp eps s (inputTensorsBox .ibp c.1 c.2))
        (n'.forward boxDomain .ibp eps s (inputTensorsBox .ibp b.1 b.2)) := fun n' hn' =>
      ⟨fun k => C32_ibp_monotone eps he s c.1 c.2 b.1 b.2 hc sub n' hn' k, fun k =>
        have := C27_box_ibp eps he s c.1 c.2 n' hn' c.1 (fun i => ⟨le_rfl, hc i⟩) k
        this.1.trans this.2⟩
    exact h3 _ _ w hw (ins n0 hn.1) (ins n1 hn.2) (i0 c w hc hs hw hcw) (i1 c w hc hs hw hcw)

end Width

/-! ### The wrapper functions as maps over the sub-boxes -/

section Maps
variable {n : ℕ} {X κ α : Type*} [Field α] [LinearOrder α] [IsStrictOrderedRing α]

omit [IsStrictOrderedRing α] in
theorem refineBoxes_le_one (nSub : ℕ) (h : nSub ≤ 1) (b : BoxOf (Fin (n + 1)) α) : refineBoxes true nSub b = [b] := by
  rcases Nat.le_one_iff_eq_zero_or_eq_one.1 h with rfl | rfl <;> simp [refineBoxes, refineLoop]

omit [IsStrictOrderedRing α] in
theorem refineBoxes_ne_nil (nSub : ℕ) (b : BoxOf (Fin (n + 1)) α) : refineBoxes true nSub b ≠ [] := by
  rcases Nat.eq_zero_or_pos nSub with rfl | h
  · rw [refineBoxes_le_one 0 (by omega)]; simp
  · intro e
    have := refineBoxes_length true nSub h b
    rw [e] at this
    exact (Nat.two_pow_pos (Nat.log 2 nSub)).ne this

/-- With one output, `get_range_box` returns for each box the extreme bounds over its sub-boxes. -/
theorem getRangeBox_one (net : BoxOf (Fin (n + 1)) α → Full X (Fin (n + 1)) (Fin 1) α) (m : Mode) (batch nSub : ℕ)
    (bs : List (BoxOf (Fin (n + 1)) α)) (hb : ∀ b ∈ bs, GoodBox b) :
    getRangeBox net m batch nSub bs =
      .ok (bs.map fun b => listMax ((refineBoxes true nSub b).map fun c => rangeUpper m c (net c) 0),
        bs.map fun b => listMin ((refineBoxes true nSub b).map fun c => rangeLower m c (net c) 0)) := by
  rcases eq_or_ne bs [] with rfl | h0
  · rw [getRangeBox_eq net m batch nSub [] (by simp)]
    unfold subBoxes
    split <;> simp [flatRows]
  by_cases hn : 2 ≤ nSub
  · obtain ⟨e, hK⟩ := subBoxes_split nSub hn bs h0
    have hgroup : ∀ g : BoxOf (Fin (n + 1)) α → Fin 1 → α,
        regroup (2 ^ Nat.log 2 nSub) (flatRows ((bs.flatMap (refineBoxes true nSub)).map g)) =
        bs.map fun b => (refineBoxes true nSub b).map fun c => g c 0 := by
      intro g
      have hflat : flatRows ((bs.flatMap (refineBoxes true nSub)).map g) =
          (bs.map fun b => (refineBoxes true nSub b).map fun c => g c 0).flatten := by
        rw [flatRows, List.flatMap_map, List.flatMap_assoc, List.flatMap_def]
        congr 1
        refine List.map_congr_left fun b _ => ?_
        rw [← List.flatMap_pure_eq_map]
        refine List.flatMap_congr fun c _ => ?_
        simp
      rw [hflat]
      refine regroup_flatten _ (by omega) _ fun l hl => ?_
      obtain ⟨b, -, rfl⟩ := List.mem_map.1 hl
      simp [refineBoxes_length true nSub (by omega)]
    rw [getRangeBox_eq net m batch nSub bs hb, e]
    dsimp only
    rw [if_pos hK, hgroup, hgroup, List.map_map, List.map_map]
    rfl
  · have e : subBoxes nSub bs = (bs, 1) := by unfold subBoxes; rw [if_neg (by omega)]
    rw [getRangeBox_eq net m batch nSub bs hb, e]
    simp only [lt_irrefl, if_false, refineBoxes_le_one nSub (by omega), List.map_cons, List.map_nil, listMax, listMin, List.foldl_nil]
    have : ∀ g : BoxOf (Fin (n + 1)) α → Fin 1 → α, flatRows (bs.map g) = bs.map fun c => g c 0 := by
      intro g
      rw [flatRows, List.flatMap_map, ← List.flatMap_pure_eq_map]
      exact List.flatMap_congr fun c _ => by simp
    rw [this, this]

/-- A relation that holds between samples and scores on every batch without sub-boxes gives one between samples and the maximum of the
scores of the sub-boxes. -/
theorem getAdvBox_map [Fintype κ] [Nonempty κ] (net : BoxOf (Fin (n + 1)) α → Full X (Fin (n + 1)) κ α) (m : Mode)
    (R : AdvSample (Fin (n + 1)) κ α → α → Prop) (batch nSub : ℕ) (rows : List (AdvSample (Fin (n + 1)) κ α))
    (P : (κ → α) → (κ → α) → Prop) (hP : ∀ r ∈ rows, P r.src r.tgt) (hb : ∀ r ∈ rows, GoodBox r.box)
    (hR : ∀ l : List (AdvSample (Fin (n + 1)) κ α), (∀ r ∈ l, GoodBox r.box ∧ P r.src r.tgt) →
      ∃ scs, advBase net m l = .ok scs ∧ List.Forall₂ R l scs) :
    ∃ scs, getAdvBox net m batch nSub rows = .ok scs ∧ List.Forall₂ (fun (r : AdvSample (Fin (n + 1)) κ α) sc =>
      ∃ grp, List.Forall₂ (fun b s => R ⟨b, r.src, r.tgt⟩ s) (refineBoxes true nSub r.box) grp ∧ sc = listMax grp) rows scs := by
  have hgood : badBoxes (rows.map AdvSample.box) = false :=
    (not_bad_iff _).2 (fun b hb' => by obtain ⟨r, hr, rfl⟩ := List.mem_map.1 hb'; exact hb r hr)
  have hsub : ∀ r ∈ advSub nSub rows, GoodBox r.box ∧ P r.src r.tgt := by
    intro r hr
    unfold advSub at hr
    split at hr
    · obtain ⟨r', hr', hr⟩ := List.mem_flatMap.1 hr
      obtain ⟨c, hc, rfl⟩ := List.mem_map.1 hr
      exact ⟨((covers_refine nSub r'.box).good (hb r' hr') c hc).1, hP r' hr'⟩
    · exact ⟨hb r hr, hP r hr⟩
  have key : ∃ rs, (if 0 < batch then collect ((batches batch (advSub nSub rows)).map (advBase net m))
        else collect [advBase net m (advSub nSub rows)]) = .ok rs ∧ List.Forall₂ R (advSub nSub rows) rs.flatten := by
    split
    · rename_i h
      have := forall₂_collect R (advBase net m) (batches batch (advSub nSub rows)) (fun l hl => hR l fun r hr => hsub r (by
        rw [← batches_flatten batch h (advSub nSub rows)]; exact List.mem_flatten.2 ⟨l, hl, hr⟩))
      rwa [batches_flatten batch h] at this
    · have := forall₂_collect R (advBase net m) [advSub nSub rows] (fun l hl => by
        rw [List.mem_singleton.1 hl]
        exact hR _ hsub)
      simpa using this
  obtain ⟨rs, h1, h2⟩ := key
  unfold getAdvBox
  rw [hgood]
  simp only [Bool.false_eq_true, if_false]
  unfold advSub at h1
  rw [h1]
  dsimp only
  by_cases hn : 1 < nSub
  · rcases eq_or_ne rows [] with rfl | h0
    · have : rs.flatten = [] := by
        have : advSub nSub ([] : List (AdvSample (Fin (n + 1)) κ α)) = [] := by simp [advSub]
        rw [this] at h2
        simpa using h2
      simp [this, regroup, subBoxes, hn]
    · obtain ⟨e, hK⟩ := subBoxes_split nSub hn (rows.map AdvSample.box) (by simpa using h0)
      rw [e]
      dsimp only
      rw [if_pos hK]
      unfold advSub at h2
      rw [if_pos hn] at h2
      obtain ⟨groups, hg1, hg2⟩ := forall₂_groups R _ rows _ h2
      have hlen : ∀ l ∈ groups, l.length = 2 ^ Nat.log 2 nSub := by
        intro l hl
        obtain ⟨i, hi, rfl⟩ := List.getElem_of_mem hl
        rw [List.forall₂_iff_get] at hg2
        have := (hg2.2 i (hg2.1 ▸ hi) hi).length_eq
        simp only [List.length_map, List.get_eq_getElem] at this
        rw [← this, refineBoxes_length true nSub (by omega)]
      refine ⟨_, rfl, ?_⟩
      rw [hg1, regroup_flatten _ (by omega) groups hlen, List.forall₂_map_right_iff]
      refine hg2.imp fun r grp hgrp => ⟨grp, ?_, rfl⟩
      rwa [List.forall₂_map_left_iff] at hgrp
  · have e : subBoxes nSub (rows.map AdvSample.box) = (rows.map AdvSample.box, 1) := by unfold subBoxes; rw [if_neg hn]
    rw [e]
    refine ⟨_, by simp only [lt_irrefl, if_false]; rfl, ?_⟩
    unfold advSub at h2
    rw [if_neg hn] at h2
    refine h2.imp fun r sc h => ⟨[sc], ?_, by simp [listMax]⟩
    rw [refineBoxes_le_one nSub (by omega)]
    exact .cons h .nil

/-- More splits: every new sub-box lies in an old one. -/
theorem iterate_refines (b : BoxOf (Fin (n + 1)) α) (hb : GoodBox b) (k j : ℕ) :
    ∀ c ∈ splitBoxes^[k + j] [b], ∃ d ∈ splitBoxes^[k] [b], SubBox c d := by
  induction j with
  | zero => exact fun c hc => ⟨c, hc, SubBox.refl c⟩
  | succ j ih =>
    intro c hc
    rw [← add_assoc, Function.iterate_succ_apply'] at hc
    simp only [splitBoxes, List.mem_append, List.mem_map] at hc
    rcases hc with ⟨a, ha, rfl⟩ | ⟨a, ha, rfl⟩
    · obtain ⟨d, hd, h⟩ := ih a ha
      exact ⟨d, hd, (good_low a _ ((covers_iterate _ b).good hb a ha).1).2.trans h⟩
    · obtain ⟨d, hd, h⟩ := ih a ha
      exact ⟨d, hd, (good_high a _ ((covers_iterate _ b).good hb a ha).1).2.trans h⟩

theorem refineBoxes_refines (b : BoxOf (Fin (n + 1)) α) (hb : GoodBox b) (nSub nSub' : ℕ) (h : nSub ≤ nSub') :
    ∀ c ∈ refineBoxes true nSub' b, ∃ d ∈ refineBoxes true nSub b, SubBox c d := by
  rcases Nat.eq_zero_or_pos nSub with rfl | h0
  · intro c hc
    rw [refineBoxes_le_one 0 (by omega)]
    exact ⟨b, by simp, ((covers_refine nSub' b).good hb c hc).2⟩
  · rw [refineBoxes_iterate nSub h0, refineBoxes_iterate nSub' (by omega)]
    obtain ⟨j, hj⟩ := Nat.exists_eq_add_of_le (Nat.log_mono_right (b := 2) h)
    rw [hj]
    exact iterate_refines b hb _ j

end Maps

end Decomon
