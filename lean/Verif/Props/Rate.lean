import Verif.SpecRate
import Verif.Props.Refine

/-! Theorems about the rate at which refining the box converges (C111). -/

namespace Decomon

section
variable {X ι κ κ' α : Type} [Field α] [LinearOrder α] [IsStrictOrderedRing α]

theorem Lay.spread_nonneg [Fintype κ] (l : Lay α κ κ') (hl : l.WF) (s : κ → α) (hs : ∀ k, 0 ≤ s k) (k : κ') : 0 ≤ l.spread s k := by
  cases l with
  | dense kernel bias => exact Finset.sum_nonneg fun t _ => mul_nonneg (abs_nonneg _) (hs t)
  | linear I kernel bias =>
    refine Finset.sum_nonneg fun t _ => mul_nonneg (abs_nonneg _) ?_
    cases I.src k t with
    | none => exact le_rfl
    | some a => exact hs a
  | relu gf gb => exact hs k
  | batchNorm gamma beta mean sd => exact mul_nonneg (div_nonneg (abs_nonneg _) (hl k).le) (hs k)
  | reshape e => exact hs _
  | skip => exact hs k

theorem Lay.width_spread [Fintype κ] (D : PertDomain X ι α) (eps : α) (sl : Slope) (l : Lay α κ κ') (hl : l.WF) (s : κ → α) (hs : ∀ k, 0 ≤ s k)
    (f : Full X ι κ α) (h : ∀ t, f.uc t - f.lc t ≤ s t) (k : κ') :
      (l.forward D .ibp eps sl f).uc k - (l.forward D .ibp eps sl f).lc k ≤ l.spread s k := by
  have hib : getIbp .ibp = true := rfl
  cases l with
  | dense kernel bias =>
    simp only [Lay.forward, Lay.spread, denseT, hib, if_true, tighten_ibp_eq]
    have := posneg_width (fun t => kernel t k) _ _ _ h
    linarith
  | linear I kernel bias =>
    simp only [Lay.forward, Lay.spread, linearLayerT, hib, if_true, LinIndex.apply, tighten_ibp_eq]
    have h' : ∀ t, (I.src k t).elim 0 f.uc - (I.src k t).elim 0 f.lc ≤ (I.src k t).elim 0 s := by
      intro t
      cases I.src k t with
      | none => simp
      | some a => exact h a
    have := posneg_width (fun t => kernel (I.kidx k t)) _ _ _ h'
    linarith
  | relu gf gb =>
    simp only [Lay.forward, Lay.spread, reluT, hib, if_true, tighten_ibp_eq]
    exact relu_sub_le _ _ _ (hs k) (h k)
  | batchNorm gamma beta mean sd =>
    have hsd : 0 < sd k := hl k
    simp only [Lay.forward, Lay.spread, batchNormT, hib, if_true, tighten_ibp_eq]
    have e : ∀ u l : α, max 0 (gamma k) * ((u - mean k) / sd k) + min 0 (gamma k) * ((l - mean k) / sd k) + beta k -
        (max 0 (gamma k) * ((l - mean k) / sd k) + min 0 (gamma k) * ((u - mean k) / sd k) + beta k) = |gamma k| / sd k * (u - l) := by
      intro u l
      rcases le_total 0 (gamma k) with h0 | h0
      · rw [max_eq_right h0, min_eq_left h0, abs_of_nonneg h0]; ring
      · rw [max_eq_left h0, min_eq_right h0, abs_of_nonpos h0]; ring
    rw [e]
    have := h k
    gcongr
  | reshape e =>
    simp only [Lay.forward, Lay.spread, reindexT, hib, if_true, tighten_ibp_eq]
    exact h (e k)
  | skip => exact h k

theorem MergeOp.width_spread (D : PertDomain X ι α) (eps : α) (op : MergeOp) (hop : op ≠ .multiply) (f0 f1 : Full X ι κ α) (k : κ) (a b : α)
    (ha : 0 ≤ a) (hb : 0 ≤ b) (h2 : f0.uc k - f0.lc k ≤ a) (h3 : f1.uc k - f1.lc k ≤ b) :
      (op.forward D .ibp eps f0 f1).uc k - (op.forward D .ibp eps f0 f1).lc k ≤ op.spread a b := by
  have hib : getIbp .ibp = true := rfl
  have key : ∀ u l u' l' : α, u - l ≤ a → u' - l' ≤ b → relu (u' - l) - relu (l' - u) ≤ b + a := by
    intro u l u' l' h2 h3
    exact relu_sub_le _ _ _ (by positivity) (by linarith)
  cases op with
  | add =>
    simp only [MergeOp.forward, MergeOp.spread, addLayerT, hib, if_true, List.map_cons, List.map_nil, List.sum_cons, List.sum_nil, add_zero,
      tighten_ibp_eq]
    linarith
  | average =>
    simp only [MergeOp.forward, MergeOp.spread, averageLayerT, hib, if_true, List.map_cons, List.map_nil, List.sum_cons, List.sum_nil, add_zero,
      tighten_ibp_eq, List.length_cons, List.length_nil]
    push_cast
    linarith
  | subtract =>
    simp only [MergeOp.forward, MergeOp.spread, subtractT, addT, minusT, hib, if_true, tighten_ibp_eq]
    linarith
  | maximum =>
    simp only [MergeOp.forward, MergeOp.spread, maximumLayerT, List.foldl_cons, List.foldl_nil, maximumT, reluT, subtractT, addT, minusT, hib,
      if_true, tighten_ibp_eq]
    have := key (f0.uc k) (f0.lc k) (f1.uc k) (f1.lc k) h2 h3
    simp only [sub_eq_add_neg] at this ⊢
    linarith
  | minimum =>
    simp only [MergeOp.forward, MergeOp.spread, minimumLayerT, List.map_cons, List.map_nil, maximumLayerT, List.foldl_cons, List.foldl_nil,
      maximumT, reluT, subtractT, addT, minusT, hib, if_true, tighten_ibp_eq]
    have := key (-f0.lc k) (-f0.uc k) (-f1.lc k) (-f1.uc k) (by linarith) (by linarith)
    simp only [sub_eq_add_neg, neg_neg] at this ⊢
    linarith
  | multiply => exact absurd rfl hop

theorem Net.spread_nonneg (n : Net α ι κ) (hn : n.WF) (s : ι → α) (hs : ∀ k, 0 ≤ s k) (k : κ) : 0 ≤ n.spread s k := by
  induction n with
  | input => exact hs k
  | layer n l ih => exact l.spread_nonneg hn.2 _ (fun t => ih hn.1 t) k
  | merge op n0 n1 ih0 ih1 =>
    have h0 := ih0 hn.1 k
    have h1 := ih1 hn.2 k
    simp only [Net.spread]
    cases op <;> simp only [MergeOp.spread] <;> positivity

/-- Boxes of equal widths. -/
theorem Net.spread_const (n : Net α ι κ) (w : α) (k : κ) : n.spread (fun _ => w) k = n.spread (fun _ => 1) k * w := by
  induction n with
  | input => simp [Net.spread]
  | layer n l ih =>
    simp only [Net.spread]
    have e : n.spread (fun _ => w) = fun t => n.spread (fun _ => 1) t * w := funext ih
    rw [e]
    cases l with
    | dense kernel bias => simp only [Lay.spread, Finset.sum_mul, mul_assoc]
    | linear I kernel bias =>
      simp only [Lay.spread, Finset.sum_mul]
      refine Finset.sum_congr rfl fun t _ => ?_
      cases I.src k t <;> simp [mul_assoc]
    | relu gf gb => rfl
    | batchNorm gamma beta mean sd => simp only [Lay.spread, mul_assoc]
    | reshape e => rfl
    | skip => rfl
  | merge op n0 n1 ih0 ih1 =>
    simp only [Net.spread, ih0, ih1]
    cases op <;> simp only [MergeOp.spread] <;> ring

/-- C111: the interval bounds of a network without `Multiply` on a box of widths at most `s` are at most `N.spread s` wide: every layer
spreads the intervals by the absolute values of its weights only. -/
theorem C111_width [Fintype ι] [DecidableEq ι] (eps : α) (sl : Slope) (N : Net α ι κ) (hN : N.WF) (hm : N.NoMultiply) (b : BoxOf ι α)
    (s : ι → α) (hs : ∀ i, 0 ≤ s i) (hb : ∀ i, b.2 i - b.1 i ≤ s i) (k : κ) :
    (N.onBox .ibp eps sl b).uc k - (N.onBox .ibp eps sl b).lc k ≤ N.spread s k := by
  unfold Net.onBox
  induction N with
  | input => simpa only [Net.forward, Net.spread, inputTensorsBox, getIbp, if_true] using hb k
  | layer n l ih =>
    exact l.width_spread boxDomain eps sl hN.2 _ (fun t => n.spread_nonneg hN.1 s hs t) _ (fun t => ih hN.1 hm t) k
  | merge op n0 n1 ih0 ih1 =>
    exact op.width_spread boxDomain eps hm.1 _ _ k _ _ (n0.spread_nonneg hN.1 s hs k) (n1.spread_nonneg hN.2 s hs k) (ih0 hN.1 hm.2.1 k)
      (ih1 hN.2 hm.2.2 k)

theorem posneg_width_eq {T : Type*} [Fintype T] (c l u : T → α) :
    ((∑ t, max 0 (c t) * u t) + ∑ t, min 0 (c t) * l t) - ((∑ t, max 0 (c t) * l t) + ∑ t, min 0 (c t) * u t) =
      ∑ t, |c t| * (u t - l t) := by
  rw [← Finset.sum_add_distrib, ← Finset.sum_add_distrib, ← Finset.sum_sub_distrib]
  refine Finset.sum_congr rfl fun t _ => ?_
  rcases le_total 0 (c t) with h0 | h0
  · rw [max_eq_right h0, min_eq_left h0, abs_of_nonneg h0]; ring
  · rw [max_eq_left h0, min_eq_right h0, abs_of_nonpos h0]; ring

/-- C111: the spread cannot be improved: on a network of affine layers the interval bounds are exactly as wide as it says. -/
theorem C111_sharp [Fintype ι] [DecidableEq ι] (eps : α) (sl : Slope) (N : Net α ι κ) (hN : N.IsAffine) (b : BoxOf ι α) (k : κ) :
    (N.onBox .ibp eps sl b).uc k - (N.onBox .ibp eps sl b).lc k = N.spread (fun i => b.2 i - b.1 i) k := by
  have hib : getIbp .ibp = true := rfl
  unfold Net.onBox
  induction N with
  | input => simp only [Net.forward, Net.spread, inputTensorsBox, getIbp, if_true]
  | layer n l ih =>
    have ih := fun t => ih hN.1 t
    simp only [Net.forward, Net.spread, ← funext ih]
    generalize n.forward boxDomain .ibp eps sl _ = f
    cases l with
    | dense kernel bias =>
      simp only [Lay.forward, Lay.spread, denseT, hib, if_true, tighten_ibp_eq]
      rw [← posneg_width_eq]; ring
    | linear I kernel bias =>
      simp only [Lay.forward, Lay.spread, linearLayerT, hib, if_true, LinIndex.apply, tighten_ibp_eq]
      have h' : ∀ t, (I.src k t).elim 0 (fun t => f.uc t - f.lc t) = (I.src k t).elim 0 f.uc - (I.src k t).elim 0 f.lc := by
        intro t
        cases I.src k t <;> simp
      simp only [h']
      rw [← posneg_width_eq]; ring
    | relu gf gb => exact absurd hN.2 id
    | batchNorm gamma beta mean sd =>
      simp only [Lay.forward, Lay.spread, batchNormT, hib, if_true, tighten_ibp_eq]
      rcases le_total 0 (gamma k) with h0 | h0
      · rw [max_eq_right h0, min_eq_left h0, abs_of_nonneg h0]; ring
      · rw [max_eq_left h0, min_eq_right h0, abs_of_nonpos h0]; ring
    | reshape e => simp only [Lay.forward, Lay.spread, reindexT, hib, if_true, tighten_ibp_eq]
    | skip => rfl
  | merge op n0 n1 ih0 ih1 =>
    simp only [Net.forward, Net.spread, ← ih0 hN.2.1, ← ih1 hN.2.2]
    rcases hN.1 with rfl | rfl | rfl
    · simp only [MergeOp.forward, MergeOp.spread, addLayerT, hib, if_true, List.map_cons, List.map_nil, List.sum_cons, List.sum_nil, add_zero,
        tighten_ibp_eq]
      ring
    · simp only [MergeOp.forward, MergeOp.spread, averageLayerT, hib, if_true, List.map_cons, List.map_nil, List.sum_cons, List.sum_nil, add_zero,
        tighten_ibp_eq, List.length_cons, List.length_nil]
      push_cast
      ring
    · simp only [MergeOp.forward, MergeOp.spread, subtractT, addT, minusT, hib, if_true, tighten_ibp_eq]
      ring

end

section
variable {n : ℕ} {κ α : Type} [Field α] [LinearOrder α] [IsStrictOrderedRing α]

/-- The bounds on the sub-boxes, with `2 ^ (e * (n + 1))` of them or more. -/
theorem narrow_rate (eps : α) (s : Slope) (N : Net α (Fin (n + 1)) κ) (hN : N.WF) (hm : N.NoMultiply) (k : κ) (b : BoxOf (Fin (n + 1)) α)
    (hb : ∀ i, b.1 i ≤ b.2 i) (W : α) (hW : ∀ i, b.2 i - b.1 i ≤ W) (e nSub : ℕ) (hn : 2 ^ (e * (n + 1)) ≤ nSub) :
    ∀ c ∈ refineBoxes true nSub b, (N.onBox .ibp eps s c).uc k - (N.onBox .ibp eps s c).lc k ≤ N.spread (fun _ => 1) k * (W / 2 ^ e) := by
  intro c hc
  have hW0 : 0 ≤ W := (sub_nonneg.2 (hb 0)).trans (hW 0)
  rw [← N.spread_const]
  exact C111_width eps s N hN hm c _ (fun _ => by positivity) (C35_widths e nSub hn b hb W hW c hc) k

/-- C111: the error of `get_range_box` for a forward-ibp model is explicit: with `2 ^ (e * n)` sub-boxes or more (`n` coordinates), on
boxes of widths at most `W`, both bounds are within `spread * W / 2 ^ e` of a value that the model takes, where `spread` is a number read off
the weights of the network. -/
theorem C111_range (eps : α) (he : 0 < eps) (s : Slope) (N : Net α (Fin (n + 1)) (Fin 1)) (hN : N.WF) (hm : N.NoMultiply)
    (bs : List (BoxOf (Fin (n + 1)) α)) (hb : ∀ b ∈ bs, ∀ i, b.1 i ≤ b.2 i) (W : α) (hW : ∀ b ∈ bs, ∀ i, b.2 i - b.1 i ≤ W)
    (e nSub : ℕ) (hn : 2 ^ (e * (n + 1)) ≤ nSub) (batch : ℕ) :
    ∃ us ls, getRangeBox (N.onBox .ibp eps s) .ibp batch nSub bs = .ok (us, ls) ∧
      us.length = bs.length ∧ ls.length = bs.length ∧
      ∀ (i : ℕ) (b : BoxOf (Fin (n + 1)) α), bs[i]? = some b → ∃ u l, us[i]? = some u ∧ ls[i]? = some l ∧
        (∀ p ∈ Box b.1 b.2, l ≤ N.eval p 0 ∧ N.eval p 0 ≤ u) ∧
        (∃ p ∈ Box b.1 b.2, u ≤ N.eval p 0 + N.spread (fun _ => 1) 0 * (W / 2 ^ e)) ∧
        ∃ p ∈ Box b.1 b.2, N.eval p 0 - N.spread (fun _ => 1) 0 * (W / 2 ^ e) ≤ l :=
  range_close (N.onBox .ibp eps s) (fun p => N.eval p) (fun c p hp k => C27_box_ibp eps he s c.1 c.2 N hN p hp k) bs hb _ nSub
    (fun b h => narrow_rate eps s N hN hm 0 b (hb b h) W (hW b h) e nSub hn) batch

/-- C111: the number of sub-boxes that suffices for `get_adv_box` to certify a sample: if every source beats every target by more than
`2 * S * W / 2 ^ e` on the box, where `S` bounds the spread of every output, then `2 ^ (e * n)` sub-boxes give a negative score. -/
theorem C111_adv [Fintype κ] [Nonempty κ] (eps : α) (he : 0 < eps) (s : Slope) (N : Net α (Fin (n + 1)) κ) (hN : N.WF) (hm : N.NoMultiply)
    (r : AdvSample (Fin (n + 1)) κ α) (hb : ∀ i, r.box.1 i ≤ r.box.2 i) (hl : Labels r.src r.tgt) (W : α) (hW : ∀ i, r.box.2 i - r.box.1 i ≤ W)
    (S : α) (hS : ∀ k, N.spread (fun _ => 1) k ≤ S) (e nSub : ℕ) (hn : 2 ^ (e * (n + 1)) ≤ nSub)
    (hrob : ∀ p ∈ Box r.box.1 r.box.2, ∀ t s, r.tgt t = 1 → r.src s = 1 → N.eval p t + 2 * S * W / 2 ^ e < N.eval p s) (batch : ℕ) :
    ∃ sc, getAdvBox (N.onBox .ibp eps s) .ibp batch nSub [r] = .ok [sc] ∧ sc < 0 := by
  have hW0 : 0 ≤ W := (sub_nonneg.2 (hb 0)).trans (hW 0)
  obtain ⟨scs, h1, h2⟩ := score_close (N.onBox .ibp eps s) (fun p => N.eval p) (fun c p hp k => C27_box_ibp eps he s c.1 c.2 N hN p hp k) [r]
    (by simpa using hb) (by simpa using hl) (2 * S * W / 2 ^ e) nSub (by
      intro r' hr' k c hc
      obtain rfl := List.mem_singleton.1 hr'
      refine (narrow_rate eps s N hN hm k r'.box hb W hW e nSub hn c hc).trans ?_
      have : N.spread (fun _ => 1) k * (W / 2 ^ e) ≤ S * (W / 2 ^ e) := mul_le_mul_of_nonneg_right (hS k) (by positivity)
      refine this.trans (le_of_eq ?_)
      ring) batch
  cases h2 with
  | cons h h' =>
    cases h'
    obtain ⟨-, p, hp, t, s', ht, hs', hle⟩ := h
    refine ⟨_, h1, ?_⟩
    have := hrob p hp t s' ht hs'
    linarith

end

/-- C111 on an example: `ReLU(x) - x` spreads intervals by 2, and the error 1/16 = 2 * 2 / 64 announced for 64 sub-boxes of `[-1, 1]` is an upper bound of
the one obtained: the exact range is `[0, 1]`. -/
example : reluMinusId.spread (fun _ => 1) 0 = 2 ∧ reluMinusId.NoMultiply ∧
    getRangeBox (reluMinusId.onBox .ibp (1 / 10000000) .vSlope) .ibp 0 64 [(fun _ => -1, fun _ => 1)] = .ok ([1], [-1 / 32]) := by
  refine ⟨by decide +kernel, ⟨by simp, trivial, trivial⟩, by decide +kernel⟩

/-- C111 on an example: the two outputs of `robustNet` spread intervals by 2, so that the margin 1/2 on `[-1, 1]` needs 32 sub-boxes at most
(`2 * 2 * 2 / 2 ^ 5 < 1 / 2`). -/
example : (∀ k, robustNet.spread (fun _ => 1) k = 2) ∧
    ∃ sc, getAdvBox (robustNet.onBox .ibp (1 / 10000000) .vSlope) .ibp 0 32 [⟨(fun _ => -1, fun _ => 1), ![0, 1], ![1, 0]⟩] = .ok [sc] ∧ sc < 0 := by
  have hs : ∀ k, robustNet.spread (fun _ => 1) k = 2 := by decide +kernel
  refine ⟨hs, C111_adv (1 / 10000000) (by norm_num) .vSlope robustNet ⟨⟨⟨trivial, trivial⟩, ?_⟩, trivial⟩ trivial _ (fun _ => by norm_num) ?_ 2
    (fun _ => by norm_num) 2 (fun k => (hs k).le) 5 32 (by norm_num) ?_ 0⟩
  · exact fun _ => ⟨⟨by norm_num, by norm_num⟩, by norm_num, by norm_num⟩
  · refine ⟨?_, ?_, ⟨0, rfl⟩, ⟨1, rfl⟩⟩ <;> intro k <;> fin_cases k <;> simp
  · intro p _ t s ht hs
    obtain rfl : t = 0 := by fin_cases t <;> simp_all
    obtain rfl : s = 1 := by fin_cases s <;> simp_all
    simp only [robustNet, Net.eval, Lay.eval, Fin.sum_univ_two]
    norm_num

end Decomon
