import Verif.Props.IbpGraph

/-! Property C144: `forward-hybrid` against `forward-ibp` on a graph of Keras layers, with the same box. -/

namespace Decomon

section
variable {n : ℕ} (G : KGraph (n + 1)) (order : List ℕ) (o M : ℕ)

/-- What the functions of wrapper.py read in the output of a forward method, when the output keeps the mode of the method. -/
theorem cloneForward_ok (hG : G.Ready order o M) (k : Method) (hk : isBackward k = false) (eps : ℝ) (slope : Slope) (fuel : ℕ) (nameOf : ℕ → String)
    (b : BoxOf (Fin (n + 1)) ℝ) :
    ∃ f : (v : ℕ) → Full (BoxOf (Idx [n + 1]) ℝ) (Idx [n + 1]) (Idx (G.sh v)) ℝ,
      G.IsBounds boxDomain k.mode eps slope (inputTensorsBox k.mode (fun i => b.1 ((oneAxis (n + 1)).symm i)) (fun i => b.2 ((oneAxis (n + 1)).symm i)))
        order f ∧
      G.cloneOnBox k.value none none eps slope M (fuel + 1) order nameOf o b =
        .ok ((convert2Mode boxDomain k.mode k.mode (f o)).carried k.mode
          (fun i => b.1 ((oneAxis (n + 1)).symm i), fun i => b.2 ((oneAxis (n + 1)).symm i))).flat := by
  obtain ⟨f, hf, e⟩ := C131_convert boxDomain k.mode k.mode eps slope
    (inputTensorsBox k.mode (fun i => b.1 ((oneAxis (n + 1)).symm i)) (fun i => b.2 ((oneAxis (n + 1)).symm i))) G M fuel order hG.sorted nameOf o
    hG.out hG.depth hG.used
  refine ⟨f, hf, ?_⟩
  have ef : k.final none none = k.mode := rfl
  have e' : G.runPlan boxDomain Prod.mk ⟨decide (k ≠ .crown), false, k.mode, k.mode⟩ eps slope
      (inputTensorsBox k.mode (fun i => b.1 ((oneAxis (n + 1)).symm i)) (fun i => b.2 ((oneAxis (n + 1)).symm i))) M (fuel + 1) order nameOf o =
      .ok (((convert2Mode boxDomain k.mode k.mode (f o)).toList k.mode).map Ten.toB) := by
    simp only [KGraph.runPlan, Bool.false_eq_true, if_false, e]; rfl
  simp only [KGraph.cloneOnBox, clonePlan_value, Except.bind, hk, ef, e', mapM_toB]
  exact wrapperOutput_toList _ _ _

/-- The two conversions of a model, on the same box. -/
theorem hybrid_tighter (hG : G.Ready order o M) (eps : ℝ) (he : 0 < eps) (s s' : Slope) (fuel : ℕ) (nameOf : ℕ → String) :
    ∃ net net' : BoxOf (Fin (n + 1)) ℝ → Full (BoxOf (Idx [n + 1]) ℝ) (Fin (n + 1)) (Fin (G.sh o).prod) ℝ,
      (∀ b, G.cloneOnBox "forward-hybrid" none none eps s M (fuel + 1) order nameOf o b = .ok (net b)) ∧
      (∀ b, G.cloneOnBox "forward-ibp" none none eps s' M (fuel + 1) order nameOf o b = .ok (net' b)) ∧
      ∀ b, (∀ i, b.1 i ≤ b.2 i) → ((∀ v ∈ order, (G.op v).NoProduct) ∨ G.GoodBox .hybrid eps s order b) → Tighter (net b) (net' b) := by
  choose f hf e using fun b => cloneForward_ok G order o M hG .forwardHybrid rfl eps s fuel nameOf b
  choose g hg e' using fun b => cloneForward_ok G order o M hG .forwardIbp rfl eps s' fuel nameOf b
  refine ⟨_, _, e, e', fun b hb hq k => ?_⟩
  have t := bounds_tighter (D := boxDomain) (m := .hybrid) rfl (D' := boxDomain) eps he s s'
    (inp := inputTensorsBox .hybrid (fun i => b.1 ((oneAxis (n + 1)).symm i)) (fun i => b.2 ((oneAxis (n + 1)).symm i)))
    (inp' := inputTensorsBox .ibp (fun i => b.1 ((oneAxis (n + 1)).symm i)) (fun i => b.2 ((oneAxis (n + 1)).symm i)))
    (fun i => ⟨le_rfl, le_rfl⟩) _ (boxDomain_sound _ _) (fun i => b.1 ((oneAxis (n + 1)).symm i)) G order hG.sorted hG.layers (f b) (hf b)
    (hq.symm.imp_left fun h => ⟨fun i => ⟨le_rfl, hb _⟩, C27_input_box .hybrid _ _ _ fun i => ⟨le_rfl, hb _⟩, h (f b) (hf b)⟩) (g b) (hg b) o hG.out
    ((ravel _).symm k)
  exact ⟨t.1.trans (le_max_left _ _), (min_le_left _ _).trans t.2⟩

/-- C144: `get_range_box` with `forward-hybrid` never returns a looser bound than with `forward-ibp`, whatever the slopes, the batch sizes: for
models without `Multiply` and `Dot` over every box, for the others over the boxes on which the lines of the activations are right. -/
theorem C144_range (hG : G.Ready order o M) (eps : ℝ) (he : 0 < eps) (s s' : Slope) (fuel : ℕ) (nameOf : ℕ → String) (batch batch' nSub : ℕ)
    (hn : nSub ≤ 1) (bs : List (BoxOf (Fin (n + 1)) ℝ)) (hb : ∀ b ∈ bs, ∀ i, b.1 i ≤ b.2 i)
    (hq : (∀ v ∈ order, (G.op v).NoProduct) ∨ ∀ b ∈ bs, G.GoodBox .hybrid eps s order b) :
    ∃ net net' us ls us' ls', (∀ b, G.cloneOnBox "forward-hybrid" none none eps s M (fuel + 1) order nameOf o b = .ok (net b)) ∧
      (∀ b, G.cloneOnBox "forward-ibp" none none eps s' M (fuel + 1) order nameOf o b = .ok (net' b)) ∧
      getRangeBox net .hybrid batch nSub bs = .ok (us, ls) ∧ getRangeBox net' .ibp batch' nSub bs = .ok (us', ls') ∧
      ∀ i b, bs[i]? = some b → ∀ c : Fin (G.sh o).prod, ∃ u l u' l', us[i * (G.sh o).prod + c]? = some u ∧ ls[i * (G.sh o).prod + c]? = some l ∧
        us'[i * (G.sh o).prod + c]? = some u' ∧ ls'[i * (G.sh o).prod + c]? = some l' ∧ u ≤ u' ∧ l' ≤ l := by
  obtain ⟨net, net', h1, h2, h3⟩ := hybrid_tighter G order o M hG eps he s s' fuel nameOf
  have e : subBoxes nSub bs = (bs, 1) := by unfold subBoxes; rw [if_neg (by omega)]
  refine ⟨net, net', _, _, _, _, h1, h2, by rw [getRangeBox_eq net _ batch nSub bs hb, e]; simp only [lt_irrefl, if_false]; rfl,
    by rw [getRangeBox_eq net' _ batch' nSub bs hb, e]; simp only [lt_irrefl, if_false]; rfl, fun i b hi c => ?_⟩
  have hm := List.mem_of_getElem? hi
  refine ⟨_, _, _, _, flatRows_getElem? _ i _ (by rw [List.getElem?_map, hi]; rfl) c,
    flatRows_getElem? _ i _ (by rw [List.getElem?_map, hi]; rfl) c, flatRows_getElem? _ i _ (by rw [List.getElem?_map, hi]; rfl) c,
    flatRows_getElem? _ i _ (by rw [List.getElem?_map, hi]; rfl) c, ?_⟩
  have t := h3 b (hb b hm) (hq.imp_right fun h => h b hm) c
  exact ⟨(min_le_left _ _).trans t.2, t.1.trans (le_max_left _ _)⟩

/-- A score of `get_adv_box` in hybrid mode is at most the largest difference of the constants. -/
theorem advBase_hybrid {ι κ X : Type} [Fintype ι] [Fintype κ] [Nonempty κ] (net : BoxOf ι ℝ → Full X ι κ ℝ) (l : List (AdvSample ι κ ℝ))
    (h : ∀ r ∈ l, GoodBox r.box ∧ Labels r.src r.tgt) :
    ∃ scs, advBase net .hybrid l = .ok scs ∧
      List.Forall₂ (fun (r : AdvSample ι κ ℝ) sc => ∃ t ∈ pairValues (ibpPair (net r.box), r.src, r.tgt), sc ≤ t) l scs := by
  obtain ⟨scs, e, g⟩ := advBase_greatest net l h
  unfold advBase at e ⊢
  have hgood : badBoxes (l.map AdvSample.box) = false :=
    (not_bad_iff _).2 (fun b hb' => by obtain ⟨r, hr, rfl⟩ := List.mem_map.1 hb'; exact (h r hr).1)
  rw [hgood] at e ⊢
  simp only [Bool.false_eq_true, if_false] at e ⊢
  rw [Except.ok.inj e]
  refine ⟨_, rfl, ?_⟩
  have hl : (maskedScores (l.map fun r => (affinePair r.box (net r.box), r.src, r.tgt))).length = l.length := by simp [maskedScores]
  generalize maskedScores (l.map fun r => (affinePair r.box (net r.box), r.src, r.tgt)) = aff at hl
  rw [List.forall₂_iff_get] at g ⊢
  refine ⟨by rw [List.length_zipWith, ← g.1, hl, min_self], fun i h1 h2 => ?_⟩
  refine ⟨_, (g.2 i h1 (by rw [← g.1]; exact h1)).1, ?_⟩
  rw [List.get_eq_getElem, List.getElem_zipWith]
  exact min_le_left _ _

/-- C144: the scores of `get_adv_box`, with the same number of sub-boxes, are never higher with `forward-hybrid` than with `forward-ibp`. -/
theorem C144_adv (hs : (G.sh o).length = 1) [Nonempty (Fin (G.sh o).prod)] (hG : G.Ready order o M) (eps : ℝ) (he : 0 < eps) (s s' : Slope) (fuel : ℕ)
    (nameOf : ℕ → String) (batch batch' nSub : ℕ) (rows : List (AdvSample (Fin (n + 1)) (Fin (G.sh o).prod) ℝ))
    (hb : ∀ r ∈ rows, ∀ i, r.box.1 i ≤ r.box.2 i) (hl : ∀ r ∈ rows, Labels r.src r.tgt)
    (hq : (∀ v ∈ order, (G.op v).NoProduct) ∨ ∀ r ∈ rows, ∀ c ∈ refineBoxes true nSub r.box, G.GoodBox .hybrid eps s order c) :
    ∃ net net' scs scs', (∀ b, G.cloneOnBox "forward-hybrid" none none eps s M (fuel + 1) order nameOf o b = .ok (net b)) ∧
      (∀ b, G.cloneOnBox "forward-ibp" none none eps s' M (fuel + 1) order nameOf o b = .ok (net' b)) ∧
      getAdvBoxOf (G.sh o) net .hybrid batch nSub rows = .ok scs ∧ getAdvBoxOf (G.sh o) net' .ibp batch' nSub rows = .ok scs' ∧
      scs.length = rows.length ∧ List.Forall₂ (fun sc sc' => sc ≤ sc') scs scs' := by
  obtain ⟨net, net', h1, h2, h3⟩ := hybrid_tighter G order o M hG eps he s s' fuel nameOf
  obtain ⟨scs, g1, g2⟩ := getAdvBox_map net .hybrid _ batch nSub rows Labels hl hb (fun l => advBase_hybrid _ l)
  obtain ⟨scs', g1', g2'⟩ := getAdvBox_map net' .ibp _ batch' nSub rows Labels hl hb (fun l => advBase_greatest _ l)
  refine ⟨net, net', scs, scs', h1, h2, by rw [C132_adv_shape _ net _ (.inl hs), g1], by rw [C132_adv_shape _ net' _ (.inl hs), g1'],
    g2.length_eq.symm, ?_⟩
  rw [List.forall₂_iff_get] at g2 g2' ⊢
  refine ⟨g2.1.symm.trans g2'.1, fun i i1 i2 => ?_⟩
  have i0 : i < rows.length := g2.1 ▸ i1
  obtain ⟨grp, a1, e⟩ := g2.2 i i0 i1
  obtain ⟨grp', a1', e'⟩ := g2'.2 i i0 i2
  have hr := List.get_mem rows ⟨i, i0⟩
  generalize rows.get ⟨i, i0⟩ = r at *
  rw [e, e']
  refine listMax_le ?_ fun v hv => ?_
  · intro hn
    rw [hn] at a1
    exact refineBoxes_ne_nil nSub r.box (by simpa using a1)
  · obtain ⟨c, hc, w, ⟨t, s1, ht, hs1, rfl⟩, hle⟩ := forall₂_right a1 hv
    obtain ⟨v', hv', hgr⟩ := forall₂_left a1' hc
    have m := h3 c ((covers_refine nSub r.box).good (hb r hr) c hc).1 (hq.imp_right fun h => h r hr c hc)
    refine hle.trans (le_trans ?_ ((hgr.2 ⟨t, s1, ht, hs1, rfl⟩).trans (le_listMax hv')))
    exact sub_le_sub (m t).2 (m s1).1

/-- C144: if no target label reaches the source label over the boxes and the model has no `Multiply` and no `Dot`, all the scores with `forward-hybrid` are
negative from some number of sub-boxes on, as with `forward-ibp`. -/
theorem C144_adv_complete (hs : (G.sh o).length = 1) [Nonempty (Fin (G.sh o).prod)] (hG : G.Ready order o M) (eps : ℝ) (he : 0 < eps) (slope : Slope)
    (fuel : ℕ) (nameOf : ℕ → String) (rows : List (AdvSample (Fin (n + 1)) (Fin (G.sh o).prod) ℝ))
    (hb : ∀ r ∈ rows, ∀ i, r.box.1 i ≤ r.box.2 i) (hl : ∀ r ∈ rows, Labels r.src r.tgt) (hq : ∀ v ∈ order, (G.op v).NoProduct)
    (hrob : ∀ r ∈ rows, ∀ p ∈ Box r.box.1 r.box.2, ∀ y, G.IsOutput order o p y → ∀ t s, r.tgt t = 1 → r.src s = 1 → y t < y s) :
    ∃ net, (∀ b, G.cloneOnBox "forward-hybrid" none none eps slope M (fuel + 1) order nameOf o b = .ok (net b)) ∧
      ∃ K, ∀ nSub, K ≤ nSub → ∀ batch, ∃ scs, getAdvBoxOf (G.sh o) net .hybrid batch nSub rows = .ok scs ∧ scs.length = rows.length ∧
        ∀ sc ∈ scs, sc < 0 := by
  obtain ⟨net, _, h1, _, _⟩ := hybrid_tighter G order o M hG eps he slope slope fuel nameOf
  obtain ⟨net', h2, K, hK⟩ := C143_adv_complete G order o M hs hG eps he slope fuel nameOf rows hb hl hrob
  refine ⟨net, h1, K, fun nSub hn batch => ?_⟩
  obtain ⟨scs', g1, g2, g3⟩ := hK nSub hn batch
  obtain ⟨m, m', scs, t, k1, k2, k3, k4, k5, k6⟩ := C144_adv G order o M hs hG eps he slope slope fuel nameOf batch batch nSub rows hb hl (.inl hq)
  have e1 : m = net := funext fun b => Except.ok.inj ((k1 b).symm.trans (h1 b))
  have e2 : m' = net' := funext fun b => Except.ok.inj ((k2 b).symm.trans (h2 b))
  subst e1 e2
  obtain rfl : scs' = t := Except.ok.inj (g1.symm.trans k4)
  refine ⟨scs, k3, k5, fun sc hsc => ?_⟩
  obtain ⟨sc', h', hle⟩ := forall₂_left k6 hsc
  exact hle.trans_lt (g3 sc' h')

end

/-! ## The model with the outputs `x` and `exp(x)` -/

theorem besideGraph_noProduct : ∀ v ∈ [0, 1, 2], (besideGraph.op v).NoProduct := by
  intro v hv
  have : v = 0 ∨ v = 1 ∨ v = 2 := by simpa using hv
  rcases this with rfl | rfl | rfl <;> exact trivial

/-- The bounds of the two outputs over `[-2, 2]`. -/
example : ∃ net net' us ls us' ls',
    (∀ b, besideGraph.cloneOnBox "forward-hybrid" none none (1 / 10000000) .vSlope 2 4 [0, 1, 2] (fun v => toString v) 2 b = .ok (net b)) ∧
    (∀ b, besideGraph.cloneOnBox "forward-ibp" none none (1 / 10000000) .vSlope 2 4 [0, 1, 2] (fun v => toString v) 2 b = .ok (net' b)) ∧
    getRangeBox net .hybrid 10 1 [(fun _ => -2, fun _ => 2)] = .ok (us, ls) ∧ getRangeBox net' .ibp 10 1 [(fun _ => -2, fun _ => 2)] = .ok (us', ls') ∧
    ∃ u l u' l', us[1]? = some u ∧ ls[1]? = some l ∧ us'[1]? = some u' ∧ ls'[1]? = some l' ∧ u ≤ u' ∧ l' ≤ l := by
  obtain ⟨net, net', us, ls, us', ls', h1, h2, h3, h4, h5⟩ := C144_range besideGraph [0, 1, 2] 2 2 besideGraph_ready (1 / 10000000) (by norm_num) .vSlope
    .vSlope 3 (fun v => toString v) 10 10 1 le_rfl [(fun _ => -2, fun _ => 2)]
    (by intro b hb; obtain rfl := List.mem_singleton.1 hb; intro i; norm_num) (.inl besideGraph_noProduct)
  obtain ⟨u, l, u', l', r⟩ := h5 0 _ rfl ⟨1, by decide⟩
  exact ⟨net, net', us, ls, us', ls', h1, h2, h3, h4, u, l, u', l', r⟩

end Decomon
