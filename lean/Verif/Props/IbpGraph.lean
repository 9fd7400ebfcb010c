import Verif.Lemmas.IbpGraph
import Verif.Props.CloneMethod

/-! Property C143: `forward-ibp` on a graph of Keras layers, when sub-boxes are asked for. -/

namespace Decomon

/-! ### Bounds that are sound, monotone, continuous, and exact on points -/

section
variable {n : ℕ} {κ X : Type}

/-- `net` gives bounds of the function `F` that hold on the box, follow the box monotonically and continuously, and are equal to the value of `F`
on a box with a single point. -/
structure IbpLike (net : BoxOf (Fin (n + 1)) ℝ → Full X (Fin (n + 1)) κ ℝ) (F : (Fin (n + 1) → ℝ) → κ → ℝ) : Prop where
  sound : ∀ c, ∀ p ∈ Box c.1 c.2, ∀ k, (net c).lc k ≤ F p k ∧ F p k ≤ (net c).uc k
  cont : ContFull net
  point : ∀ p k, (net (p, p)).lc k = F p k ∧ (net (p, p)).uc k = F p k
  mono : ∀ c d : BoxOf (Fin (n + 1)) ℝ, (∀ i, c.1 i ≤ c.2 i) → (∀ i, d.1 i ≤ c.1 i ∧ c.2 i ≤ d.2 i) → Tighter (net c) (net d)

variable {net : BoxOf (Fin (n + 1)) ℝ → Full X (Fin (n + 1)) κ ℝ} {F : (Fin (n + 1) → ℝ) → κ → ℝ} (H : IbpLike net F)
include H

theorem IbpLike.narrow (k : κ) (b : BoxOf (Fin (n + 1)) ℝ) (d : ℝ) (hd : 0 < d) :
    ∃ w, 0 < w ∧ ∀ c : BoxOf (Fin (n + 1)) ℝ, (∀ i, c.1 i ≤ c.2 i) → (∀ i, b.1 i ≤ c.1 i ∧ c.2 i ≤ b.2 i) → (∀ i, c.2 i - c.1 i < w) →
      (net c).uc k - (net c).lc k ≤ d := by
  have hf : Continuous fun c : BoxOf (Fin (n + 1)) ℝ => (net c).uc k - (net c).lc k := (H.cont k).2.sub (H.cont k).1
  have hK : IsCompact (Set.Icc (b.1, b.1) (b.2, b.2) : Set (BoxOf (Fin (n + 1)) ℝ)) := isCompact_Icc
  have hu := hK.uniformContinuousOn_of_continuous hf.continuousOn
  rw [Metric.uniformContinuousOn_iff] at hu
  obtain ⟨w, hw, h⟩ := hu d hd
  refine ⟨w, hw, fun c o s hn => ?_⟩
  have m1 : c ∈ (Set.Icc (b.1, b.1) (b.2, b.2) : Set (BoxOf (Fin (n + 1)) ℝ)) :=
    ⟨⟨fun i => (s i).1, fun i => (s i).1.trans (o i)⟩, ⟨fun i => (o i).trans (s i).2, fun i => (s i).2⟩⟩
  have m2 : (c.1, c.1) ∈ (Set.Icc (b.1, b.1) (b.2, b.2) : Set (BoxOf (Fin (n + 1)) ℝ)) :=
    ⟨⟨fun i => (s i).1, fun i => (s i).1⟩, ⟨fun i => (o i).trans (s i).2, fun i => (o i).trans (s i).2⟩⟩
  have := h c m1 (c.1, c.1) m2 (by
    rw [Prod.dist_eq]
    refine max_lt (by simpa using hw) ((dist_pi_lt_iff hw).2 fun i => ?_)
    rw [Real.dist_eq, abs_of_nonneg (sub_nonneg.2 (o i))]
    exact hn i)
  rw [(H.point c.1 k).1, (H.point c.1 k).2, sub_self, Real.dist_eq, sub_zero] at this
  exact (le_abs_self _).trans this.le

theorem IbpLike.narrow_refine (k : κ) (b : BoxOf (Fin (n + 1)) ℝ) (hb : ∀ i, b.1 i ≤ b.2 i) (d : ℝ) (hd : 0 < d) :
    ∃ K, ∀ nSub, K ≤ nSub → ∀ c ∈ refineBoxes true nSub b, (net c).uc k - (net c).lc k ≤ d := by
  obtain ⟨w, hw, h⟩ := H.narrow k b d hd
  have hW : ∀ i, b.2 i - b.1 i ≤ ∑ j, (b.2 j - b.1 j) := fun i =>
    Finset.single_le_sum (f := fun j => b.2 j - b.1 j) (fun j _ => sub_nonneg.2 (hb j)) (Finset.mem_univ i)
  generalize ∑ j, (b.2 j - b.1 j) = W at *
  obtain ⟨e, he⟩ := pow_unbounded_of_one_lt (W / w) (one_lt_two (α := ℝ))
  refine ⟨2 ^ (e * (n + 1)), fun nSub hn c hc => ?_⟩
  have g := (covers_refine nSub b).good hb c hc
  refine h c g.1 g.2 fun i => (C35_widths e nSub hn b hb W hW c hc i).trans_lt ?_
  rw [div_lt_iff₀ (by positivity)]
  rw [div_lt_iff₀ hw] at he
  linarith

theorem IbpLike.score_converges [Fintype κ] [Nonempty κ] (rows : List (AdvSample (Fin (n + 1)) κ ℝ)) (hb : ∀ r ∈ rows, ∀ i, r.box.1 i ≤ r.box.2 i)
    (hl : ∀ r ∈ rows, Labels r.src r.tgt) (d : ℝ) (hd : 0 < d) :
    ∃ K, ∀ nSub, K ≤ nSub → ∀ batch, ∃ scs, getAdvBox net .ibp batch nSub rows = .ok scs ∧
      List.Forall₂ (fun (r : AdvSample (Fin (n + 1)) κ ℝ) sc =>
        (∀ p ∈ Box r.box.1 r.box.2, ∀ t s, r.tgt t = 1 → r.src s = 1 → F p t - F p s ≤ sc) ∧
        ∃ p ∈ Box r.box.1 r.box.2, ∃ t s, r.tgt t = 1 ∧ r.src s = 1 ∧ sc ≤ F p t - F p s + d) rows scs := by
  obtain ⟨K, hK⟩ := eventually_list rows _ fun r hr => eventually_list Finset.univ.toList _ fun k _ =>
    H.narrow_refine k r.box (hb r hr) (d / 2) (by positivity)
  exact ⟨K, fun nSub hn batch => score_close net F H.sound rows hb hl d
    nSub (fun r hr k => hK nSub hn r hr k (Finset.mem_toList.2 (Finset.mem_univ k))) batch⟩

/-- A compact box on which every source beats every target has a margin. -/
theorem IbpLike.margin [Fintype κ] [Nonempty κ] (r : AdvSample (Fin (n + 1)) κ ℝ) (hb : ∀ i, r.box.1 i ≤ r.box.2 i)
    (hrob : ∀ p ∈ Box r.box.1 r.box.2, ∀ t s, r.tgt t = 1 → r.src s = 1 → F p t < F p s) :
    ∃ d, 0 < d ∧ ∀ t s, r.tgt t = 1 → r.src s = 1 → ∀ p ∈ Box r.box.1 r.box.2, F p t + d ≤ F p s := by
  have hcont : ∀ k, Continuous fun p => F p k := fun k => by
    refine ((H.cont k).1.comp (Continuous.prodMk continuous_id continuous_id)).congr fun p => ?_
    exact (H.point p k).1
  have hK : IsCompact (Box r.box.1 r.box.2) := by
    have e : Box r.box.1 r.box.2 = Set.Icc r.box.1 r.box.2 := by
      ext p; exact ⟨fun h => ⟨fun i => (h i).1, fun i => (h i).2⟩, fun h i => ⟨h.1 i, h.2 i⟩⟩
    rw [e]; exact isCompact_Icc
  have hne : (Box r.box.1 r.box.2).Nonempty := ⟨r.box.1, fun i => ⟨le_rfl, hb i⟩⟩
  classical
  have all : ∀ q : κ × κ, ∃ d : ℝ, 0 < d ∧ (r.tgt q.1 = 1 → r.src q.2 = 1 → ∀ p ∈ Box r.box.1 r.box.2, F p q.1 + d ≤ F p q.2) := by
    intro q
    by_cases h : r.tgt q.1 = 1 ∧ r.src q.2 = 1
    · obtain ⟨x, hx, hmin⟩ := hK.exists_isMinOn hne ((hcont q.2).sub (hcont q.1)).continuousOn
      refine ⟨F x q.2 - F x q.1, sub_pos.2 (hrob x hx q.1 q.2 h.1 h.2), fun _ _ p hp => ?_⟩
      have := hmin hp
      simp only [Set.mem_setOf_eq, Pi.sub_apply] at this
      linarith
    · exact ⟨1, one_pos, fun h1 h2 => absurd ⟨h1, h2⟩ h⟩
  choose m hm hm' using all
  refine ⟨Finset.univ.inf' Finset.univ_nonempty m, (Finset.lt_inf'_iff _).2 fun q _ => hm q, fun t s' ht hs' p hp => ?_⟩
  have h1 := hm' (t, s') ht hs' p hp
  have h2 := Finset.inf'_le m (Finset.mem_univ (t, s'))
  dsimp only at h1
  linarith

theorem IbpLike.adv_complete [Fintype κ] [Nonempty κ] (rows : List (AdvSample (Fin (n + 1)) κ ℝ)) (hb : ∀ r ∈ rows, ∀ i, r.box.1 i ≤ r.box.2 i)
    (hl : ∀ r ∈ rows, Labels r.src r.tgt)
    (hrob : ∀ r ∈ rows, ∀ p ∈ Box r.box.1 r.box.2, ∀ t s, r.tgt t = 1 → r.src s = 1 → F p t < F p s) :
    ∃ K, ∀ nSub, K ≤ nSub → ∀ batch, ∃ scs, getAdvBox net .ibp batch nSub rows = .ok scs ∧ scs.length = rows.length ∧ ∀ sc ∈ scs, sc < 0 := by
  have all : ∃ d, 0 < d ∧ ∀ r ∈ rows, ∀ t s, r.tgt t = 1 → r.src s = 1 → ∀ p ∈ Box r.box.1 r.box.2, F p t + d ≤ F p s := by
    clear hl
    induction rows with
    | nil => exact ⟨1, one_pos, by simp⟩
    | cons r rows ih =>
      obtain ⟨d, hd, h⟩ := ih (fun r hr => hb r (by simp [hr])) fun r hr => hrob r (by simp [hr])
      obtain ⟨e, he, h'⟩ := H.margin r (hb r (by simp)) (hrob r (by simp))
      refine ⟨min d e, lt_min hd he, fun r' hr t s ht hs p hp => ?_⟩
      rcases List.mem_cons.1 hr with rfl | hr
      · exact (add_le_add_right (min_le_right d e) _).trans (h' t s ht hs p hp)
      · exact (add_le_add_right (min_le_left d e) _).trans (h r' hr t s ht hs p hp)
  obtain ⟨d, hd, hmar⟩ := all
  obtain ⟨K, hK⟩ := H.score_converges rows hb hl (d / 2) (by positivity)
  refine ⟨K, fun nSub hn batch => ?_⟩
  obtain ⟨scs, h1, h2⟩ := hK nSub hn batch
  refine ⟨scs, h1, h2.length_eq.symm, fun sc hsc => ?_⟩
  obtain ⟨r, hr, -, p, hp, t, s', ht, hs', hle⟩ := forall₂_right h2 hsc
  have := hmar r hr t s' ht hs' p hp
  linarith

theorem IbpLike.adv_more [Fintype κ] [Nonempty κ] (batch batch' nSub nSub' : ℕ) (h : nSub ≤ nSub') (rows : List (AdvSample (Fin (n + 1)) κ ℝ))
    (hb : ∀ r ∈ rows, ∀ i, r.box.1 i ≤ r.box.2 i) (hl : ∀ r ∈ rows, Labels r.src r.tgt) :
    ∃ scs scs', getAdvBox net .ibp batch nSub rows = .ok scs ∧ getAdvBox net .ibp batch' nSub' rows = .ok scs' ∧ scs.length = rows.length ∧
      List.Forall₂ (fun sc' sc => sc' ≤ sc) scs' scs := by
  obtain ⟨scs, h1, h2⟩ := getAdvBox_map net .ibp _ batch nSub rows Labels hl hb (fun l => advBase_greatest _ l)
  obtain ⟨scs', h1', h2'⟩ := getAdvBox_map net .ibp _ batch' nSub' rows Labels hl hb (fun l => advBase_greatest _ l)
  refine ⟨scs, scs', h1, h1', h2.length_eq.symm, ?_⟩
  rw [List.forall₂_iff_get] at h2 h2' ⊢
  refine ⟨h2'.1.symm.trans h2.1, fun i i1 i2 => ?_⟩
  have i0 : i < rows.length := h2.1 ▸ i2
  obtain ⟨grp, g1, e⟩ := h2.2 i i0 i2
  obtain ⟨grp', g1', e'⟩ := h2'.2 i i0 i1
  have hr := List.get_mem rows ⟨i, i0⟩
  generalize rows.get ⟨i, i0⟩ = r at *
  rw [e, e']
  refine listMax_le ?_ fun v hv => ?_
  · intro hn
    rw [hn] at g1'
    exact refineBoxes_ne_nil nSub' r.box (by simpa using g1')
  · obtain ⟨c, hc, ⟨t, s', ht, hs', rfl⟩, -⟩ := forall₂_right g1' hv
    obtain ⟨d, hd, hcd⟩ := refineBoxes_refines r.box (hb r hr) nSub nSub' h c hc
    obtain ⟨v, hv, hgr⟩ := forall₂_left g1 hd
    have m := H.mono c d ((covers_refine nSub' r.box).good (hb r hr) c hc).1 hcd
    refine le_trans ?_ ((hgr.2 ⟨t, s', ht, hs', rfl⟩).trans (le_listMax hv))
    exact sub_le_sub (m t).2 (m s').1

end

section
variable {n : ℕ} {X : Type} {net : BoxOf (Fin (n + 1)) ℝ → Full X (Fin (n + 1)) (Fin 1) ℝ} {F : (Fin (n + 1) → ℝ) → Fin 1 → ℝ} (H : IbpLike net F)
include H

theorem IbpLike.range_more (batch batch' nSub nSub' : ℕ) (h : nSub ≤ nSub') (bs : List (BoxOf (Fin (n + 1)) ℝ)) (hb : ∀ b ∈ bs, ∀ i, b.1 i ≤ b.2 i) :
    ∃ us ls us' ls', getRangeBox net .ibp batch nSub bs = .ok (us, ls) ∧ getRangeBox net .ibp batch' nSub' bs = .ok (us', ls') ∧
      us.length = bs.length ∧ List.Forall₂ (fun u' u => u' ≤ u) us' us ∧ List.Forall₂ (fun l' l => l ≤ l') ls' ls := by
  rw [getRangeBox_one _ _ _ _ _ hb, getRangeBox_one _ _ _ _ _ hb]
  have key : ∀ b ∈ bs, ∀ c ∈ refineBoxes true nSub' b, ∃ d ∈ refineBoxes true nSub b, (net d).lc 0 ≤ (net c).lc 0 ∧ (net c).uc 0 ≤ (net d).uc 0 := by
    intro b hb' c hc
    obtain ⟨d, hd, hcd⟩ := refineBoxes_refines b (hb b hb') nSub nSub' h c hc
    exact ⟨d, hd, H.mono c d ((covers_refine nSub' b).good (hb b hb') c hc).1 hcd 0⟩
  refine ⟨_, _, _, _, rfl, rfl, by simp, ?_, ?_⟩ <;> rw [List.forall₂_map_left_iff, List.forall₂_map_right_iff, List.forall₂_same] <;>
    intro b hb'
  · refine listMax_le (by simpa using refineBoxes_ne_nil nSub' b) fun v hv => ?_
    obtain ⟨c, hc, rfl⟩ := List.mem_map.1 hv
    obtain ⟨d, hd, h1⟩ := key b hb' c hc
    exact h1.2.trans (le_listMax (List.mem_map.2 ⟨d, hd, rfl⟩))
  · refine le_listMin (by simpa using refineBoxes_ne_nil nSub' b) fun v hv => ?_
    obtain ⟨c, hc, rfl⟩ := List.mem_map.1 hv
    obtain ⟨d, hd, h1⟩ := key b hb' c hc
    exact (listMin_le (List.mem_map.2 ⟨d, hd, rfl⟩)).trans h1.1

theorem IbpLike.range_converges (bs : List (BoxOf (Fin (n + 1)) ℝ)) (hb : ∀ b ∈ bs, ∀ i, b.1 i ≤ b.2 i) (d : ℝ) (hd : 0 < d) :
    ∃ K, ∀ nSub, K ≤ nSub → ∀ batch, ∃ us ls, getRangeBox net .ibp batch nSub bs = .ok (us, ls) ∧
      us.length = bs.length ∧ ls.length = bs.length ∧
      ∀ (i : ℕ) (b : BoxOf (Fin (n + 1)) ℝ), bs[i]? = some b → ∃ u l, us[i]? = some u ∧ ls[i]? = some l ∧
        (∀ p ∈ Box b.1 b.2, l ≤ F p 0 ∧ F p 0 ≤ u) ∧ (∃ p ∈ Box b.1 b.2, u ≤ F p 0 + d) ∧ ∃ p ∈ Box b.1 b.2, F p 0 - d ≤ l := by
  obtain ⟨K, hK⟩ := eventually_list bs _ fun b hb' => H.narrow_refine 0 b (hb b hb') d hd
  exact ⟨K, fun nSub hn batch => range_close net F H.sound bs hb d nSub (hK nSub hn) batch⟩

end

/-! ### On a graph -/

section
variable {n : ℕ} (G : KGraph (n + 1)) (order : List ℕ) (o M : ℕ)

/-- The model converted with `clone(model, method="forward-ibp")` never raises, and the bounds read by the functions of wrapper.py are sound,
monotone, continuous, and exact on points. -/
theorem cloneIbp_like (hG : G.Ready order o M) (eps : ℝ) (he : 0 < eps) (slope : Slope) (fuel : ℕ) (nameOf : ℕ → String) :
    ∃ net F, (∀ b, G.cloneOnBox "forward-ibp" none none eps slope M (fuel + 1) order nameOf o b = .ok (net b)) ∧
      (∀ p y, G.IsOutput order o p y ↔ y = F p) ∧ IbpLike net F := by
  choose F hF hu using C132_output G order o M hG
  let ix : BoxOf (Fin (n + 1)) ℝ → Full (BoxOf (Idx [n + 1]) ℝ) (Idx [n + 1]) (Idx [n + 1]) ℝ := fun b =>
    inputTensorsBox .ibp (fun i => b.1 ((oneAxis (n + 1)).symm i)) (fun i => b.2 ((oneAxis (n + 1)).symm i))
  choose f hf e using fun b : BoxOf (Fin (n + 1)) ℝ => C131_convert boxDomain .ibp .ibp eps slope (ix b) G M fuel order hG.sorted nameOf o hG.out hG.depth hG.used
  have hi : ContFull ix := fun i => by
    simp only [ix, inputTensorsBox, getIbp, if_true]
    constructor <;> fun_prop
  have c := bounds_cont boxDomain eps slope ix hi G order hG.sorted f hf o hG.out
  refine ⟨fun b => ((f b o).carried .ibp (fun i => b.1 ((oneAxis (n + 1)).symm i), fun i => b.2 ((oneAxis (n + 1)).symm i))).flat, F, fun b => ?_,
    fun p y => ⟨hu p y, fun h => h ▸ hF p⟩, fun b p hp k => ?_, fun k => c ((ravel _).symm k), fun p k => ?_, fun b d h1 h2 k => ?_⟩
  · have hp : clonePlan "forward-ibp" none none = .ok ⟨true, false, .ibp, .ibp⟩ := clonePlan_value .forwardIbp none none
    have e' : G.runPlan boxDomain Prod.mk ⟨true, false, .ibp, .ibp⟩ eps slope (inputTensorsBox .ibp (fun i => b.1 ((oneAxis (n + 1)).symm i))
        (fun i => b.2 ((oneAxis (n + 1)).symm i))) M (fuel + 1) order nameOf o = .ok (((f b o).toList .ibp).map Ten.toB) := by
      have := e b
      simp only [KGraph.runPlan, Bool.false_eq_true, if_false]
      change (G.convert boxDomain .ibp .ibp eps slope (ix b) M (fuel + 1) order nameOf o).map _ = _
      rw [this]; rfl
    simp only [KGraph.cloneOnBox, hp, Except.bind, e', mapM_toB]
    exact wrapperOutput_toList _ _ _
  · obtain ⟨z, hz, hy⟩ := hF p
    have v := (bounds_valid boxDomain .ibp eps he slope (ix b) _ (boxDomain_sound _ _) G order hG.sorted hG.layers (f b) (hf b)
      (fun v _ => KOp.good_ibp boxDomain eps (G.op v) _) (fun i => p ((oneAxis (n + 1)).symm i)) (fun i => hp _)
      (C27_input_box .ibp _ _ _ fun i => hp _) z hz o hG.out).2.const rfl ((ravel _).symm k)
    rw [← hy, Equiv.apply_symm_apply] at v
    exact v
  · obtain ⟨z, hz, hy⟩ := hF p
    have v := (bounds_exact .ibp eps slope _ G order hG.sorted (f (p, p)) (hf (p, p)) (by simp [getAffine]) z hz o hG.out).2.const rfl ((ravel _).symm k)
    rw [← hy, Equiv.apply_symm_apply] at v
    exact v
  · exact bounds_tighter (D := boxDomain) (m := .ibp) rfl (D' := boxDomain) eps he slope slope (inp := ix b) (inp' := ix d)
      (fun i => by simpa [ix, inputTensorsBox, getIbp] using h2 _) _ (boxDomain_sound _ _) (fun i => b.1 ((oneAxis (n + 1)).symm i))
      G order hG.sorted hG.layers (f b) (hf b) (.inl ⟨fun i => ⟨le_rfl, h1 _⟩, C27_input_box .ibp _ _ _ fun i => ⟨le_rfl, h1 _⟩,
      fun v _ => KOp.good_ibp boxDomain eps (G.op v) _⟩) (f d) (hf d) o hG.out ((ravel _).symm k)

/-- C143: a smaller box gives bounds that are at least as tight. -/
theorem C143_monotone (hG : G.Ready order o M) (eps : ℝ) (he : 0 < eps) (slope : Slope) (fuel : ℕ) (nameOf : ℕ → String) :
    ∃ net : BoxOf (Fin (n + 1)) ℝ → Full (BoxOf (Idx [n + 1]) ℝ) (Fin (n + 1)) (Fin (G.sh o).prod) ℝ,
      (∀ b, G.cloneOnBox "forward-ibp" none none eps slope M (fuel + 1) order nameOf o b = .ok (net b)) ∧
      ∀ b c : BoxOf (Fin (n + 1)) ℝ, (∀ i, c.1 i ≤ c.2 i) → (∀ i, b.1 i ≤ c.1 i ∧ c.2 i ≤ b.2 i) → ∀ k,
        (net b).lc k ≤ (net c).lc k ∧ (net c).uc k ≤ (net b).uc k := by
  obtain ⟨net, F, h1, -, H⟩ := cloneIbp_like G order o M hG eps he slope fuel nameOf
  exact ⟨net, h1, fun b c hc hb k => H.mono c b hc hb k⟩

/-- C143: the bounds converge to the prediction of the Keras model when the box shrinks to a point. -/
theorem C143_shrink (hG : G.Ready order o M) (eps : ℝ) (he : 0 < eps) (slope : Slope) (fuel : ℕ) (nameOf : ℕ → String) :
    ∃ net : BoxOf (Fin (n + 1)) ℝ → Full (BoxOf (Idx [n + 1]) ℝ) (Fin (n + 1)) (Fin (G.sh o).prod) ℝ,
      (∀ b, G.cloneOnBox "forward-ibp" none none eps slope M (fuel + 1) order nameOf o b = .ok (net b)) ∧
      ∀ p y, G.IsOutput order o p y → ∀ k (d : ℝ), 0 < d → ∃ w, 0 < w ∧ ∀ b : BoxOf (Fin (n + 1)) ℝ,
        (∀ i, |b.1 i - p i| < w ∧ |b.2 i - p i| < w) → |(net b).lc k - y k| < d ∧ |(net b).uc k - y k| < d := by
  obtain ⟨net, F, h1, hF, H⟩ := cloneIbp_like G order o M hG eps he slope fuel nameOf
  refine ⟨net, h1, fun p y hy k d hd => ?_⟩
  obtain rfl := (hF p y).1 hy
  obtain ⟨w1, p1, g1⟩ := Metric.continuous_iff.1 (H.cont k).1 (p, p) d hd
  obtain ⟨w2, p2, g2⟩ := Metric.continuous_iff.1 (H.cont k).2 (p, p) d hd
  rw [(H.point p k).1] at g1
  rw [(H.point p k).2] at g2
  have key : ∀ w, 0 < w → ∀ b : BoxOf (Fin (n + 1)) ℝ, (∀ i, |b.1 i - p i| < w ∧ |b.2 i - p i| < w) → dist b (p, p) < w := by
    intro w hw b h
    rw [Prod.dist_eq]
    exact max_lt ((dist_pi_lt_iff hw).2 fun i => by rw [Real.dist_eq]; exact (h i).1) ((dist_pi_lt_iff hw).2 fun i => by rw [Real.dist_eq]; exact (h i).2)
  refine ⟨min w1 w2, lt_min p1 p2, fun b hb => ⟨?_, ?_⟩⟩
  · have := g1 b (key w1 p1 b fun i => ⟨(hb i).1.trans_le (min_le_left _ _), (hb i).2.trans_le (min_le_left _ _)⟩)
    rwa [Real.dist_eq] at this
  · have := g2 b (key w2 p2 b fun i => ⟨(hb i).1.trans_le (min_le_right _ _), (hb i).2.trans_le (min_le_right _ _)⟩)
    rwa [Real.dist_eq] at this

/-- C143: asking `get_adv_box` for more sub-boxes never raises a score. -/
theorem C143_adv_more (hs : (G.sh o).length = 1) [Nonempty (Fin (G.sh o).prod)] (hG : G.Ready order o M) (eps : ℝ) (he : 0 < eps) (slope : Slope) (fuel : ℕ)
    (nameOf : ℕ → String) (batch batch' nSub nSub' : ℕ) (h : nSub ≤ nSub') (rows : List (AdvSample (Fin (n + 1)) (Fin (G.sh o).prod) ℝ))
    (hb : ∀ r ∈ rows, ∀ i, r.box.1 i ≤ r.box.2 i) (hl : ∀ r ∈ rows, Labels r.src r.tgt) :
    ∃ net scs scs', (∀ b, G.cloneOnBox "forward-ibp" none none eps slope M (fuel + 1) order nameOf o b = .ok (net b)) ∧
      getAdvBoxOf (G.sh o) net .ibp batch nSub rows = .ok scs ∧ getAdvBoxOf (G.sh o) net .ibp batch' nSub' rows = .ok scs' ∧
      scs.length = rows.length ∧ List.Forall₂ (fun sc' sc => sc' ≤ sc) scs' scs := by
  obtain ⟨net, F, h1, -, H⟩ := cloneIbp_like G order o M hG eps he slope fuel nameOf
  obtain ⟨scs, scs', g1, g2, g3, g4⟩ := H.adv_more batch batch' nSub nSub' h rows hb hl
  exact ⟨net, scs, scs', h1, by rw [C132_adv_shape _ net _ (.inl hs), g1], by rw [C132_adv_shape _ net _ (.inl hs), g2], g3, g4⟩

/-- C143: the score of `get_adv_box` is never below the largest margin of a target over a source, and converges to it. -/
theorem C143_score_converges (hs : (G.sh o).length = 1) [Nonempty (Fin (G.sh o).prod)] (hG : G.Ready order o M) (eps : ℝ) (he : 0 < eps) (slope : Slope)
    (fuel : ℕ) (nameOf : ℕ → String) (rows : List (AdvSample (Fin (n + 1)) (Fin (G.sh o).prod) ℝ))
    (hb : ∀ r ∈ rows, ∀ i, r.box.1 i ≤ r.box.2 i) (hl : ∀ r ∈ rows, Labels r.src r.tgt) (d : ℝ) (hd : 0 < d) :
    ∃ net, (∀ b, G.cloneOnBox "forward-ibp" none none eps slope M (fuel + 1) order nameOf o b = .ok (net b)) ∧
      ∃ K, ∀ nSub, K ≤ nSub → ∀ batch, ∃ scs, getAdvBoxOf (G.sh o) net .ibp batch nSub rows = .ok scs ∧
        List.Forall₂ (fun (r : AdvSample (Fin (n + 1)) (Fin (G.sh o).prod) ℝ) sc =>
          (∀ p ∈ Box r.box.1 r.box.2, ∀ y, G.IsOutput order o p y → ∀ t s, r.tgt t = 1 → r.src s = 1 → y t - y s ≤ sc) ∧
          ∃ p ∈ Box r.box.1 r.box.2, ∃ y, G.IsOutput order o p y ∧ ∃ t s, r.tgt t = 1 ∧ r.src s = 1 ∧ sc ≤ y t - y s + d) rows scs := by
  obtain ⟨net, F, h1, hF, H⟩ := cloneIbp_like G order o M hG eps he slope fuel nameOf
  obtain ⟨K, hK⟩ := H.score_converges rows hb hl d hd
  refine ⟨net, h1, K, fun nSub hn batch => ?_⟩
  obtain ⟨scs, g1, g2⟩ := hK nSub hn batch
  refine ⟨scs, by rw [C132_adv_shape _ net _ (.inl hs), g1], g2.imp fun r sc ⟨a, p, hp, b⟩ => ⟨fun q hq y hy => ?_, p, hp, F p, (hF p _).2 rfl, b⟩⟩
  rw [(hF q y).1 hy]
  exact a q hq

/-- C143: completeness: samples for which every source beats every target over the whole box get negative scores from `get_adv_box`, provided
enough sub-boxes are asked for. -/
theorem C143_adv_complete (hs : (G.sh o).length = 1) [Nonempty (Fin (G.sh o).prod)] (hG : G.Ready order o M) (eps : ℝ) (he : 0 < eps) (slope : Slope)
    (fuel : ℕ) (nameOf : ℕ → String) (rows : List (AdvSample (Fin (n + 1)) (Fin (G.sh o).prod) ℝ))
    (hb : ∀ r ∈ rows, ∀ i, r.box.1 i ≤ r.box.2 i) (hl : ∀ r ∈ rows, Labels r.src r.tgt)
    (hrob : ∀ r ∈ rows, ∀ p ∈ Box r.box.1 r.box.2, ∀ y, G.IsOutput order o p y → ∀ t s, r.tgt t = 1 → r.src s = 1 → y t < y s) :
    ∃ net, (∀ b, G.cloneOnBox "forward-ibp" none none eps slope M (fuel + 1) order nameOf o b = .ok (net b)) ∧
      ∃ K, ∀ nSub, K ≤ nSub → ∀ batch, ∃ scs, getAdvBoxOf (G.sh o) net .ibp batch nSub rows = .ok scs ∧ scs.length = rows.length ∧
        ∀ sc ∈ scs, sc < 0 := by
  obtain ⟨net, F, h1, hF, H⟩ := cloneIbp_like G order o M hG eps he slope fuel nameOf
  obtain ⟨K, hK⟩ := H.adv_complete rows hb hl fun r hr p hp => hrob r hr p hp _ ((hF p _).2 rfl)
  refine ⟨net, h1, K, fun nSub hn batch => ?_⟩
  obtain ⟨scs, g1, g2⟩ := hK nSub hn batch
  exact ⟨scs, by rw [C132_adv_shape _ net _ (.inl hs), g1], g2⟩

theorem IbpLike.range_more_of {X : Type} {d : ℕ} (hd : d = 1) {net : BoxOf (Fin (n + 1)) ℝ → Full X (Fin (n + 1)) (Fin d) ℝ}
    {F : (Fin (n + 1) → ℝ) → Fin d → ℝ} (H : IbpLike net F) (batch batch' nSub nSub' : ℕ) (h : nSub ≤ nSub')
    (bs : List (BoxOf (Fin (n + 1)) ℝ)) (hb : ∀ b ∈ bs, ∀ i, b.1 i ≤ b.2 i) :
    ∃ us ls us' ls', getRangeBox net .ibp batch nSub bs = .ok (us, ls) ∧ getRangeBox net .ibp batch' nSub' bs = .ok (us', ls') ∧
      us.length = bs.length ∧ List.Forall₂ (fun u' u => u' ≤ u) us' us ∧ List.Forall₂ (fun l' l => l ≤ l') ls' ls := by
  subst hd
  exact H.range_more batch batch' nSub nSub' h bs hb

theorem IbpLike.range_converges_of {X : Type} {d : ℕ} (hd : d = 1) {net : BoxOf (Fin (n + 1)) ℝ → Full X (Fin (n + 1)) (Fin d) ℝ}
    {F : (Fin (n + 1) → ℝ) → Fin d → ℝ} (H : IbpLike net F) (bs : List (BoxOf (Fin (n + 1)) ℝ)) (hb : ∀ b ∈ bs, ∀ i, b.1 i ≤ b.2 i)
    (t : ℝ) (ht : 0 < t) :
    ∃ K, ∀ nSub, K ≤ nSub → ∀ batch, ∃ us ls, getRangeBox net .ibp batch nSub bs = .ok (us, ls) ∧
      us.length = bs.length ∧ ls.length = bs.length ∧
      ∀ (i : ℕ) (b : BoxOf (Fin (n + 1)) ℝ), bs[i]? = some b → ∃ u l, us[i]? = some u ∧ ls[i]? = some l ∧ ∀ k,
        (∀ p ∈ Box b.1 b.2, l ≤ F p k ∧ F p k ≤ u) ∧ (∃ p ∈ Box b.1 b.2, u ≤ F p k + t) ∧ ∃ p ∈ Box b.1 b.2, F p k - t ≤ l := by
  subst hd
  obtain ⟨K, hK⟩ := H.range_converges bs hb t ht
  refine ⟨K, fun nSub hn batch => ?_⟩
  obtain ⟨us, ls, h1, h2, h3, h4⟩ := hK nSub hn batch
  refine ⟨us, ls, h1, h2, h3, fun i b hi => ?_⟩
  obtain ⟨u, l, g1, g2, g3⟩ := h4 i b hi
  exact ⟨u, l, g1, g2, fun k => by rw [Fin.fin_one_eq_zero k]; exact g3⟩

/-- C143: with one output, asking `get_range_box` for more sub-boxes never loosens a bound. -/
theorem C143_range_more (hd : (G.sh o).prod = 1) (hG : G.Ready order o M) (eps : ℝ) (he : 0 < eps) (slope : Slope) (fuel : ℕ)
    (nameOf : ℕ → String) (batch batch' nSub nSub' : ℕ) (h : nSub ≤ nSub') (bs : List (BoxOf (Fin (n + 1)) ℝ)) (hb : ∀ b ∈ bs, ∀ i, b.1 i ≤ b.2 i) :
    ∃ net us ls us' ls', (∀ b, G.cloneOnBox "forward-ibp" none none eps slope M (fuel + 1) order nameOf o b = .ok (net b)) ∧
      getRangeBox net .ibp batch nSub bs = .ok (us, ls) ∧ getRangeBox net .ibp batch' nSub' bs = .ok (us', ls') ∧ us.length = bs.length ∧
      List.Forall₂ (fun u' u => u' ≤ u) us' us ∧ List.Forall₂ (fun l' l => l ≤ l') ls' ls := by
  obtain ⟨net, F, h1, -, H⟩ := cloneIbp_like G order o M hG eps he slope fuel nameOf
  obtain ⟨us, ls, us', ls', g⟩ := H.range_more_of hd batch batch' nSub nSub' h bs hb
  exact ⟨net, us, ls, us', ls', h1, g⟩

/-- C143: with one output and enough sub-boxes, `get_range_box` returns the exact range up to any tolerance. -/
theorem C143_range_converges (hd : (G.sh o).prod = 1) (hG : G.Ready order o M) (eps : ℝ) (he : 0 < eps) (slope : Slope) (fuel : ℕ)
    (nameOf : ℕ → String) (bs : List (BoxOf (Fin (n + 1)) ℝ)) (hb : ∀ b ∈ bs, ∀ i, b.1 i ≤ b.2 i) (t : ℝ) (ht : 0 < t) :
    ∃ net, (∀ b, G.cloneOnBox "forward-ibp" none none eps slope M (fuel + 1) order nameOf o b = .ok (net b)) ∧
      ∃ K, ∀ nSub, K ≤ nSub → ∀ batch, ∃ us ls, getRangeBox net .ibp batch nSub bs = .ok (us, ls) ∧
        us.length = bs.length ∧ ls.length = bs.length ∧
        ∀ (i : ℕ) (b : BoxOf (Fin (n + 1)) ℝ), bs[i]? = some b → ∃ u l, us[i]? = some u ∧ ls[i]? = some l ∧ ∀ k,
          (∀ p ∈ Box b.1 b.2, ∀ y, G.IsOutput order o p y → l ≤ y k ∧ y k ≤ u) ∧
          (∃ p ∈ Box b.1 b.2, ∃ y, G.IsOutput order o p y ∧ u ≤ y k + t) ∧ ∃ p ∈ Box b.1 b.2, ∃ y, G.IsOutput order o p y ∧ y k - t ≤ l := by
  obtain ⟨net, F, h1, hF, H⟩ := cloneIbp_like G order o M hG eps he slope fuel nameOf
  obtain ⟨K, hK⟩ := H.range_converges_of hd bs hb t ht
  refine ⟨net, h1, K, fun nSub hn batch => ?_⟩
  obtain ⟨us, ls, g1, g2, g3, g4⟩ := hK nSub hn batch
  refine ⟨us, ls, g1, g2, g3, fun i b hi => ?_⟩
  obtain ⟨u, l, e1, e2, e3⟩ := g4 i b hi
  refine ⟨u, l, e1, e2, fun k => ?_⟩
  obtain ⟨a, ⟨p, hp, hu⟩, q, hq, hl⟩ := e3 k
  refine ⟨fun x hx y hy => ?_, ⟨p, hp, F p, (hF p _).2 rfl, hu⟩, q, hq, F q, (hF q _).2 rfl, hl⟩
  rw [(hF x y).1 hy]
  exact a x hx

end

/-! ### Concrete graphs -/

/-- `get_range_box` on `exp(x) * x * exp(x)` over `[-1, 1]`: with enough sub-boxes the bounds are within `0.01` of the range. -/
example : ∃ net, (∀ b, expGraph.cloneOnBox "forward-ibp" none none (1 / 10000000) .vSlope 2 4 [0, 1, 2] (fun v => toString v) 2 b = .ok (net b)) ∧
    ∃ K, ∀ nSub, K ≤ nSub → ∃ us ls, getRangeBox net .ibp 10 nSub [(fun _ => -1, fun _ => 1)] = .ok (us, ls) ∧ us.length = 1 ∧ ls.length = 1 := by
  obtain ⟨net, h1, K, hK⟩ := C143_range_converges (n := 0) expGraph [0, 1, 2] 2 2 rfl expGraph_ready (1 / 10000000) (by norm_num) .vSlope 3
    (fun v => toString v) [(fun _ => -1, fun _ => 1)] (by intro b hb; obtain rfl := List.mem_singleton.1 hb; intro i; norm_num) (1 / 100) (by norm_num)
  refine ⟨net, h1, K, fun nSub hn => ?_⟩
  obtain ⟨us, ls, g1, g2, g3, -⟩ := hK nSub hn 10
  exact ⟨us, ls, g1, g2, g3⟩

/-- The outputs `x` and `exp(x)`, joined by a `Concatenate`. -/
def besideGraph : KGraph 1 where
  parents := fun v => match v with | 1 => [0] | 2 => [0, 1] | _ => []
  sh := fun v => match v with | 2 => [2] | _ => [1]
  op := fun v => match v with
    | 0 => .input
    | 1 => .layer (.act .exponential)
    | 2 => .concat [[1], [1]] ⟨0, by decide⟩ [2] fun k =>
        if (k ⟨0, by decide⟩ : ℕ) = 0 then ⟨⟨0, by decide⟩, fun i => ⟨0, by fin_cases i; decide⟩⟩ else ⟨⟨1, by decide⟩, fun i => ⟨0, by fin_cases i; decide⟩⟩
    | _ + 3 => .input

theorem besideGraph_ready : besideGraph.Ready [0, 1, 2] 2 2 := by
  obtain ⟨h1, h2, h3⟩ := chain3_ok besideGraph.parents rfl rfl (by simp [besideGraph]) fun v p hp => by
    match v, hp with
    | 0, hp => simp [besideGraph] at hp
    | 1, hp => simp [besideGraph] at hp; omega
    | 2, hp => simp [besideGraph] at hp; omega
    | _ + 3, hp => simp [besideGraph] at hp
  refine ⟨h1, by simp, h2, h3, fun v hv => ?_⟩
  have : v = 0 ∨ v = 1 ∨ v = 2 := by simpa using hv
  rcases this with rfl | rfl | rfl <;> exact trivial

/-- Its value. -/
theorem besideGraph_value (p : Fin 1 → ℝ) (y : Fin [2].prod → ℝ) (h : besideGraph.IsOutput [0, 1, 2] 2 p y) :
    y ⟨0, by decide⟩ = p 0 ∧ y ⟨1, by decide⟩ = Real.exp (p 0) := by
  obtain ⟨z, hz, hy⟩ := h
  have z0 : z 0 = fun i => p ((oneAxis 1).symm i) := hz 0 (by simp)
  have z1 : z 1 = fun i => Real.exp (z 0 i) := hz 1 (by simp)
  have z2 := hz 2 (by simp)
  have e : ∀ i : Idx [1], p ((oneAxis 1).symm i) = p 0 := fun i => congrArg p (Subsingleton.elim _ _)
  constructor
  · have r : ravel [2] (fun i => ⟨0, by fin_cases i; decide⟩) = ⟨0, by decide⟩ := by decide +kernel
    have := hy fun i => ⟨0, by fin_cases i; decide⟩
    rw [z2] at this
    refine (congrArg y r.symm).trans (this.trans ?_)
    change z 0 _ = p 0
    rw [z0]; exact e _
  · have r : ravel [2] (fun i => ⟨1, by fin_cases i; decide⟩) = ⟨1, by decide⟩ := by decide +kernel
    have := hy fun i => ⟨1, by fin_cases i; decide⟩
    rw [z2] at this
    refine (congrArg y r.symm).trans (this.trans ?_)
    change z 1 _ = Real.exp (p 0)
    rw [z1, z0]; exact congrArg Real.exp (e _)

/-- `x` is below `exp(x)` over `[-2, 2]`, although the intervals of the two outputs overlap: with enough sub-boxes `get_adv_box` proves it. -/
example : ∃ net, (∀ b, besideGraph.cloneOnBox "forward-ibp" none none (1 / 10000000) .vSlope 2 4 [0, 1, 2] (fun v => toString v) 2 b = .ok (net b)) ∧
    ∃ K, ∀ nSub, K ≤ nSub → ∃ scs, getAdvBoxOf [2] net .ibp 10 nSub [⟨(fun _ => -2, fun _ => 2), ![0, 1], ![1, 0]⟩] = .ok scs ∧ scs.length = 1 ∧
      ∀ sc ∈ scs, sc < 0 := by
  have hl : Labels (![0, 1] : Fin 2 → ℝ) ![1, 0] :=
    ⟨fun k => by fin_cases k <;> simp, fun k => by fin_cases k <;> simp, ⟨0, rfl⟩, 1, rfl⟩
  obtain ⟨net, h1, K, hK⟩ := @C143_adv_complete 0 besideGraph [0, 1, 2] 2 2 rfl ⟨⟨0, by decide⟩⟩ besideGraph_ready (1 / 10000000) (by norm_num) .vSlope 3
    (fun v => toString v) [⟨(fun _ => -2, fun _ => 2), ![0, 1], ![1, 0]⟩]
    (by intro r hr; obtain rfl := List.mem_singleton.1 hr; intro i; norm_num)
    (by intro r hr; obtain rfl := List.mem_singleton.1 hr; exact hl)
    (by
      intro r hr
      obtain rfl := List.mem_singleton.1 hr
      intro p _ y hy t s ht hs
      obtain ⟨v0, v1⟩ := besideGraph_value p y hy
      have et : t = ⟨0, by decide⟩ := by
        match t, ht with
        | ⟨0, _⟩, _ => rfl
        | ⟨1, _⟩, h => exact absurd h (by change ¬ ((0 : ℝ) = 1); norm_num)
      have es : s = ⟨1, by decide⟩ := by
        match s, hs with
        | ⟨1, _⟩, _ => rfl
        | ⟨0, _⟩, h => exact absurd h (by change ¬ ((0 : ℝ) = 1); norm_num)
      rw [et, es]
      exact lt_of_eq_of_lt v0 (lt_of_lt_of_eq (by linarith [Real.add_one_le_exp (p 0)]) v1.symm))
  refine ⟨net, h1, K, fun nSub hn => ?_⟩
  obtain ⟨scs, g1, g2, g3⟩ := hK nSub hn 10
  exact ⟨scs, g1, g2, g3⟩

end Decomon
