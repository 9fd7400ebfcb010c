import Verif.Lemmas.Refine

/-! Theorems about the number of sub-boxes: C86 (more sub-boxes are never worse), C87 (refinement converges). -/

namespace Decomon

/-- What the model converted in mode `m` returns on a box. -/
def Net.onBox {α : Type} [Field α] [LinearOrder α] {ι κ : Type} [Fintype ι] [DecidableEq ι] (N : Net α ι κ) (m : Mode) (eps : α)
    (s : Slope) (b : BoxOf ι α) : Full (BoxOf ι α) ι κ α := N.forward boxDomain m eps s (inputTensorsBox m b.1 b.2)

theorem forall₂_left {σ τ : Type*} {R : σ → τ → Prop} {l : List σ} {r : List τ} (h : List.Forall₂ R l r) {a : σ} (ha : a ∈ l) :
    ∃ b ∈ r, R a b := by
  induction h with
  | nil => simp at ha
  | cons h _ ih =>
    rcases List.mem_cons.1 ha with rfl | ha
    · exact ⟨_, by simp, h⟩
    · obtain ⟨b, hb, h⟩ := ih ha
      exact ⟨b, by simp [hb], h⟩

theorem forall₂_right {σ τ : Type*} {R : σ → τ → Prop} {l : List σ} {r : List τ} (h : List.Forall₂ R l r) {b : τ} (hb : b ∈ r) :
    ∃ a ∈ l, R a b := by
  obtain ⟨a, ha, h'⟩ := forall₂_left h.flip hb
  exact ⟨a, ha, h'⟩

section
variable {n : ℕ} {κ α : Type} [Field α] [LinearOrder α] [IsStrictOrderedRing α]

theorem subBox_box {ι : Type*} [Fintype ι] {c d : BoxOf ι α} (h : SubBox c d) : Box c.1 c.2 ⊆ Box d.1 d.2 :=
  fun _ hp i => ⟨(h i).1.trans (hp i).1, (hp i).2.trans (h i).2⟩

/-! ### C86 -/

/-- C86: in ibp mode, with one output, asking for more sub-boxes never loosens a bound of `get_range_box`, whatever the batch sizes.
Missing with respect to the full claim: affine and hybrid modes, refuted below. -/
theorem C86_range_ibp_partial (eps : α) (he : 0 < eps) (s : Slope) (N : Net α (Fin (n + 1)) (Fin 1)) (hN : N.WF) (batch batch' nSub nSub' : ℕ)
    (h : nSub ≤ nSub') (bs : List (BoxOf (Fin (n + 1)) α)) (hb : ∀ b ∈ bs, ∀ i, b.1 i ≤ b.2 i) :
    ∃ us ls us' ls', getRangeBox (N.onBox .ibp eps s) .ibp batch nSub bs = .ok (us, ls) ∧
      getRangeBox (N.onBox .ibp eps s) .ibp batch' nSub' bs = .ok (us', ls') ∧ us.length = bs.length ∧
      List.Forall₂ (fun u' u => u' ≤ u) us' us ∧ List.Forall₂ (fun l' l => l ≤ l') ls' ls := by
  rw [getRangeBox_one _ _ _ _ _ hb, getRangeBox_one _ _ _ _ _ hb]
  have key : ∀ b ∈ bs, ∀ c ∈ refineBoxes true nSub' b, ∃ d ∈ refineBoxes true nSub b,
      (N.onBox .ibp eps s d).lc 0 ≤ (N.onBox .ibp eps s c).lc 0 ∧ (N.onBox .ibp eps s c).uc 0 ≤ (N.onBox .ibp eps s d).uc 0 := by
    intro b hb' c hc
    obtain ⟨d, hd, hcd⟩ := refineBoxes_refines b (hb b hb') nSub nSub' h c hc
    exact ⟨d, hd, C32_ibp_monotone eps he s c.1 c.2 d.1 d.2 ((covers_refine nSub' b).good (hb b hb') c hc).1 (subBox_box hcd) N hN 0⟩
  refine ⟨_, _, _, _, rfl, rfl, by simp, ?_, ?_⟩ <;> rw [List.forall₂_map_left_iff, List.forall₂_map_right_iff, List.forall₂_same] <;>
    intro b hb'
  · refine listMax_le (by simpa using refineBoxes_ne_nil nSub' b) fun v hv => ?_
    obtain ⟨c, hc, rfl⟩ := List.mem_map.1 hv
    obtain ⟨d, hd, h1⟩ := key b hb' c hc
    exact h1.2.trans (le_listMax (List.mem_map.2 ⟨d, hd, rfl⟩))
  · refine le_listMin (by simpa using refineBoxes_ne_nil nSub' b) fun v hv => ?_
    obtain ⟨c, hc, rfl⟩ := List.mem_map.1 hv
    obtain ⟨d, hd, h1⟩ := key b hb' c hc
    exact (listMin_le (List.mem_map.2 ⟨d, hd, rfl⟩)).trans h1.1

/-- Labels: 0/1 vectors, with at least one source and one target. -/
def Labels (src tgt : κ → α) : Prop := ZeroOne src ∧ ZeroOne tgt ∧ (∃ t, tgt t = 1) ∧ ∃ s, src s = 1

theorem advBase_greatest {ι X : Type*} [Fintype ι] [Fintype κ] [Nonempty κ] (net : BoxOf ι α → Full X ι κ α) (l : List (AdvSample ι κ α))
    (h : ∀ r ∈ l, GoodBox r.box ∧ Labels r.src r.tgt) :
    ∃ scs, advBase net .ibp l = .ok scs ∧
      List.Forall₂ (fun (r : AdvSample ι κ α) sc => IsGreatest (pairValues (ibpPair (net r.box), r.src, r.tgt)) sc) l scs := by
  have hgood : badBoxes (l.map AdvSample.box) = false :=
    (not_bad_iff _).2 (fun b hb' => by obtain ⟨r, hr, rfl⟩ := List.mem_map.1 hb'; exact (h r hr).1)
  unfold advBase
  rw [hgood]
  refine ⟨_, rfl, ?_⟩
  have := C33_mask_exact (l.map fun r => (ibpPair (net r.box), r.src, r.tgt))
  rw [List.forall₂_map_left_iff] at this
  rw [List.forall₂_iff_get] at this ⊢
  refine ⟨this.1, fun i h1 h2 => ?_⟩
  obtain ⟨z1, z2, ⟨t, ht⟩, s, hs⟩ := (h _ (List.get_mem l ⟨i, h1⟩)).2
  exact (this.2 i h1 h2).2 z1 z2 ⟨_, t, s, ht, hs, rfl⟩

/-- C86: in ibp mode, asking for more sub-boxes never raises a score of `get_adv_box`. -/
theorem C86_adv_ibp_partial [Fintype κ] [Nonempty κ] (eps : α) (he : 0 < eps) (s : Slope) (N : Net α (Fin (n + 1)) κ) (hN : N.WF)
    (batch batch' nSub nSub' : ℕ) (h : nSub ≤ nSub') (rows : List (AdvSample (Fin (n + 1)) κ α))
    (hb : ∀ r ∈ rows, ∀ i, r.box.1 i ≤ r.box.2 i) (hl : ∀ r ∈ rows, Labels r.src r.tgt) :
    ∃ scs scs', getAdvBox (N.onBox .ibp eps s) .ibp batch nSub rows = .ok scs ∧
      getAdvBox (N.onBox .ibp eps s) .ibp batch' nSub' rows = .ok scs' ∧ scs.length = rows.length ∧
      List.Forall₂ (fun sc' sc => sc' ≤ sc) scs' scs := by
  obtain ⟨scs, h1, h2⟩ := getAdvBox_map (N.onBox .ibp eps s) .ibp _ batch nSub rows Labels hl hb (fun l => advBase_greatest _ l)
  obtain ⟨scs', h1', h2'⟩ := getAdvBox_map (N.onBox .ibp eps s) .ibp _ batch' nSub' rows Labels hl hb (fun l => advBase_greatest _ l)
  refine ⟨scs, scs', h1, h1', h2.length_eq.symm, ?_⟩
  rw [List.forall₂_iff_get] at h2 h2' ⊢
  refine ⟨h2'.1.symm.trans h2.1, fun i i1 i2 => ?_⟩
  have i0 : i < rows.length := h2.1 ▸ i2
  obtain ⟨grp, g1, e⟩ := h2.2 i i0 i2
  obtain ⟨grp', g1', e'⟩ := h2'.2 i i0 i1
  have hr := List.get_mem rows ⟨i, i0⟩
  generalize rows.get ⟨i, i0⟩ = r at *
  rw [e, e']
  refine listMax_le ?_ fun v hv => ?_
  · intro hn
    rw [hn] at g1'
    exact refineBoxes_ne_nil nSub' r.box (by simpa using g1')
  · obtain ⟨c, hc, ⟨t, s', ht, hs', rfl⟩, -⟩ := forall₂_right g1' hv
    obtain ⟨d, hd, hcd⟩ := refineBoxes_refines r.box (hb r hr) nSub nSub' h c hc
    obtain ⟨v, hv, hgr⟩ := forall₂_left g1 hd
    have m := C32_ibp_monotone eps he s c.1 c.2 d.1 d.2 ((covers_refine nSub' r.box).good (hb r hr) c hc).1 (subBox_box hcd) N hN
    refine le_trans ?_ ((hgr.2 ⟨t, s', ht, hs', rfl⟩).trans (le_listMax hv))
    exact sub_le_sub (m t).2 (m s').1

/-- `x ↦ ReLU(x) - x`. -/
def reluMinusId : Net ℚ (Fin 1) (Fin 1) := .merge .subtract (.layer .input (.relu (fun _ => 1) (fun _ => 1))) .input

/-- C86: refuted in affine and hybrid mode: on `[-1, 1.1]`, two sub-boxes give for `ReLU(x) - x` a lower bound (-0.05) which is worse
than the one (0) obtained without sub-boxes, because the slope chosen for ReLU changes with the box. -/
theorem C86_affine_refuted (m : Mode) (hm : m = .affine ∨ m = .hybrid) :
    ∃ u l u' l', getRangeBox (reluMinusId.onBox m (1 / 10000000) .vSlope) m 0 1 [(fun _ => -1, fun _ => 11 / 10)] = .ok ([u], [l]) ∧
      getRangeBox (reluMinusId.onBox m (1 / 10000000) .vSlope) m 0 2 [(fun _ => -1, fun _ => 11 / 10)] = .ok ([u'], [l']) ∧ l' < l := by
  rcases hm with rfl | rfl
  · exact ⟨1, 0, 1, -1 / 20, by decide +kernel, by decide +kernel, by norm_num⟩
  · exact ⟨1, 0, 1, -1 / 20, by decide +kernel, by decide +kernel, by norm_num⟩

/-- C86 on an example: `ReLU(x) - x` on `[-1, 1]` in ibp mode, with 1, 2 and 4 sub-boxes. -/
example : getRangeBox (reluMinusId.onBox .ibp (1 / 10000000) .vSlope) .ibp 0 1 [(fun _ => -1, fun _ => 1)] = .ok ([2], [-1]) ∧
    getRangeBox (reluMinusId.onBox .ibp (1 / 10000000) .vSlope) .ibp 0 2 [(fun _ => -1, fun _ => 1)] = .ok ([1], [-1]) ∧
    getRangeBox (reluMinusId.onBox .ibp (1 / 10000000) .vSlope) .ibp 0 4 [(fun _ => -1, fun _ => 1)] = .ok ([1], [-1 / 2]) := by
  refine ⟨by decide +kernel, by decide +kernel, by decide +kernel⟩

/-! ### C87 -/

theorem eventually_list {β : Type*} (bs : List β) (P : β → ℕ → Prop) (h : ∀ b ∈ bs, ∃ K, ∀ N, K ≤ N → P b N) :
    ∃ K, ∀ N, K ≤ N → ∀ b ∈ bs, P b N := by
  induction bs with
  | nil => exact ⟨0, by simp⟩
  | cons a t ih =>
    obtain ⟨K1, h1⟩ := h a (by simp)
    obtain ⟨K2, h2⟩ := ih fun b hb => h b (by simp [hb])
    refine ⟨max K1 K2, fun N hN b hb => ?_⟩
    rcases List.mem_cons.1 hb with rfl | hb
    · exact h1 N (le_trans (le_max_left _ _) hN)
    · exact h2 N (le_trans (le_max_right _ _) hN) b hb

/-- With enough sub-boxes, the interval bounds on each sub-box are as narrow as wanted. -/
theorem narrow_bounds [Archimedean α] (eps : α) (he : 0 < eps) (s : Slope) (N : Net α (Fin (n + 1)) κ) (hN : N.WF) (k : κ) (b : BoxOf (Fin (n + 1)) α)
    (hb : ∀ i, b.1 i ≤ b.2 i) (d : α) (hd : 0 < d) :
    ∃ K, ∀ nSub, K ≤ nSub → ∀ c ∈ refineBoxes true nSub b, (N.onBox .ibp eps s c).uc k - (N.onBox .ibp eps s c).lc k ≤ d := by
  obtain ⟨L, hL, h⟩ := N.width eps he s b hN k
  have hW : ∀ i, b.2 i - b.1 i ≤ ∑ j, (b.2 j - b.1 j) := fun i =>
    Finset.single_le_sum (f := fun j => b.2 j - b.1 j) (fun j _ => sub_nonneg.2 (hb j)) (Finset.mem_univ i)
  have hW0 : 0 ≤ ∑ j, (b.2 j - b.1 j) := Finset.sum_nonneg fun j _ => sub_nonneg.2 (hb j)
  generalize ∑ j, (b.2 j - b.1 j) = W at *
  obtain ⟨e, he'⟩ := pow_unbounded_of_one_lt (L * W / d) (one_lt_two (α := α))
  refine ⟨2 ^ (e * (n + 1)), fun nSub hn c hc => ?_⟩
  have g := (covers_refine nSub b).good hb c hc
  refine (h c (W / 2 ^ e) g.1 g.2 (by positivity) (C35_widths e nSub hn b hb W hW c hc)).trans ?_
  rw [← mul_div_assoc, div_le_iff₀ (by positivity)]
  rw [div_lt_iff₀ hd] at he'
  linarith

/-- Sub-boxes on which the bounds of the output are narrower than `d` give a range that is within `d` of the exact one. -/
theorem range_close {X : Type} (net : BoxOf (Fin (n + 1)) α → Full X (Fin (n + 1)) (Fin 1) α) (f : (Fin (n + 1) → α) → Fin 1 → α)
    (val : ∀ c : BoxOf (Fin (n + 1)) α, ∀ p ∈ Box c.1 c.2, ∀ k, (net c).lc k ≤ f p k ∧ f p k ≤ (net c).uc k)
    (bs : List (BoxOf (Fin (n + 1)) α)) (hb : ∀ b ∈ bs, ∀ i, b.1 i ≤ b.2 i) (d : α) (nSub : ℕ)
    (hK : ∀ b ∈ bs, ∀ c ∈ refineBoxes true nSub b, (net c).uc 0 - (net c).lc 0 ≤ d) (batch : ℕ) :
    ∃ us ls, getRangeBox net .ibp batch nSub bs = .ok (us, ls) ∧
      us.length = bs.length ∧ ls.length = bs.length ∧
      ∀ (i : ℕ) (b : BoxOf (Fin (n + 1)) α), bs[i]? = some b → ∃ u l, us[i]? = some u ∧ ls[i]? = some l ∧
        (∀ p ∈ Box b.1 b.2, l ≤ f p 0 ∧ f p 0 ≤ u) ∧
        (∃ p ∈ Box b.1 b.2, u ≤ f p 0 + d) ∧ ∃ p ∈ Box b.1 b.2, f p 0 - d ≤ l := by
  rw [getRangeBox_one _ _ _ _ _ hb]
  refine ⟨_, _, rfl, by simp, by simp, fun i b hi => ?_⟩
  have hbm := List.mem_of_getElem? hi
  have cov := covers_refine nSub b
  have val := fun (c : BoxOf (Fin (n + 1)) α) p hp => val c p hp 0
  refine ⟨_, _, by rw [List.getElem?_map, hi]; rfl, by rw [List.getElem?_map, hi]; rfl, fun p hp => ?_, ?_, ?_⟩
  · obtain ⟨c, hc, hpc⟩ := cov.cover p hp
    exact ⟨(listMin_le (List.mem_map.2 ⟨c, hc, rfl⟩)).trans (val c p hpc).1, (val c p hpc).2.trans (le_listMax (List.mem_map.2 ⟨c, hc, rfl⟩))⟩
  · obtain ⟨c, hc, e⟩ := List.mem_map.1 (listMax_mem (l := (refineBoxes true nSub b).map fun c => rangeUpper .ibp c (net c) 0)
      (by simpa using refineBoxes_ne_nil nSub b))
    have g := cov.good (hb b hbm) c hc
    have hc1 : c.1 ∈ Box c.1 c.2 := fun j => ⟨le_rfl, g.1 j⟩
    refine ⟨c.1, subBox_box g.2 hc1, ?_⟩
    dsimp only
    rw [← e]
    have h1 := hK b hbm c hc
    have h2 := (val c c.1 hc1).1
    simp only [rangeUpper]
    linarith
  · have hmin : ∀ l : List α, l ≠ [] → listMin l ∈ l := by
      intro l hl
      cases l with
      | nil => exact absurd rfl hl
      | cons a t =>
        have key : ∀ (t : List α) (a : α), t.foldl min a ∈ a :: t := by
          intro t
          induction t with
          | nil => simp
          | cons x t ih =>
            intro a
            rw [List.foldl_cons]
            rcases List.mem_cons.1 (ih (min a x)) with h | h
            · rw [h]; rcases min_choice a x with h | h <;> simp [h]
            · simp [h]
        exact key t a
    obtain ⟨c, hc, e⟩ := List.mem_map.1 (hmin ((refineBoxes true nSub b).map fun c => rangeLower .ibp c (net c) 0)
      (by simpa using refineBoxes_ne_nil nSub b))
    have g := cov.good (hb b hbm) c hc
    have hc1 : c.1 ∈ Box c.1 c.2 := fun j => ⟨le_rfl, g.1 j⟩
    refine ⟨c.1, subBox_box g.2 hc1, ?_⟩
    dsimp only
    rw [← e]
    have h1 := hK b hbm c hc
    have h2 := (val c c.1 hc1).2
    simp only [rangeLower]
    linarith

/-- C87: the range returned by `get_range_box` for a forward-ibp model converges to the exact range when the number of sub-boxes grows:
for every tolerance `d` there is a number of sub-boxes from which, for every box of the batch, the bounds enclose the output and both are
within `d` of a value that the model takes on the box. -/
theorem C87_range_converges [Archimedean α] (eps : α) (he : 0 < eps) (s : Slope) (N : Net α (Fin (n + 1)) (Fin 1)) (hN : N.WF)
    (bs : List (BoxOf (Fin (n + 1)) α)) (hb : ∀ b ∈ bs, ∀ i, b.1 i ≤ b.2 i) (d : α) (hd : 0 < d) :
    ∃ K, ∀ nSub, K ≤ nSub → ∀ batch, ∃ us ls, getRangeBox (N.onBox .ibp eps s) .ibp batch nSub bs = .ok (us, ls) ∧
      us.length = bs.length ∧ ls.length = bs.length ∧
      ∀ (i : ℕ) (b : BoxOf (Fin (n + 1)) α), bs[i]? = some b → ∃ u l, us[i]? = some u ∧ ls[i]? = some l ∧
        (∀ p ∈ Box b.1 b.2, l ≤ N.eval p 0 ∧ N.eval p 0 ≤ u) ∧
        (∃ p ∈ Box b.1 b.2, u ≤ N.eval p 0 + d) ∧ ∃ p ∈ Box b.1 b.2, N.eval p 0 - d ≤ l := by
  obtain ⟨K, hK⟩ := eventually_list bs _ fun b hb' => narrow_bounds eps he s N hN 0 b (hb b hb') d hd
  exact ⟨K, fun nSub hn batch => range_close (N.onBox .ibp eps s) (fun p => N.eval p) (fun c p hp k => C27_box_ibp eps he s c.1 c.2 N hN p hp k) bs hb d
    nSub (hK nSub hn) batch⟩

/-- The same for the score of `get_adv_box`. -/
theorem score_close {X : Type} [Fintype κ] [Nonempty κ] (net : BoxOf (Fin (n + 1)) α → Full X (Fin (n + 1)) κ α) (f : (Fin (n + 1) → α) → κ → α)
    (val : ∀ c : BoxOf (Fin (n + 1)) α, ∀ p ∈ Box c.1 c.2, ∀ k, (net c).lc k ≤ f p k ∧ f p k ≤ (net c).uc k)
    (rows : List (AdvSample (Fin (n + 1)) κ α)) (hb : ∀ r ∈ rows, ∀ i, r.box.1 i ≤ r.box.2 i) (hl : ∀ r ∈ rows, Labels r.src r.tgt) (d : α) (nSub : ℕ)
    (hK : ∀ r ∈ rows, ∀ k, ∀ c ∈ refineBoxes true nSub r.box, (net c).uc k - (net c).lc k ≤ d / 2) (batch : ℕ) :
    ∃ scs, getAdvBox net .ibp batch nSub rows = .ok scs ∧
      List.Forall₂ (fun (r : AdvSample (Fin (n + 1)) κ α) sc =>
        (∀ p ∈ Box r.box.1 r.box.2, ∀ t s, r.tgt t = 1 → r.src s = 1 → f p t - f p s ≤ sc) ∧
        ∃ p ∈ Box r.box.1 r.box.2, ∃ t s, r.tgt t = 1 ∧ r.src s = 1 ∧ sc ≤ f p t - f p s + d) rows scs := by
  obtain ⟨scs, h1, h2⟩ := getAdvBox_map net .ibp _ batch nSub rows Labels hl hb (fun l => advBase_greatest _ l)
  refine ⟨scs, h1, ?_⟩
  rw [List.forall₂_iff_get] at h2 ⊢
  refine ⟨h2.1, fun i i0 i1 => ?_⟩
  obtain ⟨grp, g1, e⟩ := h2.2 i i0 i1
  have hr := List.get_mem rows ⟨i, i0⟩
  generalize rows.get ⟨i, i0⟩ = r at *
  rw [e]
  refine ⟨fun p hp t s' ht hs' => ?_, ?_⟩
  · obtain ⟨c, hc, hpc⟩ := (covers_refine nSub r.box).cover p hp
    obtain ⟨v, hv, hgr⟩ := forall₂_left g1 hc
    refine le_trans ?_ ((hgr.2 ⟨t, s', ht, hs', rfl⟩).trans (le_listMax hv))
    exact sub_le_sub (val c p hpc t).2 (val c p hpc s').1
  · have hne : grp ≠ [] := by
      intro hn'
      rw [hn'] at g1
      exact refineBoxes_ne_nil nSub r.box (by simpa using g1)
    obtain ⟨c, hc, ⟨t, s', ht, hs', hv⟩, -⟩ := forall₂_right g1 (listMax_mem hne)
    have g := (covers_refine nSub r.box).good (hb r hr) c hc
    have hc1 : c.1 ∈ Box c.1 c.2 := fun j => ⟨le_rfl, g.1 j⟩
    refine ⟨c.1, subBox_box g.2 hc1, t, s', ht, hs', ?_⟩
    have w1 := hK r hr t c hc
    have w2 := hK r hr s' c hc
    rw [hv]
    have a1 := (val c c.1 hc1 t).1
    have a2 := (val c c.1 hc1 s').2
    simp only [ibpPair]
    linarith

/-- C87: the score of `get_adv_box` for a forward-ibp model converges to the largest margin. -/
theorem C87_score_converges [Archimedean α] [Fintype κ] [Nonempty κ] (eps : α) (he : 0 < eps) (s : Slope) (N : Net α (Fin (n + 1)) κ) (hN : N.WF)
    (rows : List (AdvSample (Fin (n + 1)) κ α)) (hb : ∀ r ∈ rows, ∀ i, r.box.1 i ≤ r.box.2 i) (hl : ∀ r ∈ rows, Labels r.src r.tgt)
    (d : α) (hd : 0 < d) :
    ∃ K, ∀ nSub, K ≤ nSub → ∀ batch, ∃ scs, getAdvBox (N.onBox .ibp eps s) .ibp batch nSub rows = .ok scs ∧
      List.Forall₂ (fun (r : AdvSample (Fin (n + 1)) κ α) sc =>
        (∀ p ∈ Box r.box.1 r.box.2, ∀ t s, r.tgt t = 1 → r.src s = 1 → N.eval p t - N.eval p s ≤ sc) ∧
        ∃ p ∈ Box r.box.1 r.box.2, ∃ t s, r.tgt t = 1 ∧ r.src s = 1 ∧ sc ≤ N.eval p t - N.eval p s + d) rows scs := by
  obtain ⟨K, hK⟩ := eventually_list rows _ fun r hr => eventually_list Finset.univ.toList _ fun k _ =>
    narrow_bounds eps he s N hN k r.box (hb r hr) (d / 2) (by positivity)
  exact ⟨K, fun nSub hn batch => score_close (N.onBox .ibp eps s) (fun p => N.eval p) (fun c p hp k => C27_box_ibp eps he s c.1 c.2 N hN p hp k) rows hb hl d
    nSub (fun r hr k => hK nSub hn r hr k (Finset.mem_toList.2 (Finset.mem_univ k))) batch⟩

/-- C87: completeness of `get_adv_box`: a sample on which every source beats every target by a margin gets a negative score, provided
enough sub-boxes are asked for. -/
theorem C87_adv_complete [Archimedean α] [Fintype κ] [Nonempty κ] (eps : α) (he : 0 < eps) (s : Slope) (N : Net α (Fin (n + 1)) κ) (hN : N.WF)
    (r : AdvSample (Fin (n + 1)) κ α) (hb : ∀ i, r.box.1 i ≤ r.box.2 i) (hl : Labels r.src r.tgt) (d : α) (hd : 0 < d)
    (hrob : ∀ p ∈ Box r.box.1 r.box.2, ∀ t s, r.tgt t = 1 → r.src s = 1 → N.eval p t + d ≤ N.eval p s) :
    ∃ K, ∀ nSub, K ≤ nSub → ∀ batch, ∃ sc, getAdvBox (N.onBox .ibp eps s) .ibp batch nSub [r] = .ok [sc] ∧ sc < 0 := by
  obtain ⟨K, hK⟩ := C87_score_converges eps he s N hN [r] (by simpa using hb) (by simpa using hl) (d / 2) (by positivity)
  refine ⟨K, fun nSub hn batch => ?_⟩
  obtain ⟨scs, h1, h2⟩ := hK nSub hn batch
  cases h2 with
  | cons h h' =>
    cases h'
    obtain ⟨-, p, hp, t, s', ht, hs', hle⟩ := h
    refine ⟨_, h1, ?_⟩
    have := hrob p hp t s' ht hs'
    linarith

/-- C87: in hybrid mode (networks without `Multiply`), the bounds are also within `d` of a value of the model, from the same number of
sub-boxes on. -/
theorem C87_range_hybrid [Archimedean α] (eps : α) (he : 0 < eps) (s : Slope) (N : Net α (Fin (n + 1)) (Fin 1)) (hN : N.WF) (hm : N.NoMultiply)
    (b : BoxOf (Fin (n + 1)) α) (hb : ∀ i, b.1 i ≤ b.2 i) (d : α) (hd : 0 < d) :
    ∃ K, ∀ nSub, K ≤ nSub → ∀ batch, ∃ u l, getRangeBox (N.onBox .hybrid eps s) .hybrid batch nSub [b] = .ok ([u], [l]) ∧
        (∃ p ∈ Box b.1 b.2, u ≤ N.eval p 0 + d) ∧ ∃ p ∈ Box b.1 b.2, N.eval p 0 - d ≤ l := by
  obtain ⟨K, hK⟩ := C87_range_converges eps he s N hN [b] (by simpa using hb) d hd
  refine ⟨K, fun nSub hn batch => ?_⟩
  obtain ⟨us, ls, h1, -, -, h2⟩ := hK nSub hn batch
  rw [getRangeBox_one _ _ _ _ _ (by simpa [GoodBox] using hb)] at h1 ⊢
  obtain ⟨u, l, hu, hl, -, ⟨p, hp, h3⟩, q, hq, h4⟩ := h2 0 b rfl
  simp only [Except.ok.injEq, Prod.mk.injEq] at h1
  rw [← h1.1] at hu
  rw [← h1.2] at hl
  simp only [List.map_cons, List.getElem?_cons_zero, Option.some.injEq] at hu hl
  refine ⟨_, _, rfl, ⟨p, hp, le_trans ?_ h3⟩, q, hq, le_trans h4 ?_⟩
  · rw [← hu]
    refine listMax_le (by simpa using refineBoxes_ne_nil nSub b) fun v hv => ?_
    obtain ⟨c, hc, rfl⟩ := List.mem_map.1 hv
    refine le_trans ?_ (le_listMax (List.mem_map.2 ⟨c, hc, rfl⟩))
    exact (min_le_left _ _).trans (C31_box eps he s c.1 c.2 N hN hm 0).2
  · rw [← hl]
    refine le_listMin (by simpa using refineBoxes_ne_nil nSub b) fun v hv => ?_
    obtain ⟨c, hc, rfl⟩ := List.mem_map.1 hv
    refine le_trans (listMin_le (List.mem_map.2 ⟨c, hc, rfl⟩)) ?_
    exact (C31_box eps he s c.1 c.2 N hN hm 0).1.trans (le_max_left _ _)

/-- C87 on an example: `ReLU(x) - x` takes values in `[0, 1]` on `[-1, 1]`; with 64 sub-boxes the bounds are within 1/32. -/
example : getRangeBox (reluMinusId.onBox .ibp (1 / 10000000) .vSlope) .ibp 0 64 [(fun _ => -1, fun _ => 1)] = .ok ([1], [-1 / 32]) := by
  decide +kernel

/-- `x ↦ (x, x + 1/2)`, computed through two ReLUs. -/
def robustNet : Net ℚ (Fin 1) (Fin 2) :=
  .layer (.layer (.layer .input (.dense (fun _ => ![1, -1]) (fun _ => 0) : Lay ℚ (Fin 1) (Fin 2))) (.relu (fun _ => 1) (fun _ => 1)))
    (.dense ![![1, 1], ![-1, -1]] ![0, 1 / 2])

/-- C87 on an example: on `[-1, 1]` the source 1 beats the target 0 by a margin 1/2; the score is positive without sub-boxes and negative
with 8. -/
example : getAdvBox (robustNet.onBox .ibp (1 / 10000000) .vSlope) .ibp 0 1 [⟨(fun _ => -1, fun _ => 1), ![0, 1], ![1, 0]⟩] = .ok [3 / 2] ∧
    getAdvBox (robustNet.onBox .ibp (1 / 10000000) .vSlope) .ibp 0 8 [⟨(fun _ => -1, fun _ => 1), ![0, 1], ![1, 0]⟩] = .ok [-1 / 4] ∧
    Labels (![0, 1] : Fin 2 → ℚ) ![1, 0] := by
  refine ⟨by decide +kernel, by decide +kernel, ?_, ?_, ⟨0, rfl⟩, ⟨1, rfl⟩⟩ <;> intro k <;> fin_cases k <;> simp

end

end Decomon
