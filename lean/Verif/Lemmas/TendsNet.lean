import Verif.Lemmas.Tends
import Verif.Lemmas.Network

/-!
The tensors of a converted network tend to those of the limit network, for the forward and the backward conversions.
-/

namespace Decomon

open Filter Topology

section
variable {X ι κ T : Type} {α : Type} [Field α] [LinearOrder α]

theorem minusT_minusT (D : PertDomain X ι α) (m : Mode) (f : Full X ι κ α) : minusT D m (minusT D m f) = f := by
  simp [minusT, Full.tighten]

theorem addT_swap (D : PertDomain X ι α) (m : Mode) (f g : Full X ι κ α) (h : f.x = g.x) : addT D m f g = addT D m g f := by
  have hx : ∀ f : Full X ι κ α, (f.tighten D m true true).x = f.x := fun f => by unfold Full.tighten; split_ifs <;> rfl
  simp only [addT]
  congr 1
  · rw [hx, hx, h]
  all_goals (funext; first | (funext; exact add_comm _ _) | exact add_comm _ _)

theorem subtract_minus (D : PertDomain X ι α) (m : Mode) (f g : Full X ι κ α) (h : f.x = g.x) :
    subtractT D m (minusT D m g) (minusT D m f) = subtractT D m f g := by
  unfold subtractT
  rw [minusT_minusT]
  exact addT_swap D m _ _ (by simp [minusT, Full.tighten, h])

end

section
variable {X ι κ T β : Type} {L : (T → X) → X → Prop} {F : Filter T} {D : PertDomain X ι ℝ}

/-- The forward bounds of a network tend to those of the limit network. -/
theorem net_tends (hD : D.Cont L F) (m : Mode) {eps : ℝ} (he : 0 < eps) (slope : Slope) (inp : T → Full X ι ι ℝ) (inp0 : Full X ι ι ℝ)
    (hi : Tends L F inp inp0) (M : T → β → ℝ) (M0 : β → ℝ) (hM : ∀ c, Tendsto (fun t => M t c) F (𝓝 (M0 c))) (N : Net β ι κ)
    (hf : ∀ t, (N.map (M t)).NoFinetune) (hf0 : (N.map M0).NoFinetune) (hw : (N.map M0).WF)
    (h : getAffine m = true → (N.map M0).EachRelu slope fun s n => ∀ k, Steady eps s
      (((n.forward D m eps slope inp0).tighten D m true true).uc k) (((n.forward D m eps slope inp0).tighten D m true true).lc k)) :
    Tends L F (fun t => (N.map (M t)).forward D m eps slope (inp t)) ((N.map M0).forward D m eps slope inp0) := by
  induction N with
  | input => exact hi
  | layer n l ih =>
    have a := ih (fun t => (hf t).1) hf0.1 hw.1 fun ha => (h ha).1
    cases l with
    | dense kernel bias => exact a.denseT hD m _ _ _ _ (fun i o => hM _) fun o => hM _
    | linear I kernel bias => exact a.linearLayerT hD m I _ _ _ _ (fun q => hM _) fun o => hM _
    | relu gf gb => exact a.reluT hD m he slope _ _ (fun t k => ((hf t).2 k).1) (fun k => (hf0.2 k).1) fun ha => (h ha).2
    | batchNorm gamma beta mean sd =>
      exact a.batchNormT hD m _ _ _ _ _ _ _ _ (fun k => hM _) (fun k => hM _) (fun k => hM _) (fun k => hM _) fun k => (hw.2 k).ne'
    | reshape e => exact a.reindexT hD m e
    | skip => exact a
  | merge op n0 n1 ih0 ih1 =>
    have a := ih0 (fun t => (hf t).1) hf0.1 hw.1 fun ha => (h ha).1
    have b := ih1 (fun t => (hf t).2) hf0.2 hw.2 fun ha => (h ha).2.1
    cases op with
    | add => exact a.addLayerT hD m b
    | average => exact a.averageLayerT hD m b
    | subtract => exact a.subtractT hD m b
    | maximum => exact a.maximumT hD m he b fun ha => (h ha).2.2
    | minimum =>
      refine ((a.minusT hD m).maximumT hD m he (b.minusT hD m) fun ha => ?_).minusT hD m
      rw [subtract_minus D m _ _ (by rw [Net.forward_x, Net.forward_x])]
      exact (h ha).2.2
    | multiply => exact a.multiplyT hD m b

end

section
variable {ι κ ν T : Type} {F : Filter T}

/-- The backward bounds `b` tend to `b0`. -/
structure BackTends (F : Filter T) (b : T → Back κ ν ℝ) (b0 : Back κ ν ℝ) : Prop where
  wu : ∀ i k, Tendsto (fun t => (b t).wu i k) F (𝓝 (b0.wu i k))
  bu : ∀ k, Tendsto (fun t => (b t).bu k) F (𝓝 (b0.bu k))
  wl : ∀ i k, Tendsto (fun t => (b t).wl i k) F (𝓝 (b0.wl i k))
  bl : ∀ k, Tendsto (fun t => (b t).bl k) F (𝓝 (b0.bl k))

theorem BackTends.const (b : Back κ ν ℝ) : BackTends F (fun _ => b) b :=
  ⟨fun _ _ => tendsto_const_nhds, fun _ => tendsto_const_nhds, fun _ _ => tendsto_const_nhds, fun _ => tendsto_const_nhds⟩

theorem BackTends.merge [Fintype κ] {p : T → Back ι κ ℝ} {p0 : Back ι κ ℝ} {b : T → Back κ ν ℝ} {b0 : Back κ ν ℝ} (hp : BackTends F p p0)
    (hb : BackTends F b b0) : BackTends F (fun t => mergeWithPrevious (p t) (b t)) (mergeWithPrevious p0 b0) := by
  refine ⟨fun i n => ?_, fun n => ?_, fun i n => ?_, fun n => ?_⟩ <;> simp only [mergeWithPrevious]
  · exact (tendsto_finsetSum _ fun k _ => (hp.wu i k).mul ((hb.wu k n).max tendsto_const_nhds)).add
      (tendsto_finsetSum _ fun k _ => (hp.wl i k).mul ((hb.wu k n).min tendsto_const_nhds))
  · exact ((tendsto_finsetSum _ fun k _ => (hp.bu k).mul ((hb.wu k n).max tendsto_const_nhds)).add
      (tendsto_finsetSum _ fun k _ => (hp.bl k).mul ((hb.wu k n).min tendsto_const_nhds))).add (hb.bu n)
  · exact (tendsto_finsetSum _ fun k _ => (hp.wl i k).mul ((hb.wl k n).max tendsto_const_nhds)).add
      (tendsto_finsetSum _ fun k _ => (hp.wu i k).mul ((hb.wl k n).min tendsto_const_nhds))
  · exact ((tendsto_finsetSum _ fun k _ => (hp.bl k).mul ((hb.wl k n).max tendsto_const_nhds)).add
      (tendsto_finsetSum _ fun k _ => (hp.bu k).mul ((hb.wl k n).min tendsto_const_nhds))).add (hb.bl n)

theorem BackTends.diag [DecidableEq κ] {wu bu wl bl : T → κ → ℝ} {wu0 bu0 wl0 bl0 : κ → ℝ} (h1 : ∀ k, Tendsto (fun t => wu t k) F (𝓝 (wu0 k)))
    (h2 : ∀ k, Tendsto (fun t => bu t k) F (𝓝 (bu0 k))) (h3 : ∀ k, Tendsto (fun t => wl t k) F (𝓝 (wl0 k)))
    (h4 : ∀ k, Tendsto (fun t => bl t k) F (𝓝 (bl0 k))) :
    BackTends F (fun t => Back.ofDiag (wu t) (bu t) (wl t) (bl t)) (Back.ofDiag wu0 bu0 wl0 bl0) := by
  refine ⟨fun i k => ?_, h2, fun i k => ?_, h4⟩ <;> simp only [Back.ofDiag, diagLike] <;> split_ifs
  exacts [h1 k, tendsto_const_nhds, h3 k, tendsto_const_nhds]

end

section
variable {X ι κ κ' ν T β : Type} [Fintype ι] [DecidableEq ι] {L : (T → X) → X → Prop} {F : Filter T} {D : PertDomain X ι ℝ}

omit [Fintype ι] [DecidableEq ι] in
theorem lay_back_tends [Fintype κ] [DecidableEq κ] (hD : D.Cont L F) (m : Mode) {eps : ℝ} (he : 0 < eps) (slope : Slope) (M : T → β → ℝ) (M0 : β → ℝ)
    (hM : ∀ c, Tendsto (fun t => M t c) F (𝓝 (M0 c))) (l : Lay β κ κ') (hf : ∀ t, (l.map (M t)).NoFinetune) (hf0 : (l.map M0).NoFinetune)
    (hw : (l.map M0).WF) (f : T → Full X ι κ ℝ) (f0 : Full X ι κ ℝ) (h : Tends L F f f0)
    (hs : (match l with | .relu _ _ => ∀ k, Steady eps slope ((f0.tighten D m true true).uc k) ((f0.tighten D m true true).lc k) | _ => True)) :
    BackTends F (fun t => (l.map (M t)).backward D m eps slope (f t)) ((l.map M0).backward D m eps slope f0) := by
  cases l with
  | dense kernel bias => exact ⟨fun i k => hM _, fun k => hM _, fun i k => hM _, fun k => hM _⟩
  | linear I kernel bias =>
    have a : ∀ i k, Tendsto (fun t => toeplitz I (fun q => M t (kernel q)) i k) F (𝓝 (toeplitz I (fun q => M0 (kernel q)) i k)) := fun i k =>
      tendsto_finsetSum _ fun u _ => tendsto_const_nhds.mul (hM _)
    exact ⟨a, fun k => hM _, a, fun k => hM _⟩
  | relu gf gb =>
    have a := h.tighten hD m true true
    have e : ∀ (g : κ → ℝ), (∀ k, g k = 1) → g = fun _ => 1 := fun g hg => funext hg
    have e0 := e _ fun k => (hf0 k).2
    have et := fun t => e _ fun k => (hf t k).2
    simp only [Lay.map, Lay.backward, backwardRelu, e0, et]
    have q := fun k => tendsto_hull he slope (a.uc k) (a.lc k) (hs k)
    exact BackTends.diag (fun k => (q k).1) (fun k => (q k).2.1) (fun k => (q k).2.2.1) fun k => (q k).2.2.2
  | batchNorm gamma beta mean sd =>
    have a : ∀ k, Tendsto (fun t => M t (gamma k) / M t (sd k)) F (𝓝 (M0 (gamma k) / M0 (sd k))) := fun k => (hM _).div (hM _) (hw k).ne'
    have b : ∀ k, Tendsto (fun t => M t (beta k) - M t (gamma k) / M t (sd k) * M t (mean k)) F
      (𝓝 (M0 (beta k) - M0 (gamma k) / M0 (sd k) * M0 (mean k))) := fun k => (hM _).sub ((a k).mul (hM _))
    exact ⟨fun i k => tendsto_const_nhds.mul (a i), b, fun i k => tendsto_const_nhds.mul (a i), b⟩
  | reshape e => exact BackTends.const _
  | skip => exact BackTends.const _

omit [Fintype ι] [DecidableEq ι] in
theorem convert_tends (hD : D.Cont L F) (m : Mode) (stack : (ι → ℝ) → (ι → ℝ) → X) (inp : T → Full X ι ι ℝ) (inp0 : Full X ι ι ℝ)
    (hi : Tends L F inp inp0) (hst : m = .ibp → L (fun t => stack (inp t).lc (inp t).uc) (stack inp0.lc inp0.uc)) (b : T → Back ι ν ℝ)
    (b0 : Back ι ν ℝ) (hb : BackTends F b b0) :
    Tends L F (fun t => convert2BackwardMode D stack m (inp t) (b t)) (convert2BackwardMode D stack m inp0 b0) := by
  have hx : L (fun t => if m = .ibp then stack (inp t).lc (inp t).uc else (inp t).x) (if m = .ibp then stack inp0.lc inp0.uc else inp0.x) := by
    by_cases hm : m = .ibp
    · simp only [if_pos hm]; exact hst hm
    · simp only [if_neg hm]; exact hi.x
  refine ⟨?_, fun k => ?_, fun i k => ?_, fun k => ?_, fun k => ?_, fun i k => ?_, fun k => ?_⟩ <;> simp only [convert2BackwardMode]
  · by_cases hm : m = .ibp
    · simp only [if_pos hm]; exact hi.x
    · simp only [if_neg hm]; exact hi.x
  · split_ifs with h1 h2
    all_goals first | exact tendsto_const_nhds | skip
    all_goals exact hD.upper _ _ _ _ _ _ (by simpa [h2] using hx) (fun i => hb.wu i k) (hb.bu k)
  · split_ifs
    exacts [hb.wu i k, tendsto_const_nhds]
  · split_ifs
    exacts [hb.bu k, tendsto_const_nhds]
  · split_ifs with h1 h2
    all_goals first | exact tendsto_const_nhds | skip
    all_goals exact hD.lower _ _ _ _ _ _ (by simpa [h2] using hx) (fun i => hb.wl i k) (hb.bl k)
  · split_ifs
    exacts [hb.wl i k, tendsto_const_nhds]
  · split_ifs
    exacts [hb.bl k, tendsto_const_nhds]

/-- The backward bounds of a chain tend to those of the limit chain. -/
theorem node_tends (hD : D.Cont L F) (m : Mode) {eps : ℝ} (he : 0 < eps) (slope : Slope) (stack : (ι → ℝ) → (ι → ℝ) → X) (uf : Bool)
    (inp : T → Full X ι ι ℝ) (inp0 : Full X ι ι ℝ) (hi : Tends L F inp inp0)
    (hst : m = .ibp → L (fun t => stack (inp t).lc (inp t).uc) (stack inp0.lc inp0.uc)) (M : T → β → ℝ) (M0 : β → ℝ)
    (hM : ∀ c, Tendsto (fun t => M t c) F (𝓝 (M0 c))) (N : Net β ι κ) (hc : N.Chain) (hf : ∀ t, (N.map (M t)).NoFinetune)
    (hf0 : (N.map M0).NoFinetune) (hw : (N.map M0).WF)
    (h : (N.map M0).EachRelu slope fun s n => ∀ f, CrownCfg.childInput ⟨D, stack, m, eps, slope, uf, inp0⟩ n
      (CrownCfg.node ⟨D, stack, m, eps, slope, uf, inp0⟩ n) = .ok f →
        ∀ k, Steady eps s ((f.tighten D m true true).uc k) ((f.tighten D m true true).lc k)) :
    (∃ r r0, (∀ t, (CrownCfg.node ⟨D, stack, m, eps, slope, uf, inp t⟩ (N.map (M t))).first = .ok (r t)) ∧
      (CrownCfg.node ⟨D, stack, m, eps, slope, uf, inp0⟩ (N.map M0)).first = .ok r0 ∧ BackTends F r r0) ∧
    ∀ (ν : Type) (b : T → Back κ ν ℝ) (b0 : Back κ ν ℝ), BackTends F b b0 →
      ∃ r r0, (∀ t, (CrownCfg.node ⟨D, stack, m, eps, slope, uf, inp t⟩ (N.map (M t))).next ν (b t) = .ok (r t)) ∧
        (CrownCfg.node ⟨D, stack, m, eps, slope, uf, inp0⟩ (N.map M0)).next ν b0 = .ok r0 ∧ BackTends F r r0 := by
  induction N with
  | input =>
    have key : ∀ (ν : Type) (b : T → Back ι ν ℝ) (b0 : Back ι ν ℝ), BackTends F b b0 → BackTends F (fun t => fuse m (inp t) (b t)) (fuse m inp0 b0) := by
      intro ν b b0 hb
      unfold fuse
      split_ifs
      · exact BackTends.merge ⟨hi.wu, hi.bu, hi.wl, hi.bl⟩ hb
      · exact hb
    exact ⟨⟨_, _, fun t => rfl, rfl, key _ _ _ (BackTends.const _)⟩, fun ν b b0 hb => ⟨_, _, fun t => rfl, rfl, key _ _ _ ((BackTends.const _).merge hb)⟩⟩
  | @layer κ κ' fk dk fk' n l ih =>
    obtain ⟨⟨r, r0, a1, a2, a3⟩, a4⟩ := ih hc (fun t => (hf t).1) hf0.1 hw.1 h.1
    have hch : ∃ f f0, (∀ t, CrownCfg.childInput ⟨D, stack, m, eps, slope, uf, inp t⟩ (n.map (M t))
        (CrownCfg.node ⟨D, stack, m, eps, slope, uf, inp t⟩ (n.map (M t))) = .ok (f t)) ∧
        CrownCfg.childInput ⟨D, stack, m, eps, slope, uf, inp0⟩ (n.map M0) (CrownCfg.node ⟨D, stack, m, eps, slope, uf, inp0⟩ (n.map M0)) = .ok f0 ∧
        Tends L F f f0 := by
      cases uf with
      | false =>
        refine ⟨_, _, fun t => by rw [CrownCfg.childInput, if_neg Bool.false_ne_true, a1 t]; rfl, by rw [CrownCfg.childInput, if_neg Bool.false_ne_true, a2]; rfl,
          convert_tends hD m stack inp inp0 hi hst r r0 a3⟩
      | true =>
        refine ⟨_, _, fun t => by rw [CrownCfg.childInput, if_pos rfl], by rw [CrownCfg.childInput, if_pos rfl],
          net_tends hD m he slope inp inp0 hi M M0 hM n (fun t => (hf t).1) hf0.1 hw.1 fun _ => ?_⟩
        have := h.1
        simpa only [CrownCfg.childInput, if_true, Except.ok.injEq, forall_eq'] using this
    obtain ⟨f, f0, c1, c2, c3⟩ := hch
    have hb := lay_back_tends hD m he slope M M0 hM l (fun t => (hf t).2) hf0.2 hw.2 f f0 c3 (by
      have := h.2
      cases l with
      | relu gf gb => exact this f0 c2
      | _ => trivial)
    refine ⟨?_, fun ν b b0 hbt => ?_⟩
    · obtain ⟨q, q0, d1, d2, d3⟩ := a4 _ _ _ hb
      refine ⟨q, q0, fun t => ?_, ?_, d3⟩
      · simp only [Net.map, CrownCfg.node, c1 t]; exact d1 t
      · simp only [Net.map, CrownCfg.node, c2]; exact d2
    · obtain ⟨q, q0, d1, d2, d3⟩ := a4 ν _ _ (hb.merge hbt)
      refine ⟨q, q0, fun t => ?_, ?_, d3⟩
      · simp only [Net.map, CrownCfg.node, c1 t]; exact d1 t
      · simp only [Net.map, CrownCfg.node, c2]; exact d2
  | merge op n0 n1 => exact hc.elim

end

end Decomon
