import Verif.Lemmas.FoldCrown
import Verif.Props.Refine

/-! A network on which the bounds of the modes that use affine forms jump: `ReLU(x + c) + ReLU(10 - x)` on `[-1, 1 + d]`. -/

namespace Decomon

/-- `x ↦ (x + c, 10 - x)`. -/
def kinkPre (c : ℚ) : Net ℚ (Fin 1) (Fin 2) :=
  .layer .input (.dense (fun _ o => if o = (0 : Fin 2) then 1 else -1) (fun o => if o = (0 : Fin 2) then c else 10))

/-- `ReLU(x + c) + ReLU(10 - x)`. -/
def kinkNet (c : ℚ) : Net ℚ (Fin 1) (Fin 1) := .layer (.layer (kinkPre c) (.relu (fun _ => 1) (fun _ => 1))) (.dense (fun _ _ => 1) (fun _ => 0))

theorem hull_kink (u l : ℚ) (hl : l < 0) (h : 0 < u + l) :
    (linearHullRelu 10000000⁻¹ .vSlope 1 u l).wl = 1 ∧ (linearHullRelu 10000000⁻¹ .vSlope 1 u l).bl = 0 := by
  have hu : 0 < u := by linarith
  simp [linearHullRelu, indexDead_of_pos hu, indexLinear_of_neg hl, ksign, h.not_gt, h.ne', kclip]

theorem hull_lin (u l : ℚ) (hl : 0 ≤ l) : linearHullRelu 10000000⁻¹ .vSlope 1 u l = ⟨1, 0, 1, 0⟩ := by
  simp [linearHullRelu, indexLinear_of_nonneg hl]

theorem kink_hybrid (c d : ℚ) (hc : 0 ≤ c) (h1 : c < 1) (h2 : d < 1) (h : 0 < c + d) :
    rangeLower .hybrid (fun _ => -1, fun _ => 1 + d) ((kinkNet c).onBox .hybrid (1 / 10000000) .vSlope (fun _ => -1, fun _ => 1 + d)) 0 = 10 + c := by
  have e1 := hull_kink (1 + d + c) (-1 + c) (by linarith) (by linarith)
  have e2 := hull_lin (1 + 10) (-d + -1 + 10) (by linarith)
  simp [rangeLower, Net.onBox, kinkNet, kinkPre, Net.forward, Lay.forward, denseT, reluT, inputTensorsBox, boxDomain, Full.tighten, getIbp,
    getAffine, getUpperBox, getLowerBox, e1, e2]
  have r1 : relu (-1 + c) = 0 := max_eq_right (by linarith)
  have r2 : relu (-d + -1 + 10) = -d + -1 + 10 := max_eq_left (by linarith)
  rw [r1, r2, max_self, max_eq_left (by linarith : -1 + c ≤ 0), max_eq_right (by linarith)]
  ring

theorem kink_affine (c d : ℚ) (hc : 0 ≤ c) (h1 : c < 1) (h2 : d < 1) (h : 0 < c + d) :
    rangeLower .affine (fun _ => -1, fun _ => 1 + d) ((kinkNet c).onBox .affine (1 / 10000000) .vSlope (fun _ => -1, fun _ => 1 + d)) 0 = 10 + c := by
  have e1 := hull_kink (1 + d + c) (-1 + c) (by linarith) (by linarith)
  have e2 := hull_lin (1 + 10) (-d + -1 + 10) (by linarith)
  simp [rangeLower, Net.onBox, kinkNet, kinkPre, Net.forward, Lay.forward, denseT, reluT, inputTensorsBox, boxDomain, Full.tighten, getIbp,
    getAffine, getUpperBox, getLowerBox, e1, e2]
  ring

theorem relu_next {X ι κ ν α : Type} [Field α] [LinearOrder α] [Fintype ι] [DecidableEq ι] [Fintype κ] [DecidableEq κ] (C : CrownCfg X ι α)
    (n : Net α ι κ) (gf gb : κ → α) (f : Full X ι κ α) (hf : C.childInput n (C.node n) = .ok f) (b : Back κ ν α) :
    (C.node (.layer n (.relu gf gb))).next ν b = (C.node n).next ν (mergeWithPrevious (backwardRelu C.D C.m C.eps C.slope gb f) b) := by
  simp only [CrownCfg.node]
  rw [hf]
  rfl

theorem coefDense_eq {κ κ' α : Type} [Field α] [LinearOrder α] [IsStrictOrderedRing α] [Fintype κ] [DecidableEq κ] (W : κ → κ' → α) (b : κ' → α) :
    (Lay.dense W b).coef = W := by
  funext i k
  simp [Lay.coef, Lay.eval]

theorem offsetDense_eq {κ κ' α : Type} [Field α] [LinearOrder α] [IsStrictOrderedRing α] [Fintype κ] [DecidableEq κ] (W : κ → κ' → α) (b : κ' → α) :
    (Lay.dense W b).offset = b := by
  funext k
  simp [Lay.offset, Lay.eval]

theorem kinkPre_node (C : CrownCfg (BoxOf (Fin 1) ℚ) (Fin 1) ℚ) (c : ℚ) :
    C.node (kinkPre c) = ⟨.ok (fuse C.m C.inp (backwardDense (fun _ o => if o = (0 : Fin 2) then 1 else -1) (fun o => if o = (0 : Fin 2) then c else 10))),
      fun ν b => .ok (fuse C.m C.inp (mergeWithPrevious
        (backwardDense (fun _ o => if o = (0 : Fin 2) then 1 else -1) (fun o => if o = (0 : Fin 2) then c else 10)) b))⟩ := by
  unfold kinkPre
  rw [node_plain _ _ (.dense _ _) (by trivial)]
  simp only [CrownCfg.node, merge_identity_left, coefDense_eq, offsetDense_eq]

theorem fuse_box {ι ν α : Type} [Field α] [LinearOrder α] [IsStrictOrderedRing α] [Fintype ι] [DecidableEq ι] (m : Mode) (lo hi : ι → α)
    (b : Back ι ν α) : fuse m (inputTensorsBox m lo hi) b = b := by
  unfold fuse
  split
  · have e : (⟨(inputTensorsBox m lo hi).wu, (inputTensorsBox m lo hi).bu, (inputTensorsBox m lo hi).wl, (inputTensorsBox m lo hi).bl⟩ : Back ι ι α) =
        Back.identity := by
      simp [inputTensorsBox, *]
      rfl
    rw [e, merge_identity_left]
  · rfl

theorem kink_child (m : Mode) (uf : Bool) (c d : ℚ) (C : CrownCfg (BoxOf (Fin 1) ℚ) (Fin 1) ℚ)
    (hC : C = boxCrown m (1 / 10000000) .vSlope uf (fun _ => -1) (fun _ => 1 + d)) :
    ∃ f, C.childInput (kinkPre c) (C.node (kinkPre c)) = .ok f ∧ (f.tighten boxDomain m true true).uc = ![1 + d + c, 1 + 10] ∧
      (f.tighten boxDomain m true true).lc = ![-1 + c, -d + -1 + 10] := by
  rw [kinkPre_node]
  subst hC
  cases uf with
  | false =>
    refine ⟨_, rfl, ?_, ?_⟩ <;> ext k <;> fin_cases k <;> cases m <;>
      simp [convert2BackwardMode, boxCrown, fuse, mergeWithPrevious, backwardDense, inputTensorsBox, boxDomain, Full.tighten, getIbp, getAffine,
        getUpperBox, getLowerBox]
  | true =>
    refine ⟨_, rfl, ?_, ?_⟩ <;> ext k <;> fin_cases k <;> cases m <;>
      simp [boxCrown, kinkPre, Net.forward, Lay.forward, denseT, inputTensorsBox, boxDomain, Full.tighten, getIbp, getAffine, getUpperBox,
        getLowerBox]

theorem kink_crown (m : Mode) (uf : Bool) (c d : ℚ) (hc : 0 ≤ c) (h1 : c < 1) (h2 : d < 1) (h : 0 < c + d) :
    ∃ out, (boxCrown m (1 / 10000000) .vSlope uf (fun _ => -1) (fun _ => 1 + d)).model (kinkNet c) = .ok out ∧
      rangeLower m (fun _ => -1, fun _ => 1 + d) out 0 = 10 + c := by
  have e1 := hull_kink (1 + d + c) (-1 + c) (by linarith) (by linarith)
  have e2 := hull_lin (1 + 10) (-d + -1 + 10) (by linarith)
  obtain ⟨f, hf, hu, hl⟩ := kink_child m uf c d _ rfl
  have hb : backwardRelu boxDomain m (1 / 10000000) .vSlope (fun _ => 1) f = Back.ofDiag _ _ _ _ := rfl
  rw [hu, hl] at hb
  have key : ∃ b, ((boxCrown m (1 / 10000000) .vSlope uf (fun _ => -1) (fun _ => 1 + d)).node (kinkNet c)).first = .ok b ∧ b.wl 0 0 = 0 ∧
      b.bl 0 = 10 + c := by
    unfold kinkNet
    rw [node_plain _ _ (.dense _ _) (by trivial)]
    dsimp only
    have hk : backwardDense (Lay.dense (fun (_ : Fin 2) (_ : Fin 1) => (1 : ℚ)) (fun _ => 0)).coef
        (Lay.dense (fun (_ : Fin 2) (_ : Fin 1) => (1 : ℚ)) (fun _ => 0)).offset = backwardDense (fun _ _ => 1) (fun _ => 0) := by
      rw [coefDense_eq, offsetDense_eq]
    rw [relu_next _ _ _ _ f hf, kinkPre_node, hk]
    refine ⟨_, rfl, ?_, ?_⟩
    · show (fuse m (inputTensorsBox m (fun _ => -1) (fun _ => 1 + d)) (mergeWithPrevious _ (mergeWithPrevious
        (backwardRelu boxDomain m (1 / 10000000) .vSlope (fun _ => 1) f) _))).wl 0 0 = 0
      rw [hb, fuse_box, merge_exact]
      simp [mergeWithPrevious, backwardDense, Back.ofDiag, diagLike, e1, e2]
    · show (fuse m (inputTensorsBox m (fun _ => -1) (fun _ => 1 + d)) (mergeWithPrevious _ (mergeWithPrevious
        (backwardRelu boxDomain m (1 / 10000000) .vSlope (fun _ => 1) f) _))).bl 0 = 10 + c
      rw [hb, fuse_box, merge_exact]
      simp [mergeWithPrevious, backwardDense, Back.ofDiag, diagLike, e1, e2]
      ring
  obtain ⟨b, hb1, hb2, hb3⟩ := key
  refine ⟨_, by rw [CrownCfg.model, hb1]; rfl, ?_⟩
  cases m <;> simp [rangeLower, convert2BackwardMode, boxCrown, inputTensorsBox, boxDomain, getIbp, getAffine, getLowerBox, hb2, hb3]

end Decomon
