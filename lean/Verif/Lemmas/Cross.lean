import Verif.Lemmas.Kink

/-! A network whose bounds cross in the modes that use affine forms: `K ReLU(x + 5e-10) + K ReLU(5e-10 - x)` on `[-1e-9, 1e-9]`. -/

namespace Decomon

/-- `x ↦ (x + 5e-10, 5e-10 - x)`. -/
def crossPre : Net ℚ (Fin 1) (Fin 2) :=
  .layer .input (.dense (fun _ o => if o = (0 : Fin 2) then 1 else -1) (fun _ => 1 / 2000000000))

/-- `ReLU(x + 5e-10), ReLU(5e-10 - x)`. -/
def crossMid : Net ℚ (Fin 1) (Fin 2) := .layer crossPre (.relu (fun _ => 1) (fun _ => 1))

/-- `K ReLU(x + 5e-10) + K ReLU(5e-10 - x)`. -/
def crossNet (K : ℚ) : Net ℚ (Fin 1) (Fin 1) := .layer crossMid (.dense (fun _ _ => K) (fun _ => 0))

/-- The box `[-1e-9, 1e-9]`. -/
def crossBox : BoxOf (Fin 1) ℚ := (fun _ => -1 / 1000000000, fun _ => 1 / 1000000000)

theorem cross_mid_affine : let f := crossMid.onBox .affine (1 / 10000000) .vSlope crossBox
    (fun k => f.wu 0 k) = ![3 / 200, -3 / 200] ∧ f.bu = ![3 / 200000000000, 3 / 200000000000] ∧ (fun k => f.wl 0 k) = ![1, -1] ∧
      f.bl = ![1 / 2000000000, 1 / 2000000000] := by
  decide +kernel

theorem cross_mid_hybrid : let f := crossMid.onBox .hybrid (1 / 10000000) .vSlope crossBox
    f.uc = ![3 / 2000000000, 3 / 2000000000] ∧ f.lc = ![0, 0] ∧
    (fun k => f.wu 0 k) = ![3 / 200, -3 / 200] ∧ f.bu = ![3 / 200000000000, 3 / 200000000000] ∧ (fun k => f.wl 0 k) = ![1, -1] ∧
      f.bl = ![1 / 2000000000, 1 / 2000000000] := by
  decide +kernel

theorem cross_affine (K : ℚ) (hK : 0 ≤ K) :
    rangeUpper .affine crossBox ((crossNet K).onBox .affine (1 / 10000000) .vSlope crossBox) 0 = K * (3 / 100000000000) ∧
      rangeLower .affine crossBox ((crossNet K).onBox .affine (1 / 10000000) .vSlope crossBox) 0 = K / 1000000000 := by
  obtain ⟨h1, h2, h3, h4⟩ := cross_mid_affine
  simp only [funext_iff, Fin.forall_fin_two] at h1 h2 h3 h4
  have e0 : (crossNet K).onBox .affine (1 / 10000000) .vSlope crossBox = (Lay.dense (fun _ _ => K) (fun _ => 0)).forward boxDomain .affine (1 / 10000000)
      .vSlope (crossMid.onBox .affine (1 / 10000000) .vSlope crossBox) := rfl
  rw [e0]
  generalize crossMid.onBox .affine (1 / 10000000) .vSlope crossBox = f at *
  have e : max 0 K = K := max_eq_right hK
  have e' : min 0 K = 0 := min_eq_left hK
  simp [rangeUpper, rangeLower, Lay.forward, denseT, crossBox, Full.tighten, getAffine, getIbp, getUpperBox, getLowerBox, h1, h2, h3, h4]
  simp only [e, e']
  ring_nf
  simp

theorem cross_hybrid (K : ℚ) (hK : 0 ≤ K) :
    rangeUpper .hybrid crossBox ((crossNet K).onBox .hybrid (1 / 10000000) .vSlope crossBox) 0 = K * (3 / 100000000000) ∧
      rangeLower .hybrid crossBox ((crossNet K).onBox .hybrid (1 / 10000000) .vSlope crossBox) 0 = K / 1000000000 := by
  obtain ⟨h5, h6, h1, h2, h3, h4⟩ := cross_mid_hybrid
  have hx : (crossMid.onBox .hybrid (1 / 10000000) .vSlope crossBox).x = crossBox := rfl
  simp only [funext_iff, Fin.forall_fin_two] at h1 h2 h3 h4 h5 h6
  have e0 : (crossNet K).onBox .hybrid (1 / 10000000) .vSlope crossBox = (Lay.dense (fun _ _ => K) (fun _ => 0)).forward boxDomain .hybrid (1 / 10000000)
      .vSlope (crossMid.onBox .hybrid (1 / 10000000) .vSlope crossBox) := rfl
  rw [e0]
  generalize crossMid.onBox .hybrid (1 / 10000000) .vSlope crossBox = f at *
  have e : max 0 K = K := max_eq_right hK
  have e' : min 0 K = 0 := min_eq_left hK
  simp [rangeUpper, rangeLower, Lay.forward, denseT, crossBox, Full.tighten, getAffine, getIbp, getUpperBox, getLowerBox, h1, h2, h3, h4, h5, h6, hx, boxDomain]
  simp only [e, e']
  ring_nf
  simp only [max_self, min_self, zero_mul, add_zero]
  constructor
  · refine min_eq_right ?_
    have a1 : max (3 / 200 : ℚ) 0 = 3 / 200 := by norm_num
    have a2 : min (3 / 200 : ℚ) 0 = 0 := by norm_num
    have a3 : max (-3 / 200 : ℚ) 0 = 0 := by norm_num
    have a4 : min (-3 / 200 : ℚ) 0 = -3 / 200 := by norm_num
    rw [a1, a2, a3, a4]
    norm_num
    linarith
  · refine max_eq_right ?_
    have a1 : max 0 (-1 / 2000000000 : ℚ) = 0 := by norm_num
    rw [a1]
    linarith

theorem crossPre_node (C : CrownCfg (BoxOf (Fin 1) ℚ) (Fin 1) ℚ) :
    C.node crossPre = ⟨.ok (fuse C.m C.inp (backwardDense (fun _ o => if o = (0 : Fin 2) then 1 else -1) (fun _ => 1 / 2000000000))),
      fun _ b => .ok (fuse C.m C.inp (mergeWithPrevious
        (backwardDense (fun _ o => if o = (0 : Fin 2) then 1 else -1) (fun _ => 1 / 2000000000)) b))⟩ := by
  unfold crossPre
  rw [node_plain _ _ (.dense _ _) (by trivial)]
  simp only [CrownCfg.node, merge_identity_left, coefDense_eq, offsetDense_eq]

theorem cross_child (m : Mode) (uf : Bool) :
    ((boxCrown m (1 / 10000000) .vSlope uf crossBox.1 crossBox.2).childInput crossPre
      ((boxCrown m (1 / 10000000) .vSlope uf crossBox.1 crossBox.2).node crossPre)).toOption.map (fun f =>
        ((f.tighten boxDomain m true true).uc, (f.tighten boxDomain m true true).lc)) =
      some (![3 / 2000000000, 3 / 2000000000], ![-1 / 2000000000, -1 / 2000000000]) := by
  rw [crossPre_node]
  cases m <;> cases uf <;> decide +kernel

theorem cross_hull : linearHullRelu (1 / 10000000) .vSlope 1 (3 / 2000000000 : ℚ) (-1 / 2000000000) = ⟨3 / 200, 3 / 400000000000, 1, 0⟩ := by
  have h : let r := linearHullRelu (1 / 10000000) .vSlope 1 (3 / 2000000000 : ℚ) (-1 / 2000000000)
      (r.wu, r.bu, r.wl, r.bl) = (3 / 200, 3 / 400000000000, 1, 0) := by decide +kernel
  revert h
  generalize linearHullRelu (1 / 10000000) .vSlope 1 (3 / 2000000000 : ℚ) (-1 / 2000000000) = r
  intro h
  cases r
  simpa using h

theorem cross_crown (m : Mode) (uf : Bool) (K : ℚ) (hK : 0 ≤ K) :
    ∃ out, (boxCrown m (1 / 10000000) .vSlope uf crossBox.1 crossBox.2).model (crossNet K) = .ok out ∧
      rangeUpper m crossBox out 0 = K * (3 / 100000000000) ∧ rangeLower m crossBox out 0 = K / 1000000000 := by
  have hc := cross_child m uf
  cases hf : (boxCrown m (1 / 10000000) .vSlope uf crossBox.1 crossBox.2).childInput crossPre
      ((boxCrown m (1 / 10000000) .vSlope uf crossBox.1 crossBox.2).node crossPre) with
  | error e => rw [hf] at hc; simp [Except.toOption] at hc
  | ok f =>
    rw [hf] at hc
    simp only [Except.toOption, Option.map_some, Option.some.injEq, Prod.mk.injEq] at hc
    obtain ⟨hu, hl⟩ := hc
    have hb : backwardRelu boxDomain m (1 / 10000000) .vSlope (fun _ => 1) f =
        Back.ofDiag (fun _ : Fin 2 => 3 / 200) (fun _ => 3 / 400000000000) (fun _ => 1) (fun _ => 0) := by
      have h0 : backwardRelu boxDomain m (1 / 10000000) .vSlope (fun _ => 1) f = Back.ofDiag _ _ _ _ := rfl
      rw [h0, hu, hl]
      have hk : ∀ k : Fin 2, linearHullRelu (1 / 10000000) .vSlope 1 (![3 / 2000000000, 3 / 2000000000] k : ℚ)
          (![-1 / 2000000000, -1 / 2000000000] k) = ⟨3 / 200, 3 / 400000000000, 1, 0⟩ := fun k => by fin_cases k <;> exact cross_hull
      simp only [hk]
    have key : ∃ b, ((boxCrown m (1 / 10000000) .vSlope uf crossBox.1 crossBox.2).node (crossNet K)).first = .ok b ∧ b.wl 0 0 = 0 ∧
        b.bl 0 = K / 1000000000 ∧ b.wu 0 0 = 0 ∧ b.bu 0 = K * (3 / 100000000000) := by
      unfold crossNet crossMid
      rw [node_plain _ _ (.dense _ _) (by trivial)]
      dsimp only
      rw [relu_next _ _ _ _ f hf, crossPre_node, coefDense_eq, offsetDense_eq]
      refine ⟨_, rfl, ?_⟩
      show (fuse m (inputTensorsBox m crossBox.1 crossBox.2) (mergeWithPrevious _ (mergeWithPrevious
        (backwardRelu boxDomain m (1 / 10000000) .vSlope (fun _ => 1) f) _))).wl 0 0 = 0 ∧ 
        (fuse m (inputTensorsBox m crossBox.1 crossBox.2) (mergeWithPrevious _ (mergeWithPrevious
        (backwardRelu boxDomain m (1 / 10000000) .vSlope (fun _ => 1) f) _))).bl 0 = _ ∧ 
        (fuse m (inputTensorsBox m crossBox.1 crossBox.2) (mergeWithPrevious _ (mergeWithPrevious
        (backwardRelu boxDomain m (1 / 10000000) .vSlope (fun _ => 1) f) _))).wu 0 0 = 0 ∧ 
        (fuse m (inputTensorsBox m crossBox.1 crossBox.2) (mergeWithPrevious _ (mergeWithPrevious
        (backwardRelu boxDomain m (1 / 10000000) .vSlope (fun _ => 1) f) _))).bu 0 = _
      rw [hb, fuse_box, merge_exact]
      have e : max K 0 = K := max_eq_left hK
      have e' : min K 0 = 0 := min_eq_right hK
      simp [mergeWithPrevious, backwardDense, Back.ofDiag, diagLike, e, e']
      ring_nf
      simp
    obtain ⟨b, hb1, hb2, hb3, hb4, hb5⟩ := key
    refine ⟨_, by rw [CrownCfg.model, hb1]; rfl, ?_⟩
    cases m <;> simp [rangeLower, rangeUpper, convert2BackwardMode, boxCrown, inputTensorsBox, boxDomain, getIbp, getAffine, getLowerBox, getUpperBox, hb2, hb3, hb4, hb5]

end Decomon
