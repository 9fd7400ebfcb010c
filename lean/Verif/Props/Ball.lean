import Verif.Lemmas.Swap
import Verif.Props.Width

/-! Theorems that compare the bounds over balls with the bounds over boxes (C126). -/

namespace Decomon

section Affine
variable {ι : Type} [Fintype ι] [Nonempty ι]

/-- The points of the smaller norms are points of the larger ball: `L1` within `L2` within `Linf`. -/
theorem ball_nested (x0 : ι → ℝ) (eps : ℝ) : LpBall x0 eps (.fin 1) ⊆ LpBall x0 eps (.fin 2) ∧ LpBall x0 eps (.fin 2) ⊆ LpBall x0 eps .inf := by
  constructor
  · rintro p (⟨h, -⟩ | ⟨-, h⟩ | ⟨h, -⟩)
    · cases h
    · have h0 : 0 ≤ eps := (Finset.sum_nonneg fun i _ => abs_nonneg (p i - x0 i)).trans h
      refine Or.inr (Or.inr ⟨rfl, h0, ?_⟩)
      have h1 : ∑ i, (p i - x0 i) ^ 2 ≤ (∑ i, |p i - x0 i|) ^ 2 := by
        simp_rw [← sq_abs (p _ - x0 _)]
        exact Finset.sum_sq_le_sq_sum_of_nonneg fun i _ => abs_nonneg _
      exact h1.trans (pow_le_pow_left₀ (Finset.sum_nonneg fun i _ => abs_nonneg _) h 2)
    · exact absurd h (by decide)
  · classical
    intro p hp
    refine Or.inl ⟨rfl, fun i => ?_⟩
    have := ball_coord eps _ x0 p hp i
    exact abs_le.2 ⟨by linarith, by linarith⟩

/-- C126, `get_upper` and `get_lower` on one affine function: the bounds for `p = 1`, `p = 2` and `p = inf` with the same radius are nested, and
those for `p = inf` are the bounds over the box `[x0 - eps, x0 + eps]`. -/
theorem C126_concretise (x0 : ι → ℝ) (eps : ℝ) (he : 0 ≤ eps) (w : ι → ℝ) (b : ℝ) :
    ∃ u1 u2 u3 l1 l2 l3, getUpperBall x0 eps (.fin 1) w b = .ok u1 ∧ getUpperBall x0 eps (.fin 2) w b = .ok u2 ∧
      getUpperBall x0 eps .inf w b = .ok u3 ∧ getLowerBall x0 eps (.fin 1) w b = .ok l1 ∧ getLowerBall x0 eps (.fin 2) w b = .ok l2 ∧
      getLowerBall x0 eps .inf w b = .ok l3 ∧ l3 ≤ l2 ∧ l2 ≤ l1 ∧ l1 ≤ u1 ∧ u1 ≤ u2 ∧ u2 ≤ u3 ∧
      u3 = getUpperBox (fun i => x0 i - eps) (fun i => x0 i + eps) w b ∧ l3 = getLowerBox (fun i => x0 i - eps) (fun i => x0 i + eps) w b := by
  obtain ⟨u1, l1, a1, a2, a3, ⟨p1, a4, a5⟩, ⟨q1, a6, a7⟩⟩ := C02_ball_sound_and_exact x0 w eps b he (.fin 1) (by simp)
  obtain ⟨u2, l2, b1, b2, b3, ⟨p2, b4, b5⟩, ⟨q2, b6, b7⟩⟩ := C02_ball_sound_and_exact x0 w eps b he (.fin 2) (by simp)
  obtain ⟨u3, l3, c1, c2, c3, -, -⟩ := C02_ball_sound_and_exact x0 w eps b he .inf (by simp)
  obtain ⟨n1, n2⟩ := ball_nested x0 eps
  refine ⟨u1, u2, u3, l1, l2, l3, a1, b1, c1, a2, b2, c2, ?_, ?_, ?_, ?_, ?_, ?_, ?_⟩
  · rw [← b7]; exact (c3 _ (n2 b6)).1
  · rw [← a7]; exact (b3 _ (n1 a6)).1
  · rw [← a5]; exact (a3 _ a4).1
  · rw [← a5]; exact (b3 _ (n1 a4)).2
  · rw [← b5]; exact (c3 _ (n2 b4)).2
  · have := c1.symm
    simpa [getUpperBall] using this
  · have := c2.symm
    simpa [getLowerBall] using this

/-- C126: on `w = (3, 4)` the three upper bounds around 0 with radius 1 are 4, 5 and 7. -/
example : getUpperBall (fun _ : Fin 2 => 0) 1 (.fin 1) ![3, 4] 0 = .ok 4 ∧ getUpperBall (fun _ : Fin 2 => 0) 1 (.fin 2) ![3, 4] 0 = .ok 5 ∧
    getUpperBall (fun _ : Fin 2 => 0) 1 .inf ![3, 4] 0 = .ok 7 := by
  refine ⟨?_, ?_, ?_⟩
  · have : maxOver (fun i : Fin 2 => |![(3 : ℝ), 4] i|) = 4 := by
      apply le_antisymm
      · refine Finset.sup'_le _ _ fun i _ => ?_
        fin_cases i <;> norm_num
      · refine le_trans ?_ (Finset.le_sup' (fun i : Fin 2 => |![(3 : ℝ), 4] i|) (Finset.mem_univ 1))
        norm_num
    simp [getUpperBall, getLqNorm, this, Bind.bind, Except.bind, Pure.pure, Except.pure]
  · have : Real.sqrt 25 = 5 := by
      rw [show (25 : ℝ) = 5 ^ 2 by norm_num]; exact Real.sqrt_sq (by norm_num)
    simp [getUpperBall, getLqNorm, Bind.bind, Except.bind, Pure.pure, Except.pure]
    norm_num [this]
  · simp [getUpperBall, getUpperBox]
    norm_num

end Affine

section Models
variable {ι κ ν : Type} [Fintype ι] [DecidableEq ι] [Nonempty ι]

theorem ball_agree (eps : ℝ) (z : ι → ℝ) :
    AffAgree (boxDomain : PertDomain ((ι → ℝ) × (ι → ℝ)) ι ℝ) (fun i => z i - eps, fun i => z i + eps) (ballDomain eps .inf) z :=
  fun w b => by simp [boxDomain, ballDomain, getUpperBall, getLowerBall, Except.toOption]

theorem ball_input (m : Mode) (eps : ℝ) (z : ι → ℝ) :
    inputTensorsBall m eps .inf z = (inputTensorsBox m (fun i => z i - eps) (fun i => z i + eps)).setX z := by
  simp [inputTensorsBall, inputTensorsBox, Full.setX]

/-- C126: a forward conversion over `BallDomain(eps, p=inf)` around `z` and one over `BoxDomain` on `[z - eps, z + eps]` produce the same constant
and affine bounds, in every mode, for every slope and every network. -/
theorem C126_forward (m : Mode) (leps : ℝ) (s : Slope) (eps : ℝ) (z : ι → ℝ) (N : Net ℝ ι κ) :
    SameNumbers (N.onBox m leps s (fun i => z i - eps, fun i => z i + eps)) (N.forward (ballDomain eps .inf) m leps s (inputTensorsBall m eps .inf z)) := by
  rw [ball_input, Net.forward_setX m (fun _ => ball_agree eps z) leps s _ rfl N]
  exact setX_same _ _

/-- C126: the same for the backward conversions in affine and hybrid mode, for the model and for the bounds of a linear combination
`C` of its outputs (`back_bounds`).  The two conversions also raise on the same networks.  Missing: ibp mode, see
`C126_crown_ibp_refuted`. -/
theorem C126_crown_partial (m : Mode) (hm : m ≠ .ibp) (leps : ℝ) (s : Slope) (uf : Bool) (stack : (ι → ℝ) → (ι → ℝ) → ι → ℝ) (eps : ℝ) (z : ι → ℝ)
    (N : Net ℝ ι κ) (C : κ → ν → ℝ) :
    let box := boxCrown m leps s uf (fun i => z i - eps) (fun i => z i + eps)
    let ball : CrownCfg (ι → ℝ) ι ℝ := ⟨ballDomain eps .inf, stack, m, leps, s, uf, inputTensorsBall m eps .inf z⟩
    (∀ out, box.model N = .ok out → ∃ out', ball.model N = .ok out' ∧ SameNumbers out out') ∧
    (∀ out, box.modelBack N C = .ok out → ∃ out', ball.modelBack N C = .ok out' ∧ SameNumbers out out') ∧
    (∀ e, box.model N = .error e → ball.model N = .error e) ∧ (∀ e, box.modelBack N C = .error e → ball.modelBack N C = .error e) := by
  intro box ball
  have h1 : ball.model N = (box.model N).map (Full.setX · z) := by
    simp only [ball]
    rw [ball_input]
    exact CrownCfg.model_setX m (fun _ => ball_agree eps z) Prod.mk stack hm leps s uf _ rfl N
  have h2 : ball.modelBack N C = (box.modelBack N C).map (Full.setX · z) := by
    simp only [ball]
    rw [ball_input]
    exact CrownCfg.modelBack_setX m (fun _ => ball_agree eps z) Prod.mk stack hm leps s uf _ rfl N C
  refine ⟨fun out h => ⟨out.setX z, ?_, setX_same _ _⟩, fun out h => ⟨out.setX z, ?_, setX_same _ _⟩, fun e h => ?_, fun e h => ?_⟩
  · rw [h1, h]; rfl
  · rw [h2, h]; rfl
  · rw [h1, h]; rfl
  · rw [h2, h]; rfl

/-- C126: `get_range_noise` with `p = inf` on the bounds of a network computes what `get_range_box` computes on the box with the same points. -/
theorem C126_range_noise {X Y : Type} (m : Mode) (eps : ℝ) (z : ι → ℝ) (f : Full X ι κ ℝ) (g : Full Y ι κ ℝ) (h : SameNumbers f g) (k : κ) :
    noiseUpper m eps .inf z g k = .ok (rangeUpper m (fun i => z i - eps, fun i => z i + eps) f k) ∧
    noiseLower m eps .inf z g k = .ok (rangeLower m (fun i => z i - eps, fun i => z i + eps) f k) := by
  obtain ⟨nu, a1, a2, -⟩ := noise_upper_eq eps (f.bu k) .inf z (fun i => f.wu i k) (Or.inl rfl)
  obtain ⟨nl, b1, -, b3⟩ := noise_upper_eq eps (f.bl k) .inf z (fun i => f.wl i k) (Or.inl rfl)
  simp only [getUpperBall, if_true, Except.ok.injEq] at a2
  simp only [getLowerBall, if_true, Except.ok.injEq] at b3
  rw [noiseUpper, noiseLower, ← h.wu, ← h.wl, a1, b1, ← h.bu, ← h.bl, ← h.uc, ← h.lc]
  cases m <;> simp only [rangeUpper, rangeLower, a2, b3, and_self]

/-- C126, whole path: the range of a converted ball model equals the range of the converted box model. -/
theorem C126_forward_range (m : Mode) (leps : ℝ) (s : Slope) (eps : ℝ) (z : ι → ℝ) (N : Net ℝ ι κ) (k : κ) :
    let ball := N.forward (ballDomain eps .inf) m leps s (inputTensorsBall m eps .inf z)
    let b : BoxOf ι ℝ := (fun i => z i - eps, fun i => z i + eps)
    noiseUpper m eps .inf z ball k = .ok (rangeUpper m b (N.onBox m leps s b) k) ∧
    noiseLower m eps .inf z ball k = .ok (rangeLower m b (N.onBox m leps s b) k) :=
  C126_range_noise m eps z _ _ (C126_forward m leps s eps z N) k

theorem unit_ball (eps : ℝ) (he : 0 ≤ eps) (q : PVal) (hq : q = .inf ∨ q = .fin 1 ∨ q = .fin 2) (z : ι → ℝ) (k : ι) :
    (ballDomain eps q).getUpper z (fun i => if i = k then 1 else 0) 0 = z k + eps ∧
    (ballDomain eps q).getLower z (fun i => if i = k then 1 else 0) 0 = z k - eps := by
  have hb : ∀ p, affEval (fun i => if i = k then (1 : ℝ) else 0) 0 p = p k := fun p => by simp [affEval]
  obtain ⟨u, l, h1, h2, h3, ⟨p, h4, h5⟩, ⟨p', h6, h7⟩⟩ :=
    C02_ball_sound_and_exact z (fun i => if i = k then (1 : ℝ) else 0) eps 0 he q hq
  have e1 : z k + eps ≤ u := by
    have := (h3 (fun i => z i + if i = k then eps else 0) ?_).2
    · simpa [hb] using this
    · rcases hq with rfl | rfl | rfl
      · refine Or.inl ⟨rfl, fun i => ?_⟩
        by_cases h : i = k <;> simp [h, abs_of_nonneg he, he]
      · refine Or.inr (Or.inl ⟨rfl, ?_⟩)
        simp [apply_ite abs, abs_of_nonneg he]
      · exact Or.inr (Or.inr ⟨rfl, he, by simp⟩)
  have e2 : l ≤ z k - eps := by
    have := (h3 (fun i => z i - if i = k then eps else 0) ?_).1
    · simpa [hb] using this
    · rcases hq with rfl | rfl | rfl
      · refine Or.inl ⟨rfl, fun i => ?_⟩
        by_cases h : i = k <;> simp [h, abs_of_nonneg he, he]
      · refine Or.inr (Or.inl ⟨rfl, ?_⟩)
        simp [apply_ite abs, abs_of_nonneg he]
      · exact Or.inr (Or.inr ⟨rfl, he, by simp⟩)
  rw [hb] at h5 h7
  have e3 := (ball_coord eps q z p h4 k).2
  have e4 := (ball_coord eps q z p' h6 k).1
  simp only [ballDomain, h1, h2, Except.toOption, Option.getD_some]
  constructor <;> linarith

theorem ball_input_ibp (eps : ℝ) (he : 0 ≤ eps) (q : PVal) (hq : q = .inf ∨ q = .fin 1 ∨ q = .fin 2) (z : ι → ℝ) :
    inputTensorsBall .ibp eps q z = (inputTensorsBox .ibp (fun i => z i - eps) (fun i => z i + eps)).setX z := by
  simp [inputTensorsBall, inputTensorsBox, Full.setX, unit_ball eps he q hq z]

/-- C126: interval propagation over a ball sees the box around it only: for `p = 1`, `p = 2` and `p = inf` the bounds are those over
`[z - eps, z + eps]`. -/
theorem C126_forward_ibp (leps : ℝ) (s : Slope) (eps : ℝ) (he : 0 ≤ eps) (q : PVal) (hq : q = .inf ∨ q = .fin 1 ∨ q = .fin 2) (z : ι → ℝ)
    (N : Net ℝ ι κ) :
    SameNumbers (N.onBox .ibp leps s (fun i => z i - eps, fun i => z i + eps)) (N.forward (ballDomain eps q) .ibp leps s (inputTensorsBall .ibp eps q z)) := by
  rw [ball_input_ibp eps he q hq, Net.forward_setX .ibp (D := boxDomain) (fun h => nomatch h) leps s _ rfl N]
  exact setX_same _ _

/-- C126: in ibp mode `get_adv_noise` over balls around the samples returns the scores of `get_adv_box` over the boxes around them, for each of
the three norms. -/
theorem C126_adv_ibp {κ : Type} [Fintype κ] [Nonempty κ] (leps : ℝ) (s : Slope) (eps : ℝ) (he : 0 ≤ eps) (q : PVal)
    (hq : q = .inf ∨ q = .fin 1 ∨ q = .fin 2) (N : Net ℝ ι κ) (rows : List ((ι → ℝ) × (κ → ℝ) × (κ → ℝ))) :
    advNoise true .ibp (rows.map fun r => (N.forward (ballDomain eps q) .ibp leps s (inputTensorsBall .ibp eps q r.1), r.2)) =
      advBase (N.onBox .ibp leps s) .ibp (rows.map fun r => ⟨(fun i => r.1 i - eps, fun i => r.1 i + eps), r.2.1, r.2.2⟩) := by
  have hb : badBoxes ((rows.map fun r => (⟨(fun i => r.1 i - eps, fun i => r.1 i + eps), r.2.1, r.2.2⟩ : AdvSample ι κ ℝ)).map AdvSample.box) = false := by
    simp only [badBoxes, List.map_map, List.any_eq_false, List.mem_map, decide_eq_true_eq, not_exists, not_lt]
    rintro b ⟨r, -, rfl⟩ i
    simp only [Function.comp_apply, boxWidth]
    linarith
  rw [List.map_map] at hb
  simp only [advNoise, advBase, List.map_map, hb, Bool.true_eq_false, if_false, Bool.false_eq_true]
  congr 2
  refine List.map_congr_left fun r _ => ?_
  have h := C126_forward_ibp leps s eps he q hq r.1 N
  have e : ibpPair (N.onBox .ibp leps s (fun i => r.1 i - eps, fun i => r.1 i + eps)) =
      ibpPair (N.forward (ballDomain eps q) .ibp leps s (inputTensorsBall .ibp eps q r.1)) := by
    funext t s
    simp only [ibpPair, h.uc, h.lc]
  simp only [Function.comp_apply, e]

end Models

section Examples

/-- C126: two inputs in the ball of radius 1/2 around (1, 2): the model of `x0 - x1` gets the bounds -2 and 0 of the box `[1/2, 3/2] × [3/2, 5/2]`. -/
example : noiseUpper .affine (1 / 2) .inf ![1, 2] ((Net.layer (κ' := Fin 1) .input (.dense ![fun _ => 1, fun _ => -1] fun _ => 0)).forward
    (ballDomain (1 / 2) .inf) .affine (1 / 10000000) .vSlope (inputTensorsBall .affine (1 / 2) .inf ![1, 2])) 0 = .ok 0 := by
  rw [(C126_forward_range .affine (1 / 10000000) .vSlope (1 / 2) ![1, 2] _ 0).1]
  norm_num [rangeUpper, Net.onBox, Net.forward, Lay.forward, denseT, inputTensorsBox, getUpperBox, getIbp, getAffine]

/-- C126: interval propagation over the `L2` ball of radius 1 around 0 bounds `x0 + x1` by 2, as over the box; the maximum over the ball is `√2`. -/
example : ((Net.layer (κ' := Fin 1) (.input : Net ℝ (Fin 2) (Fin 2)) (.dense (fun _ _ => 1) fun _ => 0)).forward
    (ballDomain 1 (.fin 2)) .ibp (1 / 10000000) .vSlope (inputTensorsBall .ibp 1 (.fin 2) fun _ => 0)).uc 0 = 2 := by
  rw [← (C126_forward_ibp (1 / 10000000) .vSlope 1 (by norm_num) (.fin 2) (by simp) (fun _ => 0) _).uc]
  norm_num [Net.onBox, Net.forward, Lay.forward, denseT, inputTensorsBox, tighten_ibp_eq, getIbp]

/-- C126: a backward conversion in hybrid mode over a ball succeeds because it does over the box. -/
example : ∃ out, (⟨ballDomain 1 .inf, fun _ u => u, .hybrid, 1 / 10000000, .vSlope, false, inputTensorsBall .hybrid 1 .inf fun _ => 0⟩ :
    CrownCfg (Fin 2 → ℝ) (Fin 2) ℝ).model (Net.layer .input (.relu (fun _ => 1) fun _ => 1)) = .ok out := by
  obtain ⟨out, h, -⟩ := (C126_crown_partial (κ := Fin 2) (ν := Fin 2) .hybrid (by decide) (1 / 10000000) .vSlope false (fun _ u => u) 1 (fun _ => 0)
    (Net.layer .input (.relu (fun _ => 1) fun _ => 1)) (fun _ _ => 0)).1 _ rfl
  exact ⟨out, h⟩

end Examples

section Refuted

/-- C126: in ibp mode the backward conversions over a ball do not give the bounds of the box: already for the identity of one coordinate, ball and
box differ whenever the end points are not 0. -/
theorem C126_crown_ibp_refuted (leps : ℝ) (s : Slope) (uf : Bool) (eps z : ℝ) (h : z + eps ≠ 0 ∨ z - eps ≠ 0) :
    ∃ out out', (boxCrown .ibp leps s uf (fun _ => z - eps) (fun _ => z + eps)).model (.input : Net ℝ (Fin 1) (Fin 1)) = .ok out ∧
      (ballCrownIbp leps s uf eps z).model (.input : Net ℝ (Fin 1) (Fin 1)) = .ok out' ∧ ¬ SameNumbers out out' := by
  refine ⟨_, _, rfl, rfl, fun hs => ?_⟩
  have h1 := congrFun hs.uc 0
  have h2 := congrFun hs.lc 0
  simp [convert2BackwardMode, boxCrown, boxDomain, getUpperBox, getLowerBox, ballCrownIbp, fuse, Back.identity, diagLike, ballStacked,
    inputTensorsBox, getIbp, getAffine] at h1 h2
  rcases h with h | h
  · exact h (by linarith)
  · exact h (by linarith)

/-- `ReLU(3/4 - ReLU(x0 + x1))`. -/
noncomputable def nestNet : Net ℝ (Fin 2) (Fin 1) :=
  .layer (.layer (.layer (.layer .input (.dense (n := Fin 2) (μ := Fin 1) (fun _ _ => 1) (fun _ => 0))) (.relu (fun _ => 1) (fun _ => 1)))
    (.dense (n := Fin 1) (μ := Fin 1) (fun _ _ => -1) (fun _ => 3 / 4))) (.relu (fun _ => 1) (fun _ => 1))

/-- The bounds of affine functions over the `L1` ball of radius 1 around 0 in two dimensions. -/
noncomputable def diamond : PertDomain Unit (Fin 2) ℝ := ⟨fun _ w b => max |w 0| |w 1| + b, fun _ w b => -max |w 0| |w 1| + b⟩

theorem diamond_agree : AffAgree diamond () (ballDomain 1 (.fin 1)) (fun _ : Fin 2 => 0) := fun w b => by
  have : maxOver (fun i : Fin 2 => |w i|) = max |w 0| |w 1| := by
    apply le_antisymm
    · refine Finset.sup'_le _ _ fun i _ => ?_
      fin_cases i
      · exact le_max_left _ _
      · exact le_max_right _ _
    · exact max_le (Finset.le_sup' (fun i : Fin 2 => |w i|) (Finset.mem_univ 0)) (Finset.le_sup' (fun i : Fin 2 => |w i|) (Finset.mem_univ 1))
  simp [diamond, ballDomain, getUpperBall, getLowerBall, getLqNorm, this, Bind.bind, Except.bind, Pure.pure, Except.pure, Except.toOption]

theorem nest_hull1 : linearHullRelu (1 / 10000000 : ℝ) .vSlope 1 1 (-1) = ⟨1 / 2, 1 / 2, 0, 0⟩ := by
  norm_num [linearHullRelu, indexDead, indexLinear, ksign, kclip, relu]

theorem nest_hull2 : linearHullRelu (1 / 10000000 : ℝ) .vSlope 1 2 (-2) = ⟨1 / 2, 1, 0, 0⟩ := by
  norm_num [linearHullRelu, indexDead, indexLinear, ksign, kclip, relu]

theorem nest_hull3 : (linearHullRelu (1 / 10000000 : ℝ) .vSlope 1 (3 / 4) (-1 / 4)).wl = 1 ∧
    (linearHullRelu (1 / 10000000 : ℝ) .vSlope 1 (3 / 4) (-1 / 4)).bl = 0 := by
  norm_num [linearHullRelu, indexDead, indexLinear, ksign, kclip, relu]

theorem nest_hull4 : (linearHullRelu (1 / 10000000 : ℝ) .vSlope 1 (3 / 4) (-5 / 4)).wl = 0 ∧
    (linearHullRelu (1 / 10000000 : ℝ) .vSlope 1 (3 / 4) (-5 / 4)).bl = 0 := by
  norm_num [linearHullRelu, indexDead, indexLinear, ksign, kclip, relu]

theorem relu_affine {X κ : Type} (D : PertDomain X (Fin 2) ℝ) (g : κ → ℝ) (f : Full X (Fin 2) κ ℝ) (e : ℝ) (U L : κ → ℝ)
    (hU : ∀ k, D.getUpper f.x (fun i => f.wu i k) (f.bu k) = U k) (hL : ∀ k, D.getLower f.x (fun i => f.wl i k) (f.bl k) = L k) :
    let r := reluT D .affine false e .vSlope g f
    let h := fun k => linearHullRelu e .vSlope (g k) (U k) (L k)
    r.x = f.x ∧ r.wu = (fun i k => (h k).wu * f.wu i k) ∧ r.bu = (fun k => (h k).wu * f.bu k + (h k).bu) ∧
      r.wl = (fun i k => (h k).wl * f.wl i k) ∧ r.bl = (fun k => (h k).wl * f.bl k + (h k).bl) := by
  simp [reluT, Full.tighten, getAffine, hU, hL]

theorem dense_affine {X κ κ' : Type} [Fintype κ] (D : PertDomain X (Fin 2) ℝ) (kernel : κ → κ' → ℝ) (bias : κ' → ℝ) (f : Full X (Fin 2) κ ℝ) :
    let r := denseT D .affine false kernel bias f
    r.x = f.x ∧ r.wu = (fun i o => (∑ t, max 0 (kernel t o) * f.wu i t) + ∑ t, min 0 (kernel t o) * f.wl i t) ∧
      r.bu = (fun o => (∑ t, max 0 (kernel t o) * f.bu t) + (∑ t, min 0 (kernel t o) * f.bl t) + bias o) ∧
      r.wl = (fun i o => (∑ t, max 0 (kernel t o) * f.wl i t) + ∑ t, min 0 (kernel t o) * f.wu i t) ∧
      r.bl = (fun o => (∑ t, max 0 (kernel t o) * f.bl t) + (∑ t, min 0 (kernel t o) * f.bu t) + bias o) := by
  simp [denseT, Full.tighten, getAffine]

/-- The affine lower bound of `nestNet` over a domain that bounds the sum of the inputs by `±u`. -/
theorem nest_forward {X : Type} (D : PertDomain X (Fin 2) ℝ) (x : X) (e u l : ℝ) (h1 : D.getUpper x (fun _ => 1) 0 = u)
    (h2 : D.getLower x (fun _ => 1) 0 = -u) (hu : linearHullRelu e .vSlope 1 u (-u) = ⟨1 / 2, u / 2, 0, 0⟩)
    (h3 : D.getUpper x (fun _ => 0) (3 / 4) = 3 / 4) (h4 : D.getLower x (fun _ => -1 / 2) (3 / 4 - u / 2) = l) :
    let out := nestNet.forward D .affine e .vSlope ((inputTensorsBox .affine (fun _ => 0) (fun _ => 0)).setX x)
    let h := linearHullRelu e .vSlope 1 (3 / 4) l
    (∀ i k, out.wl i k = h.wl * (-1 / 2)) ∧ ∀ k, out.bl k = h.wl * (3 / 4 - u / 2) + h.bl := by
  intro out h
  let f0 : Full X (Fin 2) (Fin 2) ℝ := (inputTensorsBox .affine (fun _ => 0) (fun _ => 0)).setX x
  let f1 := denseT (μ := Fin 1) D .affine false (fun _ _ => 1) (fun _ => 0) f0
  let f2 := reluT D .affine false e .vSlope (fun _ => 1) f1
  let f3 := denseT (μ := Fin 1) D .affine false (fun _ _ => -1) (fun _ => 3 / 4) f2
  obtain ⟨a0, a1, a2, a3, a4⟩ := dense_affine (κ' := Fin 1) D (fun _ _ => 1) (fun _ => 0) f0
  have b1 : f1.wu = fun _ _ => 1 := by
    simp only [f1, a1]
    funext i o
    fin_cases i <;> simp [f0, Full.setX, inputTensorsBox, getAffine]
  have b2 : f1.bu = fun _ => 0 := a2.trans (by simp [f0, Full.setX, inputTensorsBox])
  have b3 : f1.wl = fun _ _ => 1 := by
    simp only [f1, a3]
    funext i o
    fin_cases i <;> simp [f0, Full.setX, inputTensorsBox, getAffine]
  have b4 : f1.bl = fun _ => 0 := a4.trans (by simp [f0, Full.setX, inputTensorsBox])
  have b0 : f1.x = x := a0
  obtain ⟨c0, c1, c2, c3, c4⟩ := relu_affine D (fun _ => 1) f1 e (fun _ => u) (fun _ => -u) (fun k => by rw [b0, b1, b2, ← h1])
    (fun k => by rw [b0, b3, b4, ← h2])
  simp only [hu, b1, b2, b3, b4, mul_one, mul_zero, zero_mul, zero_add] at c1 c2 c3 c4
  obtain ⟨d0, d1, d2, d3, d4⟩ := dense_affine (κ' := Fin 1) D (fun _ _ => -1) (fun _ => 3 / 4) f2
  have g0 : f3.x = x := d0.trans (c0.trans b0)
  have g1 : f3.wu = fun _ _ => 0 := d1.trans (by simp [f2, c1, c3])
  have g2 : f3.bu = fun _ => 3 / 4 := d2.trans (by simp [f2, c2, c4])
  have g3 : f3.wl = fun _ _ => -1 / 2 := d3.trans (by
    simp only [f2, c1, c3]
    norm_num)
  have g4 : f3.bl = fun _ => 3 / 4 - u / 2 := d4.trans (by
    funext _
    simp only [f2, c2, c4, Finset.univ_unique, Finset.sum_singleton]
    rw [max_eq_left (by norm_num), min_eq_right (by norm_num)]
    ring)
  obtain ⟨-, -, -, k3, k4⟩ := relu_affine D (fun _ => 1) f3 e (fun _ => 3 / 4) (fun _ => l) (fun k => by rw [g0, g1, g2]; exact h3)
    (fun k => by rw [g0, g3, g4]; exact h4)
  refine ⟨fun i k => (congrFun (congrFun k3 i) k).trans ?_, fun k => (congrFun k4 k).trans ?_⟩
  · change h.wl * f3.wl i k = _
    rw [g3]
  · change h.wl * f3.bl k + h.bl = _
    rw [g4]

/-- C126: a smaller ball can get looser bounds.  The `L1` ball of radius 1 around 0 is part of the `Linf` ball, and `get_range_noise` returns a
smaller lower bound for it, -1/4 instead of 0, in affine mode: the wider range flips the choice of the lower line of a ReLU. -/
theorem C126_nested_refuted :
    (∀ p ∈ LpBall (fun _ : Fin 2 => 0) 1 (.fin 1), p ∈ LpBall (fun _ : Fin 2 => 0) 1 .inf) ∧
    noiseLower .affine 1 (.fin 1) (fun _ => 0)
      (nestNet.forward (ballDomain 1 (.fin 1)) .affine (1 / 10000000) .vSlope (inputTensorsBall .affine 1 (.fin 1) fun _ => 0)) 0 = .ok (-1 / 4) ∧
    noiseLower .affine 1 .inf (fun _ => 0)
      (nestNet.forward (ballDomain 1 .inf) .affine (1 / 10000000) .vSlope (inputTensorsBall .affine 1 .inf fun _ => 0)) 0 = .ok 0 := by
  refine ⟨fun p hp => (ball_nested _ _).2 ((ball_nested _ _).1 hp), ?_, ?_⟩
  · have e : inputTensorsBall .affine 1 (.fin 1) (fun _ : Fin 2 => 0) =
        (inputTensorsBox .affine (fun _ => 0) (fun _ => 0)).setX (fun _ : Fin 2 => (0 : ℝ)) := by
      simp [inputTensorsBall, inputTensorsBox, Full.setX, getIbp]
    have hd := fun w b => (diamond_agree w b).1.symm
    have hd' := fun w b => (diamond_agree w b).2.symm
    obtain ⟨w, b⟩ := nest_forward (ballDomain 1 (.fin 1)) (fun _ => 0) (1 / 10000000) 1 (-1 / 4) (by rw [hd]; norm_num [diamond])
      (by rw [hd']; norm_num [diamond]) nest_hull1 (by rw [hd]; norm_num [diamond]) (by rw [hd']; norm_num [diamond])
    rw [e, noiseLower]
    simp only [w, b, nest_hull3]
    have hm : maxOver (fun _ : Fin 2 => |(1 : ℝ) * (-1 / 2)|) = 1 / 2 := by
      rw [maxOver, Finset.sup'_const]
      norm_num
    simp only [dualNorm, hm, if_neg (show ¬ PVal.fin 1 = PVal.inf by decide)]
    norm_num
  · have e : inputTensorsBall .affine 1 .inf (fun _ : Fin 2 => 0) =
        (inputTensorsBox .affine (fun _ => 0) (fun _ => 0)).setX (fun _ : Fin 2 => (0 : ℝ)) := by
      simp [inputTensorsBall, inputTensorsBox, Full.setX, getIbp]
    have hd := fun w b => (ball_agree 1 (fun _ : Fin 2 => 0) w b).1.symm
    have hd' := fun w b => (ball_agree 1 (fun _ : Fin 2 => 0) w b).2.symm
    obtain ⟨w, b⟩ := nest_forward (ballDomain 1 .inf) (fun _ => 0) (1 / 10000000) 2 (-5 / 4) (by rw [hd]; norm_num [boxDomain, getUpperBox])
      (by rw [hd']; norm_num [boxDomain, getLowerBox]) (by rw [nest_hull2]; norm_num) (by rw [hd]; norm_num [boxDomain, getUpperBox])
      (by rw [hd']; norm_num [boxDomain, getLowerBox])
    rw [e, noiseLower]
    simp only [w, b, nest_hull4]
    simp [dualNorm]

end Refuted

end Decomon
