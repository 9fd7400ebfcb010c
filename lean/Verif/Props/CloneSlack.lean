import Verif.Props.CloneMethod
import Verif.Props.Slack
import Verif.Props.Unfold

/-!
Property C142: on models made of linear layers, ReLUs and merge layers on two inputs, the functions of wrapper.py are right for every method and
every box, up to an explicit multiple of `keras.config.epsilon()`.
-/

namespace Decomon

section
variable {X ι κ : Type} [Fintype ι]

theorem near_convert2Mode (D : PertDomain X ι ℝ) (mFrom mTo : Mode) (hm : mFrom ≠ .ibp ∨ mTo = .ibp) (f : Full X ι κ ℝ) (S : Set (ι → ℝ))
    (hD : D.Sound f.x S) (p : ι → ℝ) (hp : p ∈ S) (y s : κ → ℝ) (v : Near mFrom f p y s) : Near mTo (convert2Mode D mFrom mTo f) p y s := by
  have a := near_tighten D mFrom (decide (mFrom = .affine ∧ mTo ≠ .affine)) (decide (mFrom = .hybrid ∧ mTo ≠ .affine)) f S hD p hp y s v
  refine ⟨fun hi k => ?_, fun ha k => ?_⟩
  · simp only [convert2Mode, hi, if_true]
    cases mFrom
    · exact a.1.const rfl k
    · exact a.2 rfl (by cases mTo <;> simp_all [getIbp]) k
    · exact a.1.const rfl k
  · simp only [convert2Mode, ha, if_true]
    refine a.1.aff ?_ k
    cases mFrom
    · cases mTo <;> simp_all [getAffine]
    · rfl
    · rfl

theorem carried_near {m : Mode} {x0 : X} {f : Full X ι κ ℝ} {p : ι → ℝ} {y s : κ → ℝ} (v : Near m f p y s) : Near m (f.carried m x0) p y s := by
  refine ⟨fun hi k => ?_, fun ha k => ?_⟩
  · simp only [Full.carried, hi, if_true]; exact v.const hi k
  · simp only [Full.carried, ha, if_true]; exact v.aff ha k

theorem range_slack (m : Mode) (b : BoxOf ι ℝ) (f : Full X ι κ ℝ) (p : ι → ℝ) (hp : p ∈ Box b.1 b.2) (y s : κ → ℝ) (v : Near m f p y s) (k : κ) :
    rangeLower m b f k - s k ≤ y k ∧ y k ≤ rangeUpper m b f k + s k := by
  have hu := getUpperBox_sound hp (fun i => f.wu i k) (f.bu k)
  have hl := getLowerBox_sound hp (fun i => f.wl i k) (f.bl k)
  cases m with
  | ibp => exact v.const rfl k
  | affine => exact ⟨by have := (v.aff rfl k).1; simp only [rangeLower]; linarith, by have := (v.aff rfl k).2; simp only [rangeUpper]; linarith⟩
  | hybrid =>
    have h1 := v.aff rfl k
    have h2 := v.const rfl k
    simp only [rangeLower, rangeUpper]
    exact ⟨sub_le_iff_le_add.2 (max_le (by linarith) (by linarith)), sub_le_iff_le_add.1 (le_min (by linarith) (by linarith))⟩

theorem pair_slack (m : Mode) (b : BoxOf ι ℝ) (f : Full X ι κ ℝ) (p : ι → ℝ) (hp : p ∈ Box b.1 b.2) (y g : κ → ℝ) (v : Near m f p y g) (t s : κ) :
    (getIbp m = true → y t - y s - (g t + g s) ≤ ibpPair f t s) ∧ (getAffine m = true → y t - y s - (g t + g s) ≤ affinePair b f t s) := by
  refine ⟨fun hm => ?_, fun hm => ?_⟩
  · have h := v.const hm
    unfold ibpPair
    linarith [(h t).2, (h s).1]
  · have h := getUpperBox_sound hp (fun i => f.wu i t - f.wl i s) (f.bu t - f.bl s)
    have e : affEval (fun i => f.wu i t - f.wl i s) (f.bu t - f.bl s) p =
        affEval (fun i => f.wu i t) (f.bu t) p - affEval (fun i => f.wl i s) (f.bl s) p := by
      simp only [affEval, sub_mul, Finset.sum_sub_distrib]; ring
    have := v.aff hm
    unfold affinePair
    linarith [(this t).2, (this s).1]

theorem noise_slack [Nonempty ι] (m : Mode) (eps : ℝ) (q : PVal) (x : ι → ℝ) (f : Full X ι κ ℝ) (F : (ι → ℝ) → κ → ℝ) (s : κ → ℝ)
    (hq : q = .inf ∨ q = .fin 1 ∨ q = .fin 2) (h : ∀ p ∈ LpBall x eps q, Near m f p (F p) s) (k : κ) :
    ∃ u l, noiseUpper m eps q x f k = .ok u ∧ noiseLower m eps q x f k = .ok l ∧ ∀ p ∈ LpBall x eps q, l - s k ≤ F p k ∧ F p k ≤ u + s k := by
  obtain ⟨u, l, e1, e2, h⟩ := C39_noise_sound_partial m eps q x
    { f with uc := fun k => f.uc k + s k, bu := fun k => f.bu k + s k, lc := fun k => f.lc k - s k, bl := fun k => f.bl k - s k } F hq
    (fun p hp => ⟨(h p hp).const, fun ha k => by
      have := (h p hp).aff ha k
      simp only [affEval] at this ⊢
      exact ⟨by linarith, by linarith⟩, nofun⟩) k
  have key : noiseUpper m eps q x f k = .ok (u - s k) := by
    simp only [noiseUpper] at e1 ⊢
    cases hn : dualNorm q fun i => f.wu i k with
    | error e => rw [hn] at e1; cases e1
    | ok r =>
      rw [hn] at e1
      rw [← Except.ok.inj e1]
      cases m <;> simp only [← min_sub_sub_right] <;> congr 1 <;> ring_nf
  have key' : noiseLower m eps q x f k = .ok (l + s k) := by
    simp only [noiseLower] at e2 ⊢
    cases hn : dualNorm q fun i => f.wl i k with
    | error e => rw [hn] at e2; cases e2
    | ok r =>
      rw [hn] at e2
      rw [← Except.ok.inj e2]
      cases m <;> simp only [← max_add_add_right] <;> congr 1 <;> ring_nf
  exact ⟨_, _, key, key', fun p hp => ⟨by linarith [(h p hp).1], by linarith [(h p hp).2]⟩⟩

end

section
variable {n : ℕ}

theorem flat_near {X : Type} {m : Mode} {s : List ℕ} {f : Full X (Idx [n]) (Idx s) ℝ} {p : Fin n → ℝ} {y d : Idx s → ℝ}
    (v : Near m f (fun i => p ((oneAxis n).symm i)) y d) : Near m f.flat p (fun k => y ((ravel s).symm k)) (fun k => d ((ravel s).symm k)) := by
  have e : ∀ (w : Idx [n] → ℝ) (b : ℝ), affEval (fun i => w (oneAxis n i)) b p = affEval w b fun i => p ((oneAxis n).symm i) := fun w b => by
    simp only [affEval]
    rw [← (oneAxis n).sum_comp]
    simp
  refine ⟨fun hi k => v.const hi _, fun ha k => ?_⟩
  have := v.aff ha ((ravel s).symm k)
  rw [← e, ← e] at this
  exact this

/-- The graph is ready, its nodes are inputs, layers of `Model/Network.lean` and, for the methods `forward-*`, merge layers on two inputs other
than `Multiply`. -/
structure KGraph.ReluFor (G : KGraph n) (k : Method) (order : List ℕ) (o M : ℕ) : Prop extends G.Ready order o M where
  kinds : ∀ v ∈ order, (G.op v).InNet ∧ (G.op v).NotMultiply
  chain : isBackward k = true → ∀ v ∈ order, (G.op v).InChain

/-- The conversion of such a graph with any method. -/
theorem runPlan_near {X : Type} (D : PertDomain X (Idx [n]) ℝ) (stack : (Idx [n] → ℝ) → (Idx [n] → ℝ) → X) (k : Method) (fi fa : Option Bool)
    (eps : ℝ) (he : 0 < eps) (slope : Slope) (inp : Full X (Idx [n]) (Idx [n]) ℝ) (S : Set (Idx [n] → ℝ)) (hD : D.Sound inp.x S)
    (hst : isBackward k = true → k.mode = .ibp → D.Sound (stack inp.lc inp.uc) S) (hi : ∀ p ∈ S, Valid k.mode false inp p p)
    (hm : k.mode ≠ .ibp ∨ k.final fi fa = .ibp) (G : KGraph n) (order : List ℕ) (o M : ℕ) (hG : G.ReluFor k order o M)
    (N : (v : ℕ) → Net ℝ (Idx [n]) (Idx (G.sh v))) (hN : G.IsNet order N) (fuel : ℕ) (hf : order.length ≤ fuel + 1) (nameOf : ℕ → String) :
    ∃ r : Full X (Idx [n]) (Idx (G.sh o)) ℝ,
      G.runPlan D stack ⟨decide (k ≠ .crown), isBackward k, k.mode, k.final fi fa⟩ eps slope inp M (fuel + 1) order nameOf o =
        .ok ((r.toList (k.final fi fa)).map Ten.toB) ∧
      ∀ p ∈ S, ∀ y, G.IsValue p order y → Near (k.final fi fa) r p (y o) (fun c => eps * (N o).gain c) := by
  have hw := net_wf G order hG.sorted N hN hG.layers o hG.out
  cases hk : isBackward k with
  | true =>
    obtain ⟨out, e1, e2⟩ := C141_backward ⟨D, stack, k.mode, eps, slope, decide (k ≠ .crown), inp⟩ (k.final fi fa) hm G M fuel order hG.sorted hf
      nameOf o hG.out hG.depth hG.used (hG.chain hk) N hN
    refine ⟨_, by simp only [KGraph.runPlan, if_true]; exact e2, fun p hp y hy => ?_⟩
    obtain ⟨out', e3, h⟩ := C105_crown_near ⟨D, stack, k.mode, eps, slope, decide (k ≠ .crown), inp⟩ he S hD (hst hk) (N o)
      (net_chain G order hG.sorted N hN (hG.chain hk) o hG.out) hw p hp (hi p hp)
    rw [e1] at e3
    obtain rfl := Except.ok.inj e3
    have hx : out.x = inp.x := by
      simp only [CrownCfg.model] at e1
      cases h1 : (CrownCfg.node (⟨D, stack, k.mode, eps, slope, decide (k ≠ .crown), inp⟩ : CrownCfg X (Idx [n]) ℝ) (N o)).first with
      | error e => rw [h1] at e1; cases e1
      | ok b => rw [h1] at e1; obtain rfl := Except.ok.inj e1; exact crown_x D stack k.mode inp b
    rw [C141_value G order hG.sorted N hN p y hy o hG.out]
    exact near_convert2Mode D k.mode _ hm out S (by rw [hx]; exact hD) p hp _ _ h
  | false =>
    have e := C141_forward D k.mode (k.final fi fa) hm eps slope inp G M fuel order hG.sorted nameOf o hG.out hG.depth hG.used N hN
    refine ⟨_, by simp only [KGraph.runPlan, Bool.false_eq_true, if_false, e]; rfl, fun p hp y hy => ?_⟩
    rw [C141_value G order hG.sorted N hN p y hy o hG.out]
    exact near_convert2Mode D k.mode _ hm _ S (by rw [Net.forward_x]; exact hD) p hp _ _
      (C104_forward_near D k.mode eps he slope inp S hD (N o) hw
        (net_noMultiply G order hG.sorted N hN (fun v hv => (hG.kinds v hv).2) o hG.out) p hp (hi p hp))

variable (G : KGraph n) (order : List ℕ) (o M : ℕ)

/-- The error of an output, in units of `keras.config.epsilon()`, from the weights of the layers (`Net.gain`): the same for every method, slope,
box and input. -/
noncomputable def outputGain {G : KGraph n} {o : ℕ} (N : (v : ℕ) → Net ℝ (Idx [n]) (Idx (G.sh v))) (c : Fin (G.sh o).prod) : ℝ :=
  (N o).gain ((ravel (G.sh o)).symm c)

/-- C142: with every method and over every box, what the caller of `clone` unpacks bounds the Keras model up to that error. -/
theorem C142_onBox (k : Method) (hG : G.ReluFor k order o M) (N : (v : ℕ) → Net ℝ (Idx [n]) (Idx (G.sh v))) (hN : G.IsNet order N)
    (fi fa : Option Bool) (hm : k.mode ≠ .ibp ∨ k.final fi fa = .ibp) (eps : ℝ) (he : 0 < eps) (slope : Slope) (fuel : ℕ)
    (hf : order.length ≤ fuel + 1) (nameOf : ℕ → String) :
    ∃ net : BoxOf (Fin n) ℝ → Full (BoxOf (Idx [n]) ℝ) (Fin n) (Fin (G.sh o).prod) ℝ,
      (∀ b, G.cloneOnBox k.value fi fa eps slope M (fuel + 1) order nameOf o b = .ok (net b)) ∧
      ∀ b, ∀ p ∈ Box b.1 b.2, ∀ y, G.IsOutput order o p y → Near (k.final fi fa) (net b) p y (fun c => eps * outputGain N c) := by
  have key : ∀ b : BoxOf (Fin n) ℝ, ∃ f, G.cloneOnBox k.value fi fa eps slope M (fuel + 1) order nameOf o b = .ok f ∧
      ∀ p ∈ Box b.1 b.2, ∀ y, G.IsOutput order o p y → Near (k.final fi fa) f p y (fun c => eps * outputGain N c) := fun b => by
    obtain ⟨r, e, h⟩ := runPlan_near boxDomain Prod.mk k fi fa eps he slope
      (inputTensorsBox k.mode (fun i => b.1 ((oneAxis n).symm i)) (fun i => b.2 ((oneAxis n).symm i)))
      (Box (fun i => b.1 ((oneAxis n).symm i)) (fun i => b.2 ((oneAxis n).symm i))) (boxDomain_sound _ _)
      (fun _ h => by rw [h]; exact boxDomain_sound _ _) (fun p hp => C27_input_box k.mode _ _ p hp) hm G order o M hG N hN fuel hf nameOf
    refine ⟨_, by simp only [KGraph.cloneOnBox, clonePlan_value, Except.bind, e, mapM_toB]; exact wrapperOutput_toList _ _ _,
      fun p hp y ⟨z, hz, hy⟩ => ?_⟩
    have := flat_near (carried_near (x0 := ((fun i => b.1 ((oneAxis n).symm i), fun i => b.2 ((oneAxis n).symm i)) : BoxOf (Idx [n]) ℝ))
      (h (fun i => p ((oneAxis n).symm i)) (fun i => hp _) z hz))
    have ey : (fun k => z o ((ravel (G.sh o)).symm k)) = y := by
      funext k
      rw [← hy]; simp
    rw [ey] at this
    exact this
  choose net h1 h2 using key
  exact ⟨net, h1, h2⟩

end

section
variable {n : ℕ} (G : KGraph (n + 1)) (order : List ℕ) (o M : ℕ)

/-- C142: `get_range_box` on `clone(model, method)`, without sub-boxes (with sub-boxes, and several outputs, the rows are mixed: C36). -/
theorem C142_range (k : Method) (hG : G.ReluFor k order o M) (N : (v : ℕ) → Net ℝ (Idx [n + 1]) (Idx (G.sh v))) (hN : G.IsNet order N)
    (fi fa : Option Bool) (hm : k.mode ≠ .ibp ∨ k.final fi fa = .ibp) (eps : ℝ) (he : 0 < eps) (slope : Slope) (fuel : ℕ)
    (hf : order.length ≤ fuel + 1) (nameOf : ℕ → String) (batch nSub : ℕ) (hn : nSub ≤ 1)
    (bs : List (BoxOf (Fin (n + 1)) ℝ)) (hb : ∀ b ∈ bs, ∀ i, b.1 i ≤ b.2 i) :
    ∃ net us ls, (∀ b, G.cloneOnBox k.value fi fa eps slope M (fuel + 1) order nameOf o b = .ok (net b)) ∧
      getRangeBox net (k.final fi fa) batch nSub bs = .ok (us, ls) ∧
      ∀ i b, bs[i]? = some b → ∀ c : Fin (G.sh o).prod, ∃ u l, us[i * (G.sh o).prod + c]? = some u ∧
        ls[i * (G.sh o).prod + c]? = some l ∧
        ∀ p ∈ Box b.1 b.2, ∀ y, G.IsOutput order o p y → l - eps * outputGain N c ≤ y c ∧ y c ≤ u + eps * outputGain N c := by
  obtain ⟨net, h1, h2⟩ := C142_onBox G order o M k hG N hN fi fa hm eps he slope fuel hf nameOf
  have e : subBoxes nSub bs = (bs, 1) := by unfold subBoxes; rw [if_neg (by omega)]
  refine ⟨net, _, _, h1, by rw [getRangeBox_eq net _ batch nSub bs hb, e]; simp only [lt_irrefl, if_false]; rfl, fun i b hi c => ?_⟩
  refine ⟨_, _, flatRows_getElem? _ i _ (by rw [List.getElem?_map, hi]; rfl) c,
    flatRows_getElem? _ i _ (by rw [List.getElem?_map, hi]; rfl) c, fun p hp y hy => ?_⟩
  exact range_slack _ b (net b) p hp y _ (h2 b p hp y hy) c

/-- C142: `get_adv_box` on `clone(model, method)`, with or without sub-boxes: a score below minus the errors of the two labels is a certificate
over the whole box. -/
theorem C142_adv [Nonempty (Fin (G.sh o).prod)] (k : Method) (hG : G.ReluFor k order o M) (N : (v : ℕ) → Net ℝ (Idx [n + 1]) (Idx (G.sh v)))
    (hN : G.IsNet order N) (fi fa : Option Bool) (hm : k.mode ≠ .ibp ∨ k.final fi fa = .ibp) (eps : ℝ) (he : 0 < eps) (slope : Slope) (fuel : ℕ)
    (hf : order.length ≤ fuel + 1) (nameOf : ℕ → String) (batch nSub : ℕ) (rows : List (AdvSample (Fin (n + 1)) (Fin (G.sh o).prod) ℝ))
    (hb : ∀ r ∈ rows, ∀ i, r.box.1 i ≤ r.box.2 i) (hs : (G.sh o).length = 1 ∨ k.final fi fa = .affine) :
    ∃ net scs, (∀ b, G.cloneOnBox k.value fi fa eps slope M (fuel + 1) order nameOf o b = .ok (net b)) ∧
      getAdvBoxOf (G.sh o) net (k.final fi fa) batch nSub rows = .ok scs ∧ scs.length = rows.length ∧
      ∀ (i : ℕ) (r : AdvSample (Fin (n + 1)) (Fin (G.sh o).prod) ℝ) (sc : ℝ), rows[i]? = some r → scs[i]? = some sc →
        ∀ p ∈ Box r.box.1 r.box.2, ∀ y, G.IsOutput order o p y → ∀ t s, r.tgt t = 1 → r.src s = 1 →
          sc < -(eps * (outputGain N t + outputGain N s)) → y t < y s := by
  obtain ⟨net, h1, h2⟩ := C142_onBox G order o M k hG N hN fi fa hm eps he slope fuel hf nameOf
  choose F hF hu using C132_output G order o M hG.toReady
  obtain ⟨scs, e, l⟩ := adv_margin net (k.final fi fa) (fun p t s => F p t - F p s - (eps * outputGain N t + eps * outputGain N s)) batch nSub rows hb
    fun b hb' p hp t s => pair_slack _ b (net b) p hp (F p) _ (h2 b p hp _ (hF p)) t s
  refine ⟨net, scs, h1, by rw [C132_adv_shape _ net _ hs, e], l.length_eq.symm, fun i r sc hr hsc p hp y hy t s ht hss hneg => ?_⟩
  rw [hu p y hy]
  obtain ⟨i1, rfl⟩ := List.getElem?_eq_some_iff.1 hr
  obtain ⟨i2, rfl⟩ := List.getElem?_eq_some_iff.1 hsc
  rw [List.forall₂_iff_get] at l
  have := l.2 i i1 i2 p hp t s ht hss
  simp only [List.get_eq_getElem] at this
  linarith

/-- C142: `get_range_noise` on `clone(model, method, perturbation_domain=BallDomain(eps, p))`, for the methods other than `crown` and
`crown-forward-ibp`, which stack two tensors where the domain expects a centre (C139). -/
theorem C142_noise (k : Method) (hG : G.ReluFor k order o M) (N : (v : ℕ) → Net ℝ (Idx [n + 1]) (Idx (G.sh v))) (hN : G.IsNet order N)
    (fi fa : Option Bool) (hm : k.mode ≠ .ibp ∨ k.final fi fa = .ibp) (hk : k ≠ .crown ∧ k ≠ .crownForwardIbp) (leps : ℝ) (he : 0 < leps)
    (slope : Slope) (eps : ℝ) (q : PVal) (hq : q = .inf ∨ q = .fin 1 ∨ q = .fin 2)
    (stack : (Idx [n + 1] → ℝ) → (Idx [n + 1] → ℝ) → Idx [n + 1] → ℝ) (fuel : ℕ) (hf : order.length ≤ fuel + 1) (nameOf : ℕ → String)
    (x : Fin (n + 1) → ℝ) :
    ∃ net, G.cloneOnBall k.value fi fa leps slope eps q stack M (fuel + 1) order nameOf o x = .ok net ∧
      ∀ c, ∃ u l, noiseUpper (k.final fi fa) eps q x net c = .ok u ∧ noiseLower (k.final fi fa) eps q x net c = .ok l ∧
        ∀ p ∈ LpBall x eps q, ∀ y, G.IsOutput order o p y → l - leps * outputGain N c ≤ y c ∧ y c ≤ u + leps * outputGain N c := by
  obtain ⟨r, e, h⟩ := runPlan_near (ballDomain eps q) stack k fi fa leps he slope
    (inputTensorsBall k.mode eps q fun i => x ((oneAxis (n + 1)).symm i)) (LpBall (fun i => x ((oneAxis (n + 1)).symm i)) eps q)
    (ball_input_sound k.mode eps q _) (fun h1 h2 => by
      obtain ⟨k1, k2⟩ := hk
      cases k <;> first | exact absurd rfl k1 | exact absurd rfl k2 | exact absurd h1 (by decide) | exact absurd h2 (by decide))
    (fun p hp => C27_input_ball k.mode eps q _ p hp) hm G order o M hG N hN fuel hf nameOf
  refine ⟨_, by simp only [KGraph.cloneOnBall, clonePlan_value, Except.bind, e, mapM_toB]; exact wrapperOutput_toList _ _ _, fun c => ?_⟩
  choose F hF hu using C132_output G order o M hG.toReady
  have hv : ∀ p ∈ LpBall x eps q, Near (k.final fi fa)
      ((r.carried (k.final fi fa) fun i => x ((oneAxis (n + 1)).symm i)).flat) p (F p) (fun c => leps * outputGain N c) := fun p hp => by
    obtain ⟨z, hz, hy⟩ := hF p
    have := flat_near (carried_near (x0 := fun i => x ((oneAxis (n + 1)).symm i)) (h _ (lpBall_oneAxis hp) z hz))
    have ey : (fun k => z o ((ravel (G.sh o)).symm k)) = F p := by
      funext k
      rw [← hy]; simp
    rw [ey] at this
    exact this
  obtain ⟨u, l, e1, e2, h⟩ := noise_slack (k.final fi fa) eps q x _ F (fun c => leps * outputGain N c) hq hv c
  refine ⟨u, l, e1, e2, fun p hp y hy => ?_⟩
  rw [hu p y hy]
  exact h p hp

end

/-! ### Concrete graphs -/

/-- `relu(x) + x` with the methods `forward-*`. -/
theorem reluPlus_reluFor (k : Method) (hk : isBackward k = false) : reluPlusGraph.ReluFor k [0, 1, 2] 2 2 := by
  obtain ⟨h1, h2, h3⟩ := reluPlus_ok
  refine ⟨⟨h1, by simp, h2, h3, fun v hv => ?_⟩, fun v hv => ?_, fun h => by rw [hk] at h; cases h⟩ <;>
    have : v = 0 ∨ v = 1 ∨ v = 2 := by simpa using hv
  · rcases this with rfl | rfl | rfl
    · exact trivial
    · exact fun _ => ⟨⟨le_refl _, zero_le_one⟩, le_refl _, zero_le_one⟩
    · exact trivial
  · rcases this with rfl | rfl | rfl
    · exact ⟨trivial, trivial⟩
    · exact ⟨trivial, trivial⟩
    · exact ⟨rfl, fun h => by cases h⟩

/-- The ReLU of two entries, with every method. -/
theorem reluTwo_reluFor (k : Method) : reluTwoGraph.ReluFor k [0, 1, 2] 2 2 := by
  obtain ⟨h1, h2, h3⟩ := reluTwo_ok
  refine ⟨⟨h1, by simp, h2, h3, fun v hv => ?_⟩, fun v hv => ?_, fun _ => reluTwo_chain⟩ <;>
    have : v = 0 ∨ v = 1 ∨ v = 2 := by simpa using hv
  · rcases this with rfl | rfl | rfl
    · exact trivial
    · exact trivial
    · exact fun _ => ⟨⟨le_refl _, zero_le_one⟩, le_refl _, zero_le_one⟩
  · rcases this with rfl | rfl | rfl <;> exact ⟨trivial, trivial⟩

/-- Its error is one quarter of epsilon per entry. -/
theorem reluTwo_gain (c : Fin [2].prod) : outputGain (G := reluTwoGraph) (o := 2) reluTwoNet c = 1 / 4 := by
  simp [outputGain, reluTwoNet, Net.gain, Lay.gain]

/-- `get_adv_box` on that model over `[2, 3] × [-1, 1]`, with four sub-boxes, source label `0` and target label `1`, for every method: a score
below `-5e-8` is a certificate. -/
example (k : Method) : ∃ net scs,
    (∀ b, reluTwoGraph.cloneOnBox k.value none none (1 / 10000000) .vSlope 2 4 [0, 1, 2] (fun v => toString v) 2 b = .ok (net b)) ∧
    getAdvBoxOf [2] net k.mode 1 4 [⟨(![2, -1], ![3, 1]), ![1, 0], ![0, 1]⟩] = .ok scs ∧ scs.length = 1 ∧
    ∀ sc : ℝ, scs[0]? = some sc → sc < -(5 / 100000000) → ∀ p ∈ Box ![(2 : ℝ), -1] ![3, 1], ∀ y, reluTwoGraph.IsOutput [0, 1, 2] 2 p y →
      y (⟨1, by decide⟩ : Fin [2].prod) < y (⟨0, by decide⟩ : Fin [2].prod) := by
  obtain ⟨net, scs, h1, h2, h3, h4⟩ := @C142_adv 1 reluTwoGraph [0, 1, 2] 2 2 ⟨⟨0, by decide⟩⟩ k (reluTwo_reluFor k) reluTwoNet reluTwo_isNet
    none none (by cases k <;> decide) (1 / 10000000) (by norm_num)
    .vSlope 3 (by simp) (fun v => toString v) 1 4 [⟨(![2, -1], ![3, 1]), ![1, 0], ![0, 1]⟩] (by
      intro r hr
      simp only [List.mem_cons, List.not_mem_nil, or_false] at hr
      rcases hr with rfl
      intro i
      fin_cases i <;> norm_num) (.inl rfl)
  refine ⟨net, scs, h1, h2, h3, fun sc hsc hneg p hp y hy => h4 0 _ sc rfl hsc p hp y hy _ _ rfl rfl ?_⟩
  rw [reluTwo_gain, reluTwo_gain]
  linarith

end Decomon
