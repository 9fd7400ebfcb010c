import Verif.Lemmas.SlackGraph
import Verif.Props.CloneSlack
import Verif.Props.CloneWidth

/-!
Property C147: on every graph of linear layers, ReLUs, `MaxPooling2D`, `Concatenate` and merge layers on any number of inputs, the functions of
wrapper.py are right for the methods `forward-*` and every box, up to an explicit multiple of `keras.config.epsilon()`.
-/

namespace Decomon

section
variable {n : ℕ}

/-- The graph is ready and its nodes are piecewise linear. -/
structure KGraph.PieceReady (G : KGraph n) (order : List ℕ) (o M : ℕ) : Prop extends G.Ready order o M where
  kinds : ∀ v ∈ order, (G.op v).PieceLinear

/-- C147: the errors of the nodes are defined, and only depend on the graph. -/
theorem C147_gain (G : KGraph n) (order : List ℕ) (ht : Topological G.parents order) :
    (∃ s, G.IsGain order s) ∧ ∀ s s', G.IsGain order s → G.IsGain order s' → ∀ v ∈ order, s v = s' v := by
  constructor
  · exact exists_nodes G.parents (T := fun v => Idx (G.sh v) → ℝ) (fun v y => (G.op v).gain (HList.ofNodes y (G.parents v)))
      (fun v g g' h => by simp only [ofNodes_congr (F := fun s => Idx s → ℝ) (sh := G.sh) g g' _ h]) ht
  · intro y y' h h'
    refine topological_induction G.parents ht _ fun v hv ih => ?_
    rw [h v hv, h' v hv, ofNodes_congr (F := fun s => Idx s → ℝ) (sh := G.sh) y y' _ ih]

/-- The conversion of such a graph. -/
theorem runPlan_piece {X : Type} (D : PertDomain X (Idx [n]) ℝ) (stack : (Idx [n] → ℝ) → (Idx [n] → ℝ) → X) (k : Method)
    (hk : isBackward k = false) (fi fa : Option Bool)
    (eps : ℝ) (he : 0 < eps) (slope : Slope) (inp : Full X (Idx [n]) (Idx [n]) ℝ) (S : Set (Idx [n] → ℝ)) (hD : D.Sound inp.x S)
    (hi : ∀ p ∈ S, Valid k.mode false inp p p)
    (hm : k.mode ≠ .ibp ∨ k.final fi fa = .ibp) (G : KGraph n) (order : List ℕ) (o M : ℕ) (hG : G.PieceReady order o M)
    (s : (v : ℕ) → Idx (G.sh v) → ℝ) (hs : G.IsGain order s) (fuel : ℕ) (nameOf : ℕ → String) :
    ∃ r : Full X (Idx [n]) (Idx (G.sh o)) ℝ,
      G.runPlan D stack ⟨decide (k ≠ .crown), isBackward k, k.mode, k.final fi fa⟩ eps slope inp M (fuel + 1) order nameOf o =
        .ok ((r.toList (k.final fi fa)).map Ten.toB) ∧
      ∀ p ∈ S, ∀ y, G.IsValue p order y → Near (k.final fi fa) r p (y o) (fun c => eps * s o c) := by
  obtain ⟨f, hf, e⟩ := C131_convert D k.mode (k.final fi fa) eps slope inp G M fuel order hG.sorted nameOf o hG.out hG.depth hG.used
  refine ⟨_, by simp only [KGraph.runPlan, hk, Bool.false_eq_true, if_false, e]; rfl, fun p hp y hy => ?_⟩
  obtain ⟨hx, v, -⟩ := bounds_near D k.mode eps he slope inp S hD G order hG.sorted hG.layers hG.kinds f hf p hp (hi p hp) y hy s hs o hG.out
  exact near_convert2Mode D k.mode _ hm _ S (by rw [hx]; exact hD) p hp _ _ v

variable (G : KGraph n) (order : List ℕ) (o M : ℕ)

/-- C147: with the methods `forward-*` and over every box, what the caller of `clone` unpacks bounds the Keras model up to the error of the
output node. -/
theorem C147_onBox (k : Method) (hk : isBackward k = false) (hG : G.PieceReady order o M) (s : (v : ℕ) → Idx (G.sh v) → ℝ)
    (hs : G.IsGain order s) (fi fa : Option Bool) (hm : k.mode ≠ .ibp ∨ k.final fi fa = .ibp) (eps : ℝ) (he : 0 < eps) (slope : Slope) (fuel : ℕ)
    (nameOf : ℕ → String) :
    ∃ net : BoxOf (Fin n) ℝ → Full (BoxOf (Idx [n]) ℝ) (Fin n) (Fin (G.sh o).prod) ℝ,
      (∀ b, G.cloneOnBox k.value fi fa eps slope M (fuel + 1) order nameOf o b = .ok (net b)) ∧
      ∀ b, ∀ p ∈ Box b.1 b.2, ∀ y, G.IsOutput order o p y →
        Near (k.final fi fa) (net b) p y (fun c => eps * s o ((ravel (G.sh o)).symm c)) := by
  have key : ∀ b : BoxOf (Fin n) ℝ, ∃ f, G.cloneOnBox k.value fi fa eps slope M (fuel + 1) order nameOf o b = .ok f ∧
      ∀ p ∈ Box b.1 b.2, ∀ y, G.IsOutput order o p y →
        Near (k.final fi fa) f p y (fun c => eps * s o ((ravel (G.sh o)).symm c)) := fun b => by
    obtain ⟨r, e, h⟩ := runPlan_piece boxDomain Prod.mk k hk fi fa eps he slope
      (inputTensorsBox k.mode (fun i => b.1 ((oneAxis n).symm i)) (fun i => b.2 ((oneAxis n).symm i)))
      (Box (fun i => b.1 ((oneAxis n).symm i)) (fun i => b.2 ((oneAxis n).symm i))) (boxDomain_sound _ _)
      (fun p hp => C27_input_box k.mode _ _ p hp) hm G order o M hG s hs fuel nameOf
    refine ⟨_, by simp only [KGraph.cloneOnBox, clonePlan_value, Except.bind, e, mapM_toB]; exact wrapperOutput_toList _ _ _,
      fun p hp y ⟨z, hz, hy⟩ => ?_⟩
    have := flat_near (carried_near (x0 := ((fun i => b.1 ((oneAxis n).symm i), fun i => b.2 ((oneAxis n).symm i)) : BoxOf (Idx [n]) ℝ))
      (h (fun i => p ((oneAxis n).symm i)) (fun i => hp _) z hz))
    have ey : (fun k => z o ((ravel (G.sh o)).symm k)) = y := by
      funext k
      rw [← hy]; simp
    rw [ey] at this
    exact this
  choose net h1 h2 using key
  exact ⟨net, h1, h2⟩

end

section
variable {n : ℕ} (G : KGraph (n + 1)) (order : List ℕ) (o M : ℕ)

/-- C147: `get_range_box`, without sub-boxes. -/
theorem C147_range (k : Method) (hk : isBackward k = false) (hG : G.PieceReady order o M) (s : (v : ℕ) → Idx (G.sh v) → ℝ)
    (hs : G.IsGain order s) (fi fa : Option Bool) (hm : k.mode ≠ .ibp ∨ k.final fi fa = .ibp) (eps : ℝ) (he : 0 < eps) (slope : Slope) (fuel : ℕ)
    (nameOf : ℕ → String) (batch nSub : ℕ) (hn : nSub ≤ 1) (bs : List (BoxOf (Fin (n + 1)) ℝ)) (hb : ∀ b ∈ bs, ∀ i, b.1 i ≤ b.2 i) :
    ∃ net us ls, (∀ b, G.cloneOnBox k.value fi fa eps slope M (fuel + 1) order nameOf o b = .ok (net b)) ∧
      getRangeBox net (k.final fi fa) batch nSub bs = .ok (us, ls) ∧
      ∀ i b, bs[i]? = some b → ∀ c : Idx (G.sh o), ∃ u l, us[i * (G.sh o).prod + ravel (G.sh o) c]? = some u ∧
        ls[i * (G.sh o).prod + ravel (G.sh o) c]? = some l ∧
        ∀ p ∈ Box b.1 b.2, ∀ y, G.IsOutput order o p y →
          l - eps * s o c ≤ y (ravel (G.sh o) c) ∧ y (ravel (G.sh o) c) ≤ u + eps * s o c := by
  obtain ⟨net, h1, h2⟩ := C147_onBox G order o M k hk hG s hs fi fa hm eps he slope fuel nameOf
  have e : subBoxes nSub bs = (bs, 1) := by unfold subBoxes; rw [if_neg (by omega)]
  refine ⟨net, _, _, h1, by rw [getRangeBox_eq net _ batch nSub bs hb, e]; simp only [lt_irrefl, if_false]; rfl, fun i b hi c => ?_⟩
  refine ⟨_, _, flatRows_getElem? _ i _ (by rw [List.getElem?_map, hi]; rfl) _,
    flatRows_getElem? _ i _ (by rw [List.getElem?_map, hi]; rfl) _, fun p hp y hy => ?_⟩
  have := range_slack _ b (net b) p hp y _ (h2 b p hp y hy) (ravel (G.sh o) c)
  simpa only [Equiv.symm_apply_apply] using this

/-- C147: `get_range_box` with any number of sub-boxes, on a model with one output. -/
theorem C147_range_split (ho : (G.sh o).prod = 1) (k : Method) (hk : isBackward k = false) (hG : G.PieceReady order o M)
    (s : (v : ℕ) → Idx (G.sh v) → ℝ) (hs : G.IsGain order s) (fi fa : Option Bool) (hm : k.mode ≠ .ibp ∨ k.final fi fa = .ibp) (eps : ℝ)
    (he : 0 < eps) (slope : Slope) (fuel : ℕ) (nameOf : ℕ → String) (batch nSub : ℕ) (bs : List (BoxOf (Fin (n + 1)) ℝ))
    (hb : ∀ b ∈ bs, ∀ i, b.1 i ≤ b.2 i) :
    ∃ net us ls, (∀ b, G.cloneOnBox k.value fi fa eps slope M (fuel + 1) order nameOf o b = .ok (net b)) ∧
      getRangeBox net (k.final fi fa) batch nSub bs = .ok (us, ls) ∧ us.length = bs.length ∧ ls.length = bs.length ∧
      ∀ (i : ℕ) (b : BoxOf (Fin (n + 1)) ℝ), bs[i]? = some b → ∃ u l, us[i]? = some u ∧ ls[i]? = some l ∧
        ∀ p ∈ Box b.1 b.2, ∀ y, G.IsOutput order o p y → ∀ c : Idx (G.sh o),
          l - eps * s o c ≤ y (ravel (G.sh o) c) ∧ y (ravel (G.sh o) c) ≤ u + eps * s o c := by
  obtain ⟨net, h1, h2⟩ := C147_onBox G order o M k hk hG s hs fi fa hm eps he slope fuel nameOf
  choose F hF hu using C132_output G order o M hG.toReady
  have hw : ∃ w : Fin (G.sh o).prod → ℝ, ∀ b ∈ bs, ∀ b' ∈ refineBoxes true nSub b, ∀ c,
      rangeUpper (k.final fi fa) b' (net b') c - rangeLower (k.final fi fa) b' (net b') c ≤ w c := by
    have : ∀ c, ∃ w : ℝ, ∀ b' ∈ bs.flatMap (refineBoxes true nSub),
        rangeUpper (k.final fi fa) b' (net b') c - rangeLower (k.final fi fa) b' (net b') c ≤ w := fun c => by
      induction bs.flatMap (refineBoxes true nSub) with
      | nil => exact ⟨0, by simp⟩
      | cons a t ih =>
        obtain ⟨w, hw⟩ := ih
        refine ⟨max w (rangeUpper (k.final fi fa) a (net a) c - rangeLower (k.final fi fa) a (net a) c), fun b' hb' => ?_⟩
        rcases List.mem_cons.1 hb' with rfl | hb'
        · exact le_max_right _ _
        · exact (hw b' hb').trans (le_max_left _ _)
    choose w hw using this
    exact ⟨w, fun b hb b' hb' c => hw c b' (List.mem_flatMap.2 ⟨b, hb, hb'⟩)⟩
  obtain ⟨w, hw⟩ := hw
  obtain ⟨us, ls, g1, g2, g3, g4⟩ := range_near_of ho net (k.final fi fa) F (fun c => eps * s o ((ravel (G.sh o)).symm c)) w
    (fun b p hp c => range_slack _ b (net b) p hp (F p) _ (h2 b p hp _ (hF p)) c) bs hb nSub hw batch
  refine ⟨net, us, ls, h1, g1, g2, g3, fun i b hi => ?_⟩
  obtain ⟨u, l, e1, e2, h⟩ := g4 i b hi
  refine ⟨u, l, e1, e2, fun p hp y hy c => ?_⟩
  rw [hu p y hy]
  have := (h (ravel (G.sh o) c)).1 p hp
  simpa only [Equiv.symm_apply_apply] using this

/-- C147: `get_adv_box`, with or without sub-boxes: a score below minus the errors of the two labels is a certificate over the whole box. -/
theorem C147_adv [Nonempty (Fin (G.sh o).prod)] (k : Method) (hk : isBackward k = false) (hG : G.PieceReady order o M)
    (g : (v : ℕ) → Idx (G.sh v) → ℝ) (hg : G.IsGain order g) (fi fa : Option Bool) (hm : k.mode ≠ .ibp ∨ k.final fi fa = .ibp) (eps : ℝ)
    (he : 0 < eps) (slope : Slope) (fuel : ℕ) (nameOf : ℕ → String) (batch nSub : ℕ)
    (rows : List (AdvSample (Fin (n + 1)) (Fin (G.sh o).prod) ℝ)) (hb : ∀ r ∈ rows, ∀ i, r.box.1 i ≤ r.box.2 i)
    (hs : (G.sh o).length = 1 ∨ k.final fi fa = .affine) :
    ∃ net scs, (∀ b, G.cloneOnBox k.value fi fa eps slope M (fuel + 1) order nameOf o b = .ok (net b)) ∧
      getAdvBoxOf (G.sh o) net (k.final fi fa) batch nSub rows = .ok scs ∧ scs.length = rows.length ∧
      ∀ (i : ℕ) (r : AdvSample (Fin (n + 1)) (Fin (G.sh o).prod) ℝ) (sc : ℝ), rows[i]? = some r → scs[i]? = some sc →
        ∀ p ∈ Box r.box.1 r.box.2, ∀ y, G.IsOutput order o p y → ∀ t s : Idx (G.sh o), r.tgt (ravel _ t) = 1 → r.src (ravel _ s) = 1 →
          sc < -(eps * (g o t + g o s)) → y (ravel _ t) < y (ravel _ s) := by
  obtain ⟨net, h1, h2⟩ := C147_onBox G order o M k hk hG g hg fi fa hm eps he slope fuel nameOf
  choose F hF hu using C132_output G order o M hG.toReady
  obtain ⟨scs, e, l⟩ := adv_margin net (k.final fi fa)
    (fun p t s => F p t - F p s - (eps * g o ((ravel (G.sh o)).symm t) + eps * g o ((ravel (G.sh o)).symm s))) batch nSub rows hb
    fun b hb' p hp t s => pair_slack _ b (net b) p hp (F p) _ (h2 b p hp _ (hF p)) t s
  refine ⟨net, scs, h1, by rw [C132_adv_shape _ net _ hs, e], l.length_eq.symm, fun i r sc hr hsc p hp y hy t s ht hss hneg => ?_⟩
  rw [hu p y hy]
  obtain ⟨i1, rfl⟩ := List.getElem?_eq_some_iff.1 hr
  obtain ⟨i2, rfl⟩ := List.getElem?_eq_some_iff.1 hsc
  rw [List.forall₂_iff_get] at l
  have := l.2 i i1 i2 p hp _ _ ht hss
  simp only [List.get_eq_getElem, Equiv.symm_apply_apply] at this
  linarith

/-- C147: `get_range_noise` over an `Lp` ball. -/
theorem C147_noise (k : Method) (hk : isBackward k = false) (hG : G.PieceReady order o M) (s : (v : ℕ) → Idx (G.sh v) → ℝ)
    (hs : G.IsGain order s) (fi fa : Option Bool) (hm : k.mode ≠ .ibp ∨ k.final fi fa = .ibp) (leps : ℝ) (he : 0 < leps)
    (slope : Slope) (eps : ℝ) (q : PVal) (hq : q = .inf ∨ q = .fin 1 ∨ q = .fin 2)
    (stack : (Idx [n + 1] → ℝ) → (Idx [n + 1] → ℝ) → Idx [n + 1] → ℝ) (fuel : ℕ) (nameOf : ℕ → String) (x : Fin (n + 1) → ℝ) :
    ∃ net, G.cloneOnBall k.value fi fa leps slope eps q stack M (fuel + 1) order nameOf o x = .ok net ∧
      ∀ c, ∃ u l, noiseUpper (k.final fi fa) eps q x net (ravel _ c) = .ok u ∧ noiseLower (k.final fi fa) eps q x net (ravel _ c) = .ok l ∧
        ∀ p ∈ LpBall x eps q, ∀ y, G.IsOutput order o p y →
          l - leps * s o c ≤ y (ravel _ c) ∧ y (ravel _ c) ≤ u + leps * s o c := by
  obtain ⟨r, e, h⟩ := runPlan_piece (ballDomain eps q) stack k hk fi fa leps he slope
    (inputTensorsBall k.mode eps q fun i => x ((oneAxis (n + 1)).symm i)) (LpBall (fun i => x ((oneAxis (n + 1)).symm i)) eps q)
    (ball_input_sound k.mode eps q _) (fun p hp => C27_input_ball k.mode eps q _ p hp) hm G order o M hG s hs fuel nameOf
  refine ⟨_, by simp only [KGraph.cloneOnBall, clonePlan_value, Except.bind, e, mapM_toB]; exact wrapperOutput_toList _ _ _, fun c => ?_⟩
  choose F hF hu using C132_output G order o M hG.toReady
  have hv : ∀ p ∈ LpBall x eps q, Near (k.final fi fa)
      ((r.carried (k.final fi fa) fun i => x ((oneAxis (n + 1)).symm i)).flat) p (F p) (fun c => leps * s o ((ravel (G.sh o)).symm c)) :=
    fun p hp => by
      obtain ⟨z, hz, hy⟩ := hF p
      have := flat_near (carried_near (x0 := fun i => x ((oneAxis (n + 1)).symm i)) (h _ (lpBall_oneAxis hp) z hz))
      have ey : (fun k => z o ((ravel (G.sh o)).symm k)) = F p := by
        funext k
        rw [← hy]; simp
      rw [ey] at this
      exact this
  obtain ⟨u, l, e1, e2, h⟩ := noise_slack (k.final fi fa) eps q x _ F (fun c => leps * s o ((ravel (G.sh o)).symm c)) hq hv (ravel (G.sh o) c)
  refine ⟨u, l, e1, e2, fun p hp y hy => ?_⟩
  rw [hu p y hy]
  simpa only [Equiv.symm_apply_apply] using h p hp

end

/-! ### Concrete graphs -/

/-- `Maximum([relu(x), x, relu(x)])`. -/
noncomputable def maxThreeGraph : KGraph 1 where
  parents := fun v => match v with | 1 => [0] | 2 => [1, 0, 1] | _ => []
  sh := fun _ => [1]
  op := fun v => match v with
    | 0 => .input
    | 1 => .layer (.lay (.relu (fun _ => 0) fun _ => 0))
    | 2 => .merge .maximum [1] 2
    | _ + 3 => .input

theorem maxThree_ready : maxThreeGraph.PieceReady [0, 1, 2] 2 2 := by
  obtain ⟨h1, h2, h3⟩ := chain3_ok maxThreeGraph.parents rfl rfl (by simp [maxThreeGraph]) fun v p hp => by
    match v, hp with
    | 0, hp => simp [maxThreeGraph] at hp
    | 1, hp => simp [maxThreeGraph] at hp; omega
    | 2, hp => simp [maxThreeGraph] at hp; omega
    | _ + 3, hp => simp [maxThreeGraph] at hp
  refine ⟨⟨h1, by simp, h2, h3, fun v hv => ?_⟩, fun v hv => ?_⟩ <;> have : v = 0 ∨ v = 1 ∨ v = 2 := by simpa using hv
  · rcases this with rfl | rfl | rfl
    · exact trivial
    · exact fun _ => ⟨⟨le_refl _, zero_le_one⟩, le_refl _, zero_le_one⟩
    · exact trivial
  · rcases this with rfl | rfl | rfl
    · exact trivial
    · exact trivial
    · exact fun h => by cases h

/-- Its error: the ReLUs have one quarter, the two steps of `Maximum` bring it to `15/4`. -/
theorem maxThree_gain : maxThreeGraph.IsGain [0, 1, 2] fun v _ => if v = 1 then 1 / 4 else if v = 2 then 15 / 4 else 0 := by
  intro v hv
  have : v = 0 ∨ v = 1 ∨ v = 2 := by simpa using hv
  rcases this with rfl | rfl | rfl
  · rfl
  · funext k
    change _ = 2 * (0 : ℝ) + 1 / 4
    norm_num
  · funext k
    change _ = (2 * ((2 * ((1 / 4 : ℝ) + 0) + 1 / 4 + 1 / 4) + 1 / 4) + 1 / 4 + (2 * (1 / 4 + 0) + 1 / 4 + 1 / 4) : ℝ)
    norm_num

/-- `get_range_box` on that model over `[-1, 2]` with five sub-boxes, with the three methods: the bounds are right up to `3.75e-7`. -/
example (k : Method) (hk : isBackward k = false) : ∃ net us ls,
    (∀ b, maxThreeGraph.cloneOnBox k.value none none (1 / 10000000) .vSlope 2 4 [0, 1, 2] (fun v => toString v) 2 b = .ok (net b)) ∧
    getRangeBox net k.mode 10 5 [(fun _ => -1, fun _ => 2)] = .ok (us, ls) ∧ ∃ u l, us[0]? = some u ∧ ls[0]? = some l ∧
      ∀ p ∈ Box (fun _ : Fin 1 => (-1 : ℝ)) (fun _ => 2), ∀ y, maxThreeGraph.IsOutput [0, 1, 2] 2 p y →
        ∀ c, l - 1 / 10000000 * (15 / 4) ≤ y (ravel [1] c) ∧ y (ravel [1] c) ≤ u + 1 / 10000000 * (15 / 4) := by
  obtain ⟨net, us, ls, h1, h2, -, -, h3⟩ := C147_range_split (n := 0) maxThreeGraph [0, 1, 2] 2 2 rfl k hk maxThree_ready _ maxThree_gain none none
    (by cases k <;> decide) (1 / 10000000) (by norm_num) .vSlope 3 (fun v => toString v) 10 5 [(fun _ => -1, fun _ => 2)]
    (by intro b hb; obtain rfl := List.mem_singleton.1 hb; intro i; norm_num)
  obtain ⟨u, l, e1, e2, h⟩ := h3 0 _ rfl
  exact ⟨net, us, ls, h1, h2, u, l, e1, e2, h⟩

/-- `Concatenate([x, relu(x)])`. -/
noncomputable def joinReluGraph : KGraph 1 where
  parents := fun v => match v with | 1 => [0] | 2 => [0, 1] | _ => []
  sh := fun v => match v with | 2 => [2] | _ => [1]
  op := fun v => match v with
    | 0 => .input
    | 1 => .layer (.lay (.relu (fun _ => 0) fun _ => 0))
    | 2 => .concat [[1], [1]] ⟨0, by decide⟩ [2] fun k =>
        if (k ⟨0, by decide⟩ : ℕ) = 0 then ⟨⟨0, by decide⟩, fun i => ⟨0, by fin_cases i; decide⟩⟩ else ⟨⟨1, by decide⟩, fun i => ⟨0, by fin_cases i; decide⟩⟩
    | _ + 3 => .input

theorem joinRelu_ready : joinReluGraph.PieceReady [0, 1, 2] 2 2 := by
  obtain ⟨h1, h2, h3⟩ := chain3_ok joinReluGraph.parents rfl rfl (by simp [joinReluGraph]) fun v p hp => by
    match v, hp with
    | 0, hp => simp [joinReluGraph] at hp
    | 1, hp => simp [joinReluGraph] at hp; omega
    | 2, hp => simp [joinReluGraph] at hp; omega
    | _ + 3, hp => simp [joinReluGraph] at hp
  refine ⟨⟨h1, by simp, h2, h3, fun v hv => ?_⟩, fun v hv => ?_⟩ <;> have : v = 0 ∨ v = 1 ∨ v = 2 := by simpa using hv
  · rcases this with rfl | rfl | rfl
    · exact trivial
    · exact fun _ => ⟨⟨le_refl _, zero_le_one⟩, le_refl _, zero_le_one⟩
    · exact trivial
  · rcases this with rfl | rfl | rfl <;> exact trivial

/-- The entries of a tensor of shape `(2,)`. -/
def entryTwo (j : Fin 2) : Idx [2] := fun i => ⟨j, by fin_cases i; exact j.2⟩

/-- The errors of the two outputs of that model are those of the two inputs of `Concatenate`. -/
theorem joinRelu_gain (s : (v : ℕ) → Idx (joinReluGraph.sh v) → ℝ) (hs : joinReluGraph.IsGain [0, 1, 2] s) :
    s 2 (entryTwo 0) = 0 ∧ s 2 (entryTwo 1) = 1 / 4 := by
  have z0 : s 0 = fun _ => 0 := hs 0 (by simp)
  have z1 : s 1 = fun i => 2 * s 0 i + 1 / 4 := hs 1 (by simp)
  have z2 := hs 2 (by simp)
  constructor
  · rw [z2]
    change s 0 _ = 0
    rw [z0]
  · rw [z2]
    change s 1 _ = 1 / 4
    rw [z1, z0]; norm_num

/-- `get_adv_box` on that model over `[-2, -1]` with the three methods: a score below `-2.5e-8` proves `x < relu(x)`. -/
example (k : Method) (hk : isBackward k = false) :
    ∃ net scs, (∀ b, joinReluGraph.cloneOnBox k.value none none (1 / 10000000) .vSlope 2 4 [0, 1, 2] (fun v => toString v) 2 b = .ok (net b)) ∧
      getAdvBoxOf [2] net k.mode 10 3 [⟨(fun _ => -2, fun _ => -1), ![0, 1], ![1, 0]⟩] = .ok scs ∧ scs.length = 1 ∧
      ∀ sc : ℝ, scs[0]? = some sc → sc < -(25 / 1000000000) → ∀ p ∈ Box (fun _ : Fin 1 => (-2 : ℝ)) (fun _ => -1), ∀ y,
        joinReluGraph.IsOutput [0, 1, 2] 2 p y → y (⟨0, by decide⟩ : Fin [2].prod) < y (⟨1, by decide⟩ : Fin [2].prod) := by
  obtain ⟨s, hs⟩ := (C147_gain joinReluGraph [0, 1, 2] joinRelu_ready.sorted).1
  obtain ⟨net, scs, h1, h2, h3, h4⟩ := @C147_adv 0 joinReluGraph [0, 1, 2] 2 2 ⟨⟨0, by decide⟩⟩ k hk joinRelu_ready s hs none none
    (by cases k <;> decide) (1 / 10000000) (by norm_num) .vSlope 3 (fun v => toString v) 10 3 [⟨(fun _ => -2, fun _ => -1), ![0, 1], ![1, 0]⟩]
    (by intro r hr; obtain rfl := List.mem_singleton.1 hr; intro i; norm_num) (.inl rfl)
  refine ⟨net, scs, h1, h2, h3, fun sc hsc hneg p hp y hy => ?_⟩
  obtain ⟨g0, g1⟩ := joinRelu_gain s hs
  have r0 : ravel [2] (entryTwo 0) = ⟨0, by decide⟩ := by decide +kernel
  have r1 : ravel [2] (entryTwo 1) = ⟨1, by decide⟩ := by decide +kernel
  have t0 : (![1, 0] : Fin [2].prod → ℝ) (ravel [2] (entryTwo 0)) = 1 := by rw [r0]; rfl
  have t1 : (![0, 1] : Fin [2].prod → ℝ) (ravel [2] (entryTwo 1)) = 1 := by rw [r1]; rfl
  have := h4 0 _ sc rfl hsc p hp y hy (entryTwo 0) (entryTwo 1)
    t0 t1 (by
      rw [g0, g1]; linarith)
  exact (congrArg y r0.symm).trans_lt (this.trans_eq (congrArg y r1))

end Decomon
