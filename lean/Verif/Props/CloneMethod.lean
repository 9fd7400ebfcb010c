import Verif.Model.CloneMethod
import Verif.Props.CrownGraph
import Verif.Props.EndToEnd
import Verif.Props.Graph
import Verif.SpecRate

/-! Property C140: the functions of wrapper.py on `clone(model, method)`, for every method. -/

namespace Decomon

/-- The mode in which the layers run with a method. -/
def Method.mode (k : Method) : Mode := getMode (ibpAffineOfMethod k).1 (ibpAffineOfMethod k).2

/-- The mode of the output: that of the method unless asked otherwise. -/
def Method.final (k : Method) (fi fa : Option Bool) : Mode := getMode (fi.getD (ibpAffineOfMethod k).1) (fa.getD (ibpAffineOfMethod k).2)

theorem clonePlan_value (k : Method) (fi fa : Option Bool) :
    clonePlan k.value fi fa = .ok ⟨decide (k ≠ .crown), isBackward k, k.mode, k.final fi fa⟩ := (C52_clone_partial k.value fi fa).1 k rfl

section
variable {n : ℕ}

/-- No node meets bounds for which its lines are wrong: in the forward pass, if there is one, and in the backward pass, if there is one. -/
def KGraph.SafeFor {X : Type} (D : PertDomain X (Idx [n]) ℝ) (stack : (Idx [n] → ℝ) → (Idx [n] → ℝ) → X) (k : Method) (eps : ℝ) (slope : Slope)
    (inp : Full X (Idx [n]) (Idx [n]) ℝ) (G : KGraph n) (order : List ℕ) : Prop :=
  (k ≠ .crown → ∀ f, G.IsBounds D k.mode eps slope inp order f → ∀ v ∈ order, (G.op v).Good D k.mode eps (HList.ofNodes f (G.parents v))) ∧
  (isBackward k = true → ∀ fw w, G.IsForward D k.mode eps slope (decide (k ≠ .crown)) inp order fw →
    G.IsCrown D stack k.mode eps slope inp order fw w → ∀ v ∈ order,
      (G.op v).SafeBack D k.mode eps (HList.ofNodes (fun u => (w u, crownOut D stack k.mode inp (fw u) (w u))) (G.parents v)))

/-- The same over a box. -/
def KGraph.SafeBox (G : KGraph n) (k : Method) (eps : ℝ) (slope : Slope) (order : List ℕ) (b : BoxOf (Fin n) ℝ) : Prop :=
  G.SafeFor boxDomain Prod.mk k eps slope
    (inputTensorsBox k.mode (fun i => b.1 ((oneAxis n).symm i)) (fun i => b.2 ((oneAxis n).symm i))) order

/-- The graph is ready, and its nodes have backward layers if the method needs them. -/
structure KGraph.ReadyFor (G : KGraph n) (k : Method) (order : List ℕ) (o M : ℕ) : Prop extends G.Ready order o M where
  back : isBackward k = true → ∀ v ∈ order, (G.op v).HasBack

theorem forward_of_not_backward {k : Method} (h : isBackward k = false) : k ≠ .crown := by rintro rfl; cases h

/-- The conversion of a graph with any method. -/
theorem runPlan_sound {X : Type} (D : PertDomain X (Idx [n]) ℝ) (stack : (Idx [n] → ℝ) → (Idx [n] → ℝ) → X) (k : Method) (fi fa : Option Bool)
    (eps : ℝ) (he : 0 < eps) (slope : Slope) (inp : Full X (Idx [n]) (Idx [n]) ℝ) (S : Set (Idx [n] → ℝ)) (hD : D.Sound inp.x S)
    (hst : isBackward k = true → k.mode = .ibp → D.Sound (stack inp.lc inp.uc) S) (hi : ∀ p ∈ S, Valid k.mode false inp p p)
    (hm : k.mode ≠ .ibp ∨ k.final fi fa = .ibp) (G : KGraph n) (order : List ℕ) (o M : ℕ) (hG : G.ReadyFor k order o M) (fuel : ℕ)
    (hf : order.length ≤ fuel + 1) (nameOf : ℕ → String) :
    ∃ r : Full X (Idx [n]) (Idx (G.sh o)) ℝ,
      G.runPlan D stack ⟨decide (k ≠ .crown), isBackward k, k.mode, k.final fi fa⟩ eps slope inp M (fuel + 1) order nameOf o =
        .ok ((r.toList (k.final fi fa)).map Ten.toB) ∧
      (G.SafeFor D stack k eps slope inp order → ∀ p ∈ S, ∀ y, G.IsValue p order y → Valid (k.final fi fa) false r p (y o)) := by
  by_cases hs : G.SafeFor D stack k eps slope inp order
  · cases hk : isBackward k with
    | true =>
      obtain ⟨r, e, h⟩ := C139_final_partial D stack k.mode (k.final fi fa) hm eps he slope (decide (k ≠ .crown)) inp S hD (hst hk) hi G M fuel order
        hG.sorted hf nameOf o hG.out hG.depth hG.used (hG.back hk) hG.layers (fun h => hs.1 (by simpa using h)) (hs.2 hk)
      exact ⟨r, by simp only [KGraph.runPlan, if_true]; exact e, fun _ => h⟩
    | false =>
      obtain ⟨f, hfb, e⟩ := C131_convert D k.mode (k.final fi fa) eps slope inp G M fuel order hG.sorted nameOf o hG.out hG.depth hG.used
      refine ⟨_, by simp only [KGraph.runPlan, Bool.false_eq_true, if_false, e]; rfl, fun _ p hp y hy => ?_⟩
      obtain ⟨hx, v⟩ := bounds_valid D k.mode eps he slope _ _ hD G order hG.sorted hG.layers f hfb
        (hs.1 (forward_of_not_backward hk) f hfb) p hp (hi p hp) y hy o hG.out
      exact C29_convert2Mode_valid D k.mode (k.final fi fa) hm (f o) _ (by rw [hx]; exact hD) p hp _ v
  · cases hk : isBackward k with
    | true =>
      obtain ⟨fw, w, -, -, R, -, e⟩ := C139_convert D stack k.mode eps slope (decide (k ≠ .crown)) inp G M fuel order hG.sorted hf nameOf [o]
        (by simpa using hG.out) (by simp) (by simpa using hG.depth) (by simpa using hG.used) (hG.back hk)
      exact ⟨_, by
        simp only [KGraph.runPlan, if_true, KGraph.convertBackward, e, List.flatMap_cons, List.flatMap_nil, List.append_nil, Except.bind,
          readListB_toList, Except.map]
        rfl, fun h => absurd h hs⟩
    | false =>
      obtain ⟨f, -, e⟩ := C131_convert D k.mode (k.final fi fa) eps slope inp G M fuel order hG.sorted nameOf o hG.out hG.depth hG.used
      exact ⟨_, by simp only [KGraph.runPlan, Bool.false_eq_true, if_false, e]; rfl, fun h => absurd h hs⟩

theorem flat_exact {X : Type} {m : Mode} {s : List ℕ} {f : Full X (Idx [n]) (Idx s) ℝ} {p : Fin n → ℝ} {y : Idx s → ℝ}
    (v : ExactAt m f (fun i => p ((oneAxis n).symm i)) y) : ExactAt m f.flat p (fun k => y ((ravel s).symm k)) := by
  have e : ∀ (w : Idx [n] → ℝ) (b : ℝ), affEval (fun i => w (oneAxis n i)) b p = affEval w b fun i => p ((oneAxis n).symm i) := fun w b => by
    simp only [affEval]
    rw [← (oneAxis n).sum_comp]
    simp
  exact ⟨fun hi k => v.const hi _, fun ha k => ⟨(e (fun i => f.wl i ((ravel s).symm k)) _).trans (v.aff ha _).1,
    (e (fun i => f.wu i ((ravel s).symm k)) _).trans (v.aff ha _).2⟩⟩

variable (G : KGraph n) (order : List ℕ) (o M : ℕ)

/-- C140: with every method `clone` and the call of its result return, and the caller can unpack the output; over a safe box what it reads
bounds the Keras model.  Missing: graphs with nodes without backward layers (`C139_raises`), boxes that are not safe, for which the claim is
false (C131, C138), and outputs asked in another mode from ibp (C29). -/
theorem C140_onBox_partial (k : Method) (hG : G.ReadyFor k order o M) (fi fa : Option Bool) (hm : k.mode ≠ .ibp ∨ k.final fi fa = .ibp) (eps : ℝ)
    (he : 0 < eps) (slope : Slope) (fuel : ℕ) (hf : order.length ≤ fuel + 1) (nameOf : ℕ → String) :
    ∃ net : BoxOf (Fin n) ℝ → Full (BoxOf (Idx [n]) ℝ) (Fin n) (Fin (G.sh o).prod) ℝ,
      (∀ b, G.cloneOnBox k.value fi fa eps slope M (fuel + 1) order nameOf o b = .ok (net b)) ∧
      ∀ b, G.SafeBox k eps slope order b → ∀ p ∈ Box b.1 b.2, ∀ y, G.IsOutput order o p y → Valid (k.final fi fa) false (net b) p y := by
  have key : ∀ b : BoxOf (Fin n) ℝ, ∃ f, G.cloneOnBox k.value fi fa eps slope M (fuel + 1) order nameOf o b = .ok f ∧
      (G.SafeBox k eps slope order b → ∀ p ∈ Box b.1 b.2, ∀ y, G.IsOutput order o p y → Valid (k.final fi fa) false f p y) := fun b => by
    obtain ⟨r, e, h⟩ := runPlan_sound boxDomain Prod.mk k fi fa eps he slope
      (inputTensorsBox k.mode (fun i => b.1 ((oneAxis n).symm i)) (fun i => b.2 ((oneAxis n).symm i)))
      (Box (fun i => b.1 ((oneAxis n).symm i)) (fun i => b.2 ((oneAxis n).symm i))) (boxDomain_sound _ _)
      (fun _ h => by rw [h]; exact boxDomain_sound _ _) (fun p hp => C27_input_box k.mode _ _ p hp) hm G order o M hG fuel hf nameOf
    refine ⟨_, by simp only [KGraph.cloneOnBox, clonePlan_value, Except.bind, e, mapM_toB]; exact wrapperOutput_toList _ _ _,
      fun hs p hp y ⟨z, hz, hy⟩ => ?_⟩
    have := flat_valid (carried_valid (x0 := ((fun i => b.1 ((oneAxis n).symm i), fun i => b.2 ((oneAxis n).symm i)) : BoxOf (Idx [n]) ℝ))
      (h hs (fun i => p ((oneAxis n).symm i)) (fun i => hp _) z hz))
    have ey : (fun k => z o ((ravel (G.sh o)).symm k)) = y := by
      funext k
      rw [← hy]; simp
    rw [ey] at this
    exact this
  choose net h1 h2 using key
  exact ⟨net, h1, h2⟩

end

section
variable {n : ℕ} (G : KGraph (n + 1)) (order : List ℕ) (o M : ℕ)

/-- C140: `get_range_box` on `clone(model, method)`.  Missing: as above, and sub-boxes (C36). -/
theorem C140_range_partial (k : Method) (hG : G.ReadyFor k order o M) (fi fa : Option Bool) (hm : k.mode ≠ .ibp ∨ k.final fi fa = .ibp) (eps : ℝ)
    (he : 0 < eps) (slope : Slope) (fuel : ℕ) (hf : order.length ≤ fuel + 1) (nameOf : ℕ → String) (batch nSub : ℕ) (hn : nSub ≤ 1)
    (bs : List (BoxOf (Fin (n + 1)) ℝ)) (hb : ∀ b ∈ bs, ∀ i, b.1 i ≤ b.2 i) (hg : ∀ b ∈ bs, G.SafeBox k eps slope order b) :
    ∃ net us ls, (∀ b, G.cloneOnBox k.value fi fa eps slope M (fuel + 1) order nameOf o b = .ok (net b)) ∧
      getRangeBox net (k.final fi fa) batch nSub bs = .ok (us, ls) ∧ us.length = bs.length * (G.sh o).prod ∧
      ls.length = bs.length * (G.sh o).prod ∧
      ∀ i b, bs[i]? = some b → ∀ c : Fin (G.sh o).prod, ∃ u l, us[i * (G.sh o).prod + c]? = some u ∧
        ls[i * (G.sh o).prod + c]? = some l ∧ ∀ p ∈ Box b.1 b.2, ∀ y, G.IsOutput order o p y → l ≤ y c ∧ y c ≤ u := by
  obtain ⟨net, h1, h2⟩ := C140_onBox_partial G order o M k hG fi fa hm eps he slope fuel hf nameOf
  choose F hF hu using C132_output G order o M hG.toReady
  obtain ⟨us, ls, e, lu, ll, h⟩ := C34_range_sound net (k.final fi fa) F batch nSub hn bs hb fun b hb' p hp => h2 b (hg b hb') p hp _ (hF p)
  refine ⟨net, us, ls, h1, e, lu, ll, fun i b hi c => ?_⟩
  obtain ⟨u, l, eu, el, hc⟩ := h i b hi c
  refine ⟨u, l, eu, el, fun p hp y hy => ?_⟩
  rw [hu p y hy]
  exact hc p hp

/-- C140: `get_adv_box` on `clone(model, method)`, with or without sub-boxes: a negative score means that over the whole box every source label
is strictly above every target label.  Missing: as above for the sub-boxes, and outputs with several axes except in affine mode (C132). -/
theorem C140_adv_partial [Nonempty (Fin (G.sh o).prod)] (k : Method) (hG : G.ReadyFor k order o M) (fi fa : Option Bool)
    (hm : k.mode ≠ .ibp ∨ k.final fi fa = .ibp) (eps : ℝ) (he : 0 < eps) (slope : Slope) (fuel : ℕ) (hf : order.length ≤ fuel + 1)
    (nameOf : ℕ → String) (batch nSub : ℕ) (rows : List (AdvSample (Fin (n + 1)) (Fin (G.sh o).prod) ℝ))
    (hb : ∀ r ∈ rows, ∀ i, r.box.1 i ≤ r.box.2 i) (hs : (G.sh o).length = 1 ∨ k.final fi fa = .affine)
    (hg : ∀ b ∈ (subBoxes nSub (rows.map AdvSample.box)).1, G.SafeBox k eps slope order b) :
    ∃ net scs, (∀ b, G.cloneOnBox k.value fi fa eps slope M (fuel + 1) order nameOf o b = .ok (net b)) ∧
      getAdvBoxOf (G.sh o) net (k.final fi fa) batch nSub rows = .ok scs ∧ scs.length = rows.length ∧
      ∀ (i : ℕ) (r : AdvSample (Fin (n + 1)) (Fin (G.sh o).prod) ℝ) (sc : ℝ), rows[i]? = some r → scs[i]? = some sc → sc < 0 →
        ∀ p ∈ Box r.box.1 r.box.2, ∀ y, G.IsOutput order o p y → ∀ t s, r.tgt t = 1 → r.src s = 1 → y t < y s := by
  obtain ⟨net, h1, h2⟩ := C140_onBox_partial G order o M k hG fi fa hm eps he slope fuel hf nameOf
  choose F hF hu using C132_output G order o M hG.toReady
  obtain ⟨scs, e, l, h⟩ := C33_negative_is_robust net (k.final fi fa) F batch nSub rows hb fun b hb' p hp => h2 b (hg b hb') p hp _ (hF p)
  refine ⟨net, scs, h1, by rw [C132_adv_shape _ net _ hs, e], l, fun i r sc hr hsc hneg p hp y hy => ?_⟩
  rw [hu p y hy]
  exact h i r sc hr hsc hneg p hp

/-- The bounds of `get_range_box` on a single point, from exact tensors. -/
theorem range_exact {X κ ι : Type} [Fintype ι] (m : Mode) (p : ι → ℝ) (f : Full X ι κ ℝ) (y : κ → ℝ) (v : ExactAt m f p y) (c : κ) :
    rangeUpper m (p, p) f c = y c ∧ rangeLower m (p, p) f c = y c := by
  have hu : ∀ w b, getUpperBox p p w b = affEval w b p := fun w b => (boxDomain_point p w b).2
  have hl : ∀ w b, getLowerBox p p w b = affEval w b p := fun w b => (boxDomain_point p w b).1
  cases m with
  | ibp => exact ⟨(v.const rfl c).2, (v.const rfl c).1⟩
  | affine => exact ⟨by rw [rangeUpper, hu, (v.aff rfl c).2], by rw [rangeLower, hl, (v.aff rfl c).1]⟩
  | hybrid =>
    exact ⟨by rw [rangeUpper, hu, (v.aff rfl c).2, (v.const rfl c).2, min_self], by rw [rangeLower, hl, (v.aff rfl c).1, (v.const rfl c).1, max_self]⟩

/-- C140: on single points, with every method, both bounds of `get_range_box` are the output of the Keras model (except softplus with
affine bounds). -/
theorem C140_point (k : Method) (hG : G.ReadyFor k order o M) (fi fa : Option Bool) (hm : k.mode ≠ .ibp ∨ k.final fi fa = .ibp)
    (hs : isBackward k = false → getAffine k.mode = true → ∀ v ∈ order, (G.op v).NoSoftplus) (eps : ℝ) (he : 0 < eps) (slope : Slope) (fuel : ℕ)
    (hf : order.length ≤ fuel + 1) (nameOf : ℕ → String) (batch nSub : ℕ) (hn : nSub ≤ 1) (ps : List (Fin (n + 1) → ℝ)) :
    ∃ net us ls, (∀ b, G.cloneOnBox k.value fi fa eps slope M (fuel + 1) order nameOf o b = .ok (net b)) ∧
      getRangeBox net (k.final fi fa) batch nSub (ps.map fun p => (p, p)) = .ok (us, ls) ∧
      ∀ i p, ps[i]? = some p → ∀ c : Fin (G.sh o).prod, ∀ y, G.IsOutput order o p y →
        us[i * (G.sh o).prod + c]? = some (y c) ∧ ls[i * (G.sh o).prod + c]? = some (y c) := by
  obtain ⟨net, h1, -⟩ := C140_onBox_partial G order o M k hG fi fa hm eps he slope fuel hf nameOf
  have h2 : ∀ p y, G.IsOutput order o p y → ExactAt (k.final fi fa) (net (p, p)) p y := fun p y ⟨z, hz, hy⟩ => by
    have key : ∃ r : Full (BoxOf (Idx [n + 1]) ℝ) (Idx [n + 1]) (Idx (G.sh o)) ℝ,
        G.runPlan boxDomain Prod.mk ⟨decide (k ≠ .crown), isBackward k, k.mode, k.final fi fa⟩ eps slope
          (inputTensorsBox k.mode (fun i => p ((oneAxis _).symm i)) (fun i => p ((oneAxis _).symm i))) M (fuel + 1) order nameOf o =
          .ok ((r.toList (k.final fi fa)).map Ten.toB) ∧ ExactAt (k.final fi fa) r (fun i => p ((oneAxis _).symm i)) (z o) := by
      cases hk : isBackward k with
      | true =>
        obtain ⟨r, e, h⟩ := C139_point k.mode (k.final fi fa) hm eps slope (decide (k ≠ .crown)) (fun i => p ((oneAxis _).symm i)) G M fuel order
          hG.sorted hf nameOf o hG.out hG.depth hG.used (hG.back hk)
        exact ⟨r, by simp only [KGraph.runPlan, if_true]; exact e, h z hz⟩
      | false =>
        obtain ⟨r, e, h⟩ := C131_point k.mode (k.final fi fa) hm eps slope (fun i => p ((oneAxis _).symm i)) G M fuel order hG.sorted nameOf o
          hG.out hG.depth hG.used (hs hk)
        exact ⟨r, by simp only [KGraph.runPlan, Bool.false_eq_true, if_false, e]; rfl, h z hz⟩
    obtain ⟨r, e, h⟩ := key
    have e1 := h1 (p, p)
    simp only [KGraph.cloneOnBox, clonePlan_value, Except.bind, e, mapM_toB] at e1
    rw [wrapperOutput_toList] at e1
    rw [← Except.ok.inj e1]
    have := flat_exact (carried_exact (x0 := ((fun i => p ((oneAxis _).symm i), fun i => p ((oneAxis _).symm i)) : BoxOf (Idx [n + 1]) ℝ)) h)
    have ey : (fun k => z o ((ravel (G.sh o)).symm k)) = y := by
      funext k
      rw [← hy]; simp
    rwa [ey] at this
  have e : subBoxes nSub (ps.map fun p => (p, p)) = (ps.map fun p => (p, p), 1) := by unfold subBoxes; rw [if_neg (by omega)]
  have hb : ∀ b ∈ ps.map fun p => (p, p), GoodBox b := fun b hb => by
    obtain ⟨p, -, rfl⟩ := List.mem_map.1 hb
    exact fun i => le_rfl
  refine ⟨net, _, _, h1, by rw [getRangeBox_eq net _ batch nSub _ hb, e]; simp only [lt_irrefl, if_false]; rfl, fun i p hi c y hy => ?_⟩
  obtain ⟨a, b⟩ := range_exact _ p _ y (h2 p y hy) c
  constructor
  · rw [← a]
    exact flatRows_getElem? _ i _ (by rw [List.getElem?_map, List.getElem?_map, hi]; rfl) c
  · rw [← b]
    exact flatRows_getElem? _ i _ (by rw [List.getElem?_map, List.getElem?_map, hi]; rfl) c

end

/-! ### Balls -/

section
variable {n : ℕ} (G : KGraph (n + 1)) (order : List ℕ) (o M : ℕ)

/-- C140: `get_range_noise` on `clone(model, method, perturbation_domain=BallDomain(eps, p))`.  Missing: as above, and the crown methods in ibp
mode, which stack two tensors where the domain expects a centre (C139). -/
theorem C140_noise_partial (k : Method) (hG : G.ReadyFor k order o M) (fi fa : Option Bool) (hm : k.mode ≠ .ibp ∨ k.final fi fa = .ibp)
    (hk : isBackward k = true → k.mode ≠ .ibp) (leps : ℝ) (he : 0 < leps) (slope : Slope) (eps : ℝ) (q : PVal)
    (hq : q = .inf ∨ q = .fin 1 ∨ q = .fin 2) (stack : (Idx [n + 1] → ℝ) → (Idx [n + 1] → ℝ) → Idx [n + 1] → ℝ) (fuel : ℕ)
    (hf : order.length ≤ fuel + 1) (nameOf : ℕ → String) (x : Fin (n + 1) → ℝ)
    (hg : G.SafeFor (ballDomain eps q) stack k leps slope (inputTensorsBall k.mode eps q fun i => x ((oneAxis (n + 1)).symm i)) order) :
    ∃ net, G.cloneOnBall k.value fi fa leps slope eps q stack M (fuel + 1) order nameOf o x = .ok net ∧
      ∀ c, ∃ u l, noiseUpper (k.final fi fa) eps q x net c = .ok u ∧ noiseLower (k.final fi fa) eps q x net c = .ok l ∧
        ∀ p ∈ LpBall x eps q, ∀ y, G.IsOutput order o p y → l ≤ y c ∧ y c ≤ u := by
  obtain ⟨r, e, h⟩ := runPlan_sound (ballDomain eps q) stack k fi fa leps he slope
    (inputTensorsBall k.mode eps q fun i => x ((oneAxis (n + 1)).symm i)) (LpBall (fun i => x ((oneAxis (n + 1)).symm i)) eps q)
    (ball_input_sound k.mode eps q _) (fun h1 h2 => absurd h2 (hk h1)) (fun p hp => C27_input_ball k.mode eps q _ p hp) hm G order o M hG fuel hf nameOf
  refine ⟨_, by simp only [KGraph.cloneOnBall, clonePlan_value, Except.bind, e, mapM_toB]; exact wrapperOutput_toList _ _ _, fun c => ?_⟩
  choose F hF hu using C132_output G order o M hG.toReady
  have hv : ∀ p ∈ LpBall x eps q, Valid (k.final fi fa) false
      ((r.carried (k.final fi fa) fun i => x ((oneAxis (n + 1)).symm i)).flat) p (F p) := fun p hp => by
    obtain ⟨z, hz, hy⟩ := hF p
    have := flat_valid (carried_valid (x0 := fun i => x ((oneAxis (n + 1)).symm i)) (h hg _ (lpBall_oneAxis hp) z hz))
    have ey : (fun k => z o ((ravel (G.sh o)).symm k)) = F p := by
      funext k
      rw [← hy]; simp
    rwa [ey] at this
  obtain ⟨u, l, e1, e2, h⟩ := C39_noise_sound_partial (k.final fi fa) eps q x _ F hq hv c
  refine ⟨u, l, e1, e2, fun p hp y hy => ?_⟩
  rw [hu p y hy]
  exact h p hp

end

/-! ### Graphs of linear layers -/

/-- An input, or a layer of `Model/Network.lean` other than a ReLU. -/
def KOp.IsLinear {n : ℕ} : {as : List (List ℕ)} → {b : List ℕ} → KOp n as b → Prop
  | _, _, .input => True
  | _, _, .layer (.lay l) => l.IsAffine
  | _, _, _ => False

section
variable {n : ℕ}

theorem Lay.ok_of_affine {X ι κ κ' : Type} [Fintype ι] (D : PertDomain X ι ℝ) (m : Mode) (eps : ℝ) (l : Lay ℝ κ κ') (h : l.IsAffine)
    (f : Full X ι κ ℝ) : l.SliverOK D m eps f ∧ l.BackSliverOK D m eps f := by
  cases l with
  | relu _ _ => exact h.elim
  | _ => exact ⟨trivial, trivial⟩

theorem KOp.hasBack_of_linear {as : List (List ℕ)} {b : List ℕ} (op : KOp n as b) (h : op.IsLinear) : op.HasBack := by
  cases op with
  | input => trivial
  | layer st =>
    cases st with
    | lay l => trivial
    | act g => exact h.elim
    | pool _ _ => exact h.elim
  | _ => exact h.elim

theorem KOp.good_of_linear {X : Type} (D : PertDomain X (Idx [n]) ℝ) (m : Mode) (eps : ℝ) {as : List (List ℕ)} {b : List ℕ} (op : KOp n as b)
    (h : op.IsLinear) (t : HList (fun s => Full X (Idx [n]) (Idx s) ℝ) as) : op.Good D m eps t := by
  cases op with
  | input => cases t; trivial
  | layer st =>
    cases t
    cases st with
    | lay l => exact (Lay.ok_of_affine D m eps l h _).1
    | act g => exact h.elim
    | pool _ _ => exact h.elim
  | _ => exact h.elim

theorem KOp.safeBack_of_linear {X : Type} (D : PertDomain X (Idx [n]) ℝ) (m : Mode) (eps : ℝ) {as : List (List ℕ)} {b : List ℕ} (op : KOp n as b)
    (h : op.IsLinear) (t : HList (fun s => GNode n s × Except PyErr (Full X (Idx [n]) (Idx s) ℝ)) as) : op.SafeBack D m eps t := by
  cases op with
  | input => cases t; trivial
  | layer st =>
    cases t
    cases st with
    | lay l => exact fun f _ => (Lay.ok_of_affine D m eps l h f).2
    | act g => exact h.elim
    | pool _ _ => exact h.elim
  | _ => exact h.elim

/-- A graph of linear layers is safe whatever the method and the domain. -/
theorem safeFor_linear {X : Type} (D : PertDomain X (Idx [n]) ℝ) (stack : (Idx [n] → ℝ) → (Idx [n] → ℝ) → X) (k : Method) (eps : ℝ) (slope : Slope)
    (inp : Full X (Idx [n]) (Idx [n]) ℝ) (G : KGraph n) (order : List ℕ) (h : ∀ v ∈ order, (G.op v).IsLinear) :
    G.SafeFor D stack k eps slope inp order :=
  ⟨fun _ _ _ v hv => KOp.good_of_linear D k.mode eps (G.op v) (h v hv) _, fun _ _ _ _ _ v hv => KOp.safeBack_of_linear D k.mode eps (G.op v) (h v hv) _⟩

end

section
variable {n : ℕ} (G : KGraph (n + 1)) (order : List ℕ) (o M : ℕ)

/-- C140 for models of linear layers (`Dense`, `Conv2D`, `BatchNormalization`, `Flatten`, `Reshape`, `Permute`, `Dropout`): with every method
`get_range_box` bounds the model over every box. -/
theorem C140_linear_range (hG : G.Ready order o M) (hl : ∀ v ∈ order, (G.op v).IsLinear) (k : Method) (eps : ℝ) (he : 0 < eps) (slope : Slope)
    (fuel : ℕ) (hf : order.length ≤ fuel + 1) (nameOf : ℕ → String) (batch nSub : ℕ) (hn : nSub ≤ 1) (bs : List (BoxOf (Fin (n + 1)) ℝ))
    (hb : ∀ b ∈ bs, ∀ i, b.1 i ≤ b.2 i) :
    ∃ net us ls, (∀ b, G.cloneOnBox k.value none none eps slope M (fuel + 1) order nameOf o b = .ok (net b)) ∧
      getRangeBox net k.mode batch nSub bs = .ok (us, ls) ∧ us.length = bs.length * (G.sh o).prod ∧ ls.length = bs.length * (G.sh o).prod ∧
      ∀ i b, bs[i]? = some b → ∀ c : Fin (G.sh o).prod, ∃ u l, us[i * (G.sh o).prod + c]? = some u ∧
        ls[i * (G.sh o).prod + c]? = some l ∧ ∀ p ∈ Box b.1 b.2, ∀ y, G.IsOutput order o p y → l ≤ y c ∧ y c ≤ u :=
  C140_range_partial G order o M k ⟨hG, fun _ v hv => KOp.hasBack_of_linear _ (hl v hv)⟩ none none (Decidable.not_or_of_imp id) eps he slope fuel hf
    nameOf batch nSub hn bs hb fun _ _ => safeFor_linear _ _ k eps slope _ G order hl

/-- C140 for models of linear layers: with every method the certificates of `get_adv_box` are true, over every box, with or without sub-boxes
(outputs with one axis). -/
theorem C140_linear_adv [Nonempty (Fin (G.sh o).prod)] (hG : G.Ready order o M) (hl : ∀ v ∈ order, (G.op v).IsLinear) (hs : (G.sh o).length = 1)
    (k : Method) (eps : ℝ) (he : 0 < eps) (slope : Slope) (fuel : ℕ) (hf : order.length ≤ fuel + 1) (nameOf : ℕ → String) (batch nSub : ℕ)
    (rows : List (AdvSample (Fin (n + 1)) (Fin (G.sh o).prod) ℝ)) (hb : ∀ r ∈ rows, ∀ i, r.box.1 i ≤ r.box.2 i) :
    ∃ net scs, (∀ b, G.cloneOnBox k.value none none eps slope M (fuel + 1) order nameOf o b = .ok (net b)) ∧
      getAdvBoxOf (G.sh o) net k.mode batch nSub rows = .ok scs ∧ scs.length = rows.length ∧
      ∀ (i : ℕ) (r : AdvSample (Fin (n + 1)) (Fin (G.sh o).prod) ℝ) (sc : ℝ), rows[i]? = some r → scs[i]? = some sc → sc < 0 →
        ∀ p ∈ Box r.box.1 r.box.2, ∀ y, G.IsOutput order o p y → ∀ t s, r.tgt t = 1 → r.src s = 1 → y t < y s :=
  C140_adv_partial G order o M k ⟨hG, fun _ v hv => KOp.hasBack_of_linear _ (hl v hv)⟩ none none (Decidable.not_or_of_imp id) eps he slope fuel hf
    nameOf batch nSub rows hb (.inl hs) fun _ _ => safeFor_linear _ _ k eps slope _ G order hl

end

/-! ### Concrete graphs -/

/-- Two inputs, a `Dropout` and a `Dense` that computes the sum and the difference. -/
noncomputable def sumDiffGraph : KGraph 2 where
  parents := fun v => match v with | 1 => [0] | 2 => [1] | _ => []
  sh := fun _ => [2]
  op := fun v => match v with
    | 0 => .input
    | 1 => .layer (.lay .skip)
    | 2 => .layer (.lay (.dense (fun i j => if (i ⟨0, by decide⟩ : ℕ) = 1 ∧ (j ⟨0, by decide⟩ : ℕ) = 1 then -1 else 1) fun _ => 0))
    | _ + 3 => .input

theorem sumDiffGraph_ready : sumDiffGraph.Ready [0, 1, 2] 2 2 := by
  obtain ⟨h1, h2, h3⟩ := chain3_ok sumDiffGraph.parents rfl rfl (by simp [sumDiffGraph]) fun v p hp => by
    match v, hp with
    | 0, hp => simp [sumDiffGraph] at hp
    | 1, hp => simp [sumDiffGraph] at hp; omega
    | 2, hp => simp [sumDiffGraph] at hp; omega
    | _ + 3, hp => simp [sumDiffGraph] at hp
  refine ⟨h1, by simp, h2, h3, fun v hv => ?_⟩
  have : v = 0 ∨ v = 1 ∨ v = 2 := by simpa using hv
  rcases this with rfl | rfl | rfl <;> exact trivial

/-- `get_adv_box` on that model over `[0, 1] × [2, 3]`, with four sub-boxes, source label `0` and target label `1`, for every method. -/
example (k : Method) : ∃ net scs,
    (∀ b, sumDiffGraph.cloneOnBox k.value none none (1 / 10000000) .vSlope 2 4 [0, 1, 2] (fun v => toString v) 2 b = .ok (net b)) ∧
    getAdvBoxOf [2] net k.mode 1 4 [⟨(![0, 2], ![1, 3]), ![1, 0], ![0, 1]⟩] = .ok scs ∧ scs.length = 1 ∧
    ∀ sc, scs[0]? = some sc → sc < 0 → ∀ p ∈ Box ![(0 : ℝ), 2] ![1, 3], ∀ y, sumDiffGraph.IsOutput [0, 1, 2] 2 p y →
      y (⟨1, by decide⟩ : Fin [2].prod) < y (⟨0, by decide⟩ : Fin [2].prod) := by
  obtain ⟨net, scs, h1, h2, h3, h4⟩ := @C140_linear_adv 1 sumDiffGraph [0, 1, 2] 2 2 ⟨⟨0, by decide⟩⟩ sumDiffGraph_ready (fun v hv => by
      have : v = 0 ∨ v = 1 ∨ v = 2 := by simpa using hv
      rcases this with rfl | rfl | rfl <;> exact trivial) rfl k (1 / 10000000) (by norm_num)
    .vSlope 3 (by simp) (fun v => toString v) 1 4 [⟨(![0, 2], ![1, 3]), ![1, 0], ![0, 1]⟩] (by
      intro r hr
      simp only [List.mem_cons, List.not_mem_nil, or_false] at hr
      rcases hr with rfl
      intro i
      fin_cases i <;> norm_num)
  exact ⟨net, scs, h1, h2, h3, fun sc hsc hneg p hp y hy => h4 0 _ sc rfl hsc hneg p hp y hy _ _ rfl rfl⟩

/-- One input, a `Dropout` and `tanh`. -/
def tanhGraph : KGraph 1 where
  parents := fun v => match v with | 1 => [0] | 2 => [1] | _ => []
  sh := fun _ => [1]
  op := fun v => match v with
    | 0 => .input
    | 1 => .layer (.lay .skip)
    | 2 => .layer (.act .tanh)
    | _ + 3 => .input

theorem tanhGraph_ready (k : Method) : tanhGraph.ReadyFor k [0, 1, 2] 2 2 := by
  obtain ⟨h1, h2, h3⟩ := chain3_ok tanhGraph.parents rfl rfl (by simp [tanhGraph]) fun v p hp => by
    match v, hp with
    | 0, hp => simp [tanhGraph] at hp
    | 1, hp => simp [tanhGraph] at hp; omega
    | 2, hp => simp [tanhGraph] at hp; omega
    | _ + 3, hp => simp [tanhGraph] at hp
  refine ⟨⟨h1, by simp, h2, h3, fun v hv => ?_⟩, fun _ v hv => ?_⟩ <;> have : v = 0 ∨ v = 1 ∨ v = 2 := by simpa using hv
  · rcases this with rfl | rfl | rfl <;> exact trivial
  · rcases this with rfl | rfl | rfl
    · exact trivial
    · exact trivial
    · exact ⟨trivial, .inr rfl⟩

/-- The box `[1, 2]` is safe for `crown`: the interval that `tanh` receives is one-sided. -/
theorem tanhGraph_safe : tanhGraph.SafeBox .crown (1 / 10000000) .vSlope [0, 1, 2] (fun _ => 1, fun _ => 2) := by
  refine ⟨fun h => absurd rfl h, fun _ fw w hfw hw v hv => ?_⟩
  obtain rfl : fw = fun _ => none := funext hfw
  have : v = 0 ∨ v = 1 ∨ v = 2 := by simpa using hv
  rcases this with rfl | rfl | rfl
  · exact trivial
  · exact fun f _ => trivial
  · intro f hf c
    have h0 := hw 0 (by simp)
    have h1 := hw 1 (by simp)
    have e0 : w 0 = ⟨.ok Back.identity, fun _ b => .ok (mergeWithPrevious Back.identity b)⟩ := h0
    have e1 : (w 1).first = (Except.bind ((w 0).first.map (convert2BackwardMode boxDomain Prod.mk .ibp (inputTensorsBox .ibp (fun _ => 1) (fun _ => 2))))
        ((Step.lay (a := [1]) .skip).back boxDomain .ibp (1 / 10000000) .vSlope)).bind ((w 0).next [1]) := by rw [h1]; rfl
    rw [e0] at e1
    have e2 : (w 1).first = .ok (Back.identity : Back (Idx [1]) (Idx [1]) ℝ) :=
      e1.trans (congrArg Except.ok (merge_identity_right (Back.identity : Back (Idx [1]) (Idx [1]) ℝ)))
    change crownOut boxDomain Prod.mk .ibp (inputTensorsBox .ibp (fun _ : Idx [1] => (1 : ℝ)) (fun _ => 2)) none (w 1) = .ok f at hf
    simp only [crownOut, e2] at hf
    obtain rfl := Except.ok.inj hf
    have e3 := (getLowerBox_diag (fun _ : Idx [1] => (1 : ℝ)) (fun _ => 2) (fun _ => 1) 0 c).trans (by norm_num : _ = (1 : ℝ))
    have e4 := (getUpperBox_diag (fun _ : Idx [1] => (1 : ℝ)) (fun _ => 2) (fun _ => 1) 0 c).trans (by norm_num : _ = (2 : ℝ))
    change OneSided _ (getLowerBox (fun _ : Idx [1] => (1 : ℝ)) (fun _ => 2) (fun i => diagLike (fun _ => 1) i c) 0)
      (getUpperBox (fun _ : Idx [1] => (1 : ℝ)) (fun _ => 2) (fun i => diagLike (fun _ => 1) i c) 0)
    rw [e3, e4]
    exact .inr (by norm_num)

/-- The bounds of `tanh(x)` over `[1, 2]` by `get_range_box` with the default method of `clone`. -/
example : ∃ net us ls,
    (∀ b, tanhGraph.cloneOnBox "crown" none none (1 / 10000000) .vSlope 2 4 [0, 1, 2] (fun v => toString v) 2 b = .ok (net b)) ∧
    getRangeBox net .ibp 1 1 [(fun _ => 1, fun _ => 2)] = .ok (us, ls) ∧ us.length = 1 ∧ ls.length = 1 := by
  obtain ⟨net, us, ls, h1, h2, h3, h4, -⟩ := C140_range_partial (n := 0) tanhGraph [0, 1, 2] 2 2 .crown (tanhGraph_ready _) none none (.inr rfl)
    (1 / 10000000) (by norm_num) .vSlope 3 (by simp) (fun v => toString v) 1 1 le_rfl [(fun _ => 1, fun _ => 2)]
    (by intro b hb; obtain rfl := List.mem_singleton.1 hb; intro i; norm_num)
    (by intro b hb; obtain rfl := List.mem_singleton.1 hb; exact tanhGraph_safe)
  exact ⟨net, us, ls, h1, h2, h3, h4⟩

/-- On the single point `0` all seven methods return `tanh 0 = 0`. -/
example (k : Method) : ∃ net us ls,
    (∀ b, tanhGraph.cloneOnBox k.value none none (1 / 10000000) .vSlope 2 4 [0, 1, 2] (fun v => toString v) 2 b = .ok (net b)) ∧
    getRangeBox net k.mode 1 1 [(fun _ => 0, fun _ => 0)] = .ok (us, ls) ∧ us[0]? = some 0 ∧ ls[0]? = some 0 := by
  obtain ⟨net, us, ls, h1, h2, h3⟩ := C140_point (n := 0) tanhGraph [0, 1, 2] 2 2 k (tanhGraph_ready _) none none (Decidable.not_or_of_imp id)
    (fun _ _ v hv => by
      have : v = 0 ∨ v = 1 ∨ v = 2 := by simpa using hv
      rcases this with rfl | rfl | rfl
      · exact trivial
      · exact trivial
      · exact fun h => nomatch h)
    (1 / 10000000) (by norm_num) .vSlope 3 (by simp) (fun v => toString v) 1 1 le_rfl [fun _ => 0]
  refine ⟨net, us, ls, h1, h2, ?_⟩
  have hv : tanhGraph.IsOutput [0, 1, 2] 2 (fun _ => 0) (fun _ => 0) := by
    refine ⟨fun v => fun _ => 0, fun v hv => ?_, fun _ => rfl⟩
    have : v = 0 ∨ v = 1 ∨ v = 2 := by simpa using hv
    rcases this with rfl | rfl | rfl
    · rfl
    · rfl
    · funext c
      exact Real.tanh_zero.symm
  exact h3 0 _ rfl ⟨0, by decide⟩ _ hv

end Decomon
